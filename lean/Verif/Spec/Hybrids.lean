import Verif.Model.Hybrids

/-!
# What the hybrid models are documented to be

The naming convention of the hyper-parameters (docstring of `NPowerlawMGaussian`): `<quantity>_<argument>_<component type>_<number>`, where
the masses are abbreviated `m1`, `m2`, the power laws of the masses have no quantity prefix, and the joint spin factors share one weight.
-/

namespace GW.Hybrids
open GW.PyDict

/-- The two spin-magnitude models exclude each other, and so do the two effective-spin models. -/
def Exclusive (o : Flag → Bool) : Prop :=
  ¬ (o .betaSpin = true ∧ o .spinMixture = true) ∧ ¬ (o .chiEffMixture = true ∧ o .chiEffSkew = true)

/-- The prefix of a quantity in hyper-parameter names. -/
def prefixOf (q : String) : String :=
  if q = "mass_1_source" then "m1" else if q = "mass_2_source" then "m2" else q

/-- The prefix of a hyper-parameter of a whole factor. -/
def groupPrefix (qs : List String) : String :=
  if qs = ["a_1", "a_2"] then "a_" else if qs = ["cos_tilt_1", "cos_tilt_2"] then "cos_tilt_" else ""

/-- The word naming an argument of a mass power law. -/
def word (cls kwarg : String) : String :=
  if cls = "BrokenPowerlaw" then
    if kwarg = "mbreak" then "m1break" else if kwarg = "mmin" then "m1min" else if kwarg = "mmax" then "m1max" else kwarg
  else if cls = "DoublyTruncatedPowerLaw" then
    if kwarg = "low" then "mmin" else if kwarg = "high" then "mmax" else kwarg
  else kwarg

/-- The shared hyper-parameter name for an argument of a factor of a component of type `ct`. -/
def hyperName (cls : String) (qs : List String) (ct : String) (coord : Option Nat) (kwarg : String) : String :=
  match coord with
  | some k => prefixOf (qs.getD k "") ++ "_" ++ kwarg ++ "_" ++ ct
  | none => groupPrefix qs ++ word cls kwarg ++ "_" ++ ct

/-- What an argument is when its hyper-parameter is not given: `none` if it must be given, otherwise absent or a number. -/
def fallback (cls kwarg : String) : Option (Option Int) :=
  if cls = "TruncatedNormal" ∧ kwarg ∈ ["low", "high"] then some none
  else if cls = "TwoTruncatedNormalMixture" ∧ kwarg ∈ ["comp1_low", "comp1_high", "comp2_low", "comp2_high"] then some none
  else if cls = "NDTwoTruncatedNormalMixture" ∧ kwarg ∈ ["comp1_low", "comp2_low"] then some (some 0)
  else if cls = "NDTwoTruncatedNormalMixture" ∧ kwarg ∈ ["comp1_high", "comp2_high"] then some (some 1)
  else if cls = "MinimumTiltModelExtended" ∧ kwarg = "minimum" then some (some (-1))
  else none

/-- `DoublyTruncatedPowerLaw` has the density `x ↦ x ^ alpha` while the hyper-parameter `alpha` is the slope of `m ↦ m ^ (-alpha)`. -/
def flips (cls kwarg : String) : Bool := cls = "DoublyTruncatedPowerLaw" && kwarg = "alpha"

/-- The argument `a` of the factor `f` of component number `i` of type `ct` has the value of its own hyper-parameter, else of the shared one,
else the documented fallback. -/
def Configured (params : Dict String ℝ) (ct : String) (i : Nat) (f : Factor) (a : Arg) : Prop :=
  let n := hyperName f.cls f.quantities ct a.coord a.kwarg
  let turn : ℝ → ℝ := fun x => if flips f.cls a.kwarg then -x else x
  match get? params (n ++ "_" ++ toString i), get? params n with
  | some x, _ => a.value = some (turn x)
  | none, some x => a.value = some (turn x)
  | none, none => ∃ d, fallback f.cls a.kwarg = some d ∧ a.value = d.map fun k => (k : ℝ)

/-- The keyword arguments each class takes (per coordinate where the argument has one value per coordinate). -/
def signature (cls : String) : List (Option Nat × String) :=
  if cls = "BetaFromMeanVar" then [(some 0, "mean"), (some 0, "variance")]
  else if cls = "TruncatedNormal" then [(some 0, "loc"), (some 0, "scale"), (some 0, "low"), (some 0, "high")]
  else if cls = "IndependentSpinOrientationGaussianIsotropic" then [(none, "zeta"), (some 0, "scale"), (some 1, "scale")]
  else if cls = "PowerlawPrimaryMassRatio" then [(none, "alpha"), (none, "beta"), (none, "mmin"), (none, "mmax")]
  else if cls = "PowerlawRedshift" then [(some 0, "kappa"), (some 0, "z_max")]
  else if cls = "Uniform" then [(some 0, "low"), (some 0, "high")]
  else if cls = "BrokenPowerlaw" then [(none, "alpha1"), (none, "alpha2"), (none, "mbreak"), (none, "mmin"), (none, "mmax")]
  else if cls = "MinimumTiltModelExtended" then
    [(none, "zeta"), (some 0, "loc"), (some 1, "loc"), (some 0, "scale"), (some 1, "scale"), (some 0, "minimum"), (some 1, "minimum")]
  else if cls = "DoublyTruncatedPowerLaw" then [(none, "alpha"), (none, "low"), (none, "high")]
  else if cls = "TwoTruncatedNormalMixture" then
    [(some 0, "comp1_high"), (some 0, "comp2_high"), (some 0, "comp1_loc"), (some 0, "comp2_loc"), (some 0, "comp1_low"),
     (some 0, "comp2_low"), (some 0, "comp1_scale"), (some 0, "comp2_scale"), (some 0, "zeta")]
  else if cls = "NDTwoTruncatedNormalMixture" then
    (none, "zeta") :: [0, 1].flatMap fun k =>
      ["comp1_high", "comp1_loc", "comp1_low", "comp1_scale", "comp2_high", "comp2_loc", "comp2_low", "comp2_scale"].map fun w => (some k, w)
  else if cls = "GWTC4EffectiveSpinSkewNormalModel" then [(some 0, "loc"), (some 0, "scale"), (some 0, "epsilon")]
  else []

/-- Component number `i` of type `ct`: every factor is called with all its arguments, each from its hyper-parameter. -/
def WellConfigured (params : Dict String ℝ) (ct : String) (i : Nat) (c : List Factor) : Prop :=
  ∀ f ∈ c, signature f.cls ≠ [] ∧ f.args.map (fun a => (a.coord, a.kwarg)) = signature f.cls ∧ ∀ a ∈ f.args, Configured params ct i f a

/-- The quantities of the coordinates of a component. -/
def coordinates (c : List Factor) : List String := c.flatMap (·.quantities)

/-- The distribution families of a component. -/
def families (c : List Factor) : List String := c.map (·.cls)

end GW.Hybrids
