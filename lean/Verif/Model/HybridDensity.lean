import Verif.Model.Hybrids
import Verif.Model.FullModels
import Verif.Model.Transforms

/-!
# The distributions behind the factors of the hybrid models, and `NPowerlawMGaussian`

`Model/Hybrids` says which class is called with which arguments; here the classes are the distributions of the other files, the factors of a component
are joined and the components are mixed.  Hyper-parameters are scalar reals; samplers are not modelled here; neither is the validation of the
hyper-parameters themselves by numpyro.
-/

namespace GW.Hybrids
open GW XR GW.PyDict GW.Joint

/-- Exceptions of the whole construction: of the look-ups, or of the distributions.  Source: gwkokab/models/hybrids/_npowerlawmgaussian.py lines 400–620. -/
inductive BuildErr where
  | lookup (e : Err)
  | build (e : Full.Err)

noncomputable section
open Classical

/-- The value of a keyword argument of a factor, if it is not `None`.  Source: gwkokab/models/hybrids/_ncombination.py lines 99–850. -/
def Factor.arg (f : Factor) (coord : Option Nat) (kwarg : String) : Option ℝ :=
  match f.args.find? fun a => a.coord = coord && a.kwarg = kwarg with
  | some a => a.value
  | none => none

/-- The value of a keyword argument that is always there.  Source: gwkokab/models/hybrids/_ncombination.py lines 99–850. -/
def Factor.num (f : Factor) (coord : Option Nat) (kwarg : String) : ℝ := (f.arg coord kwarg).getD 0

/-- `ExtendedSupportTransformedDistribution(base, t)` for a base with two coordinates and one transform: `support` is
`transform_constraint(base.support, t)` (gwkokab/models/utils/_extendedsupporttransformeddistribution.py lines 10–13;
gwkokab/models/constraints.py lines 374–381) and `log_prob` is numpyro's `TransformedDistribution.log_prob`: starting from zero, minus the log Jacobian,
plus the log density of the base at the inverse. -/
def transformed (t : Transforms.Transform 2) (lp : XR → XR → XR) (supp : XR → XR → Bool) (v : Bool) : Base XR :=
  let support : XR → XR → Bool := fun y0 y1 => Mass.accepts t.codomain [y0, y1] && supp (t.inv ![y0, y1] 0) (t.inv ![y0, y1] 1)
  Full.pair (fun y0 y1 =>
    let y := ![y0, y1]
    let x := t.inv y
    Mass.validated v (support y0 y1) ((fin 0 - t.logDet x y) + lp (x 0) (x 1))) support

/-- The distribution a factor is.  `c` is the default cosmology, `big` is `jnp.finfo(float).max`, `v` is `validate_args`.
Source: the `create_…` functions of gwkokab/models/hybrids/_ncombination.py lines 99–850, class by class: `BetaFromMeanVar` 139–146, `TruncatedNormal` 226–236,
`IndependentSpinOrientationGaussianIsotropic` 279–290, `PowerlawPrimaryMassRatio` under `PrimaryMassAndMassRatioToComponentMassesTransform` 328–338,
`PowerlawRedshift` 373–384, `Uniform` 433–443, `TwoTruncatedNormalMixture` 676–690, `NDTwoTruncatedNormalMixture` 770–793,
`GWTC4EffectiveSpinSkewNormalModel` 838–846, `DoublyTruncatedPowerLaw` 601–609, `BrokenPowerlaw` 484–494, `MinimumTiltModelExtended` 549–563.  A class the model does not call gives a distribution without support. -/
def block (c : Cosmo.Cosmology) (big : ℝ) (v : Bool) (f : Factor) : Base XR :=
  match f.cls, f.quantities with
  | "BetaFromMeanVar", [_] =>
    let p := Beta.fromMeanVar (f.num (some 0) "mean") (f.num (some 0) "variance")
    let d := Full.betaDist p.1 p.2 v
    Full.scalar d.logProb d.support
  | "TruncatedNormal", [_] =>
    let d := Spin.truncatedNormal (f.num (some 0) "loc") (f.num (some 0) "scale") (f.arg (some 0) "low") (f.arg (some 0) "high") v
    Full.scalar d.logProb d.support
  | "IndependentSpinOrientationGaussianIsotropic", [_, _] =>
    Full.pair (fun x y => Spin.independentSpinOrientation (f.num none "zeta") (f.num (some 0) "scale") (f.num (some 1) "scale") v ![x, y])
      fun x y => Spin.interval (-1) 1 x && Spin.interval (-1) 1 y
  | "PowerlawPrimaryMassRatio", [_, _] =>
    let d : Mass.PowerlawPMR := ⟨f.num none "alpha", f.num none "beta", f.num none "mmin", f.num none "mmax", v⟩
    transformed (Transforms.primaryMassRatioToComponents big) d.logProb d.support v
  | "PowerlawRedshift", [_] =>
    Full.redshiftBlock ⟨c, Cosmo.powerlawLogPsi (f.num (some 0) "kappa"), f.num (some 0) "z_max", v⟩
  | "Uniform", [_] =>
    let d := Spin.uniform (f.num (some 0) "low") (f.num (some 0) "high") v
    Full.scalar d.logProb d.support
  | "TwoTruncatedNormalMixture", [_] =>
    Full.scalar (Spin.twoTruncatedNormalMixture (f.arg (some 0) "comp1_high") (f.num (some 0) "comp1_loc") (f.arg (some 0) "comp1_low")
        (f.num (some 0) "comp1_scale") (f.arg (some 0) "comp2_high") (f.num (some 0) "comp2_loc") (f.arg (some 0) "comp2_low")
        (f.num (some 0) "comp2_scale") (f.num (some 0) "zeta") v)
      fun x => Spin.tnSupport (f.arg (some 0) "comp1_low") (f.arg (some 0) "comp1_high") x ||
        Spin.tnSupport (f.arg (some 0) "comp2_low") (f.arg (some 0) "comp2_high") x
  | "NDTwoTruncatedNormalMixture", [_, _] =>
    let a (w : String) : Fin 2 → ℝ := ![f.num (some 0) w, f.num (some 1) w]
    Full.pair (fun x y => Spin.ndTwoTruncatedNormalMixture (a "comp1_high") (a "comp1_loc") (a "comp1_low") (a "comp1_scale") (a "comp2_high")
        (a "comp2_loc") (a "comp2_low") (a "comp2_scale") (f.num none "zeta") v ![x, y])
      fun x y => (Spin.interval (a "comp1_low" 0) (a "comp1_high" 0) x && Spin.interval (a "comp1_low" 1) (a "comp1_high" 1) y) ||
        (Spin.interval (a "comp2_low" 0) (a "comp2_high" 0) x && Spin.interval (a "comp2_low" 1) (a "comp2_high" 1) y)
  | "GWTC4EffectiveSpinSkewNormalModel", [_] =>
    Full.scalar (Spin.skewLogProb (f.num (some 0) "loc") (f.num (some 0) "scale") (f.num (some 0) "epsilon") v) (Spin.interval (-1) 1)
  | "DoublyTruncatedPowerLaw", [_] =>
    let d : PowerLaw.Dist := ⟨f.num none "alpha", f.num none "low", f.num none "high", v⟩
    Full.scalar d.logProb d.support
  | "BrokenPowerlaw", [_] =>
    let d : Mass.Broken := ⟨f.num none "alpha1", f.num none "alpha2", f.num none "mbreak", f.num none "mmax", f.num none "mmin", v⟩
    Full.scalar d.logProb d.support
  | "MinimumTiltModelExtended", [_, _] =>
    Full.pair (fun x y => Spin.minimumTiltExtended (f.num none "zeta") (f.num (some 0) "loc") (f.num (some 1) "loc") (f.num (some 0) "scale")
        (f.num (some 1) "scale") (f.num (some 0) "minimum") (f.num (some 1) "minimum") v ![x, y])
      fun x y => Spin.interval (f.num (some 0) "minimum") 1 x && Spin.interval (f.num (some 1) "minimum") 1 y
  | _, _ => ⟨none, fun _ => nan, fun _ => false, fun _ => .one nan⟩

/-- The components: `[JointDistribution(*dists) for dists in build_distributions]`, _npowerlawmgaussian.py:267–270 and 394–397;
_o3_n_pls_m_gs.py:60–63 and 103–106, _o4_n_bpls_m_gs.py:63–66 and 106–109. -/
def joinAll (c : Cosmo.Cosmology) (big : ℝ) (v : Bool) (components : List (List Factor)) : Except Full.Err (List (Joint.Dist XR)) :=
  components.mapM fun fs => Full.join (fs.map (block c big v))

/-- `ScaledMixture(log_rates, component_dists, support=any_constraint([…]), validate_args)`, _npowerlawmgaussian.py:611–620. -/
def mixAll (v : Bool) (rates : List ℝ) (ds : List (Joint.Dist XR)) : Except Full.Err (Mixture.Mix (Slice XR)) :=
  match Mixture.mkMix (rates.map fin) (ds.map (Full.component v)) (some fun x => ds.any fun d => (d.support x).getD false) with
  | .ok m => .ok m
  | .error e => .error (.mixture e)

/-- `NPowerlawMGaussian(N_pl, N_g, use_…, validate_args, **params)` as a distribution, _npowerlawmgaussian.py:400–620. -/
def populationModel (c : Cosmo.Cosmology) (big : ℝ) (v : Bool) (use : Flag → Bool) (Npl Ng : Nat) (params : Dict String ℝ) :
    Except BuildErr (Mixture.Mix (Slice XR)) :=
  match nPowerlawMGaussian use Npl Ng params with
  | .error e => .error (.lookup e)
  | .ok m => match joinAll c big v m.components with
    | .error e => .error (.build e)
    | .ok ds => match mixAll v m.logRates ds with
      | .error e => .error (.build e)
      | .ok M => .ok M

end

end GW.Hybrids
