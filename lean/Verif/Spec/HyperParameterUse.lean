import Verif.Spec.Hybrids

/-!
# Which hyper-parameters of a hybrid model matter

A hyper-parameter of a component matters if the convention of `Verif.Spec.Hybrids` makes it the value of an argument of one of the component's
factors.
-/

namespace GW.Hybrids

/-- `n` is the hyper-parameter of an argument of component number `i` of type `ct`. -/
def Feeds (n ct : String) (i : Nat) (c : List Factor) : Prop :=
  ∃ f ∈ c, ∃ a ∈ f.args, n = hyperName f.cls f.quantities ct a.coord a.kwarg ++ "_" ++ toString i

/-- The hyper-parameters `n_pls_m_gs` asks for without using them: a location and a scale for angles the model takes to be uniform. -/
def unusedAngles : List (Flag × String) :=
  [(.phi12, "phi_12"), (.cosIota, "cos_iota"), (.polarization, "psi"), (.rightAscension, "ra"), (.sinDeclination, "dec")]

/-- `n` is the location or scale of an angle that is switched on. -/
def UnusedAngle (o : Flag → Bool) (Npl Ng : Nat) (n : String) : Prop :=
  ∃ a ∈ unusedAngles, o a.1 = true ∧ ∃ w ∈ ["loc", "scale"], (∃ i < Npl, n = a.2 ++ "_" ++ w ++ "_pl_" ++ toString i) ∨
    ∃ i < Ng, n = a.2 ++ "_" ++ w ++ "_g_" ++ toString i

/-- `n` is a hyper-parameter of the precessing spin, which synthetic populations drop. -/
def UnusedPrecession (o : Flag → Bool) (Npl Ng : Nat) (n : String) : Prop :=
  o .chiP = true ∧ ∃ w ∈ ["loc", "scale", "low", "high"], (∃ i < Npl, n = "chi_p_" ++ w ++ "_pl_" ++ toString i) ∨
    ∃ i < Ng, n = "chi_p_" ++ w ++ "_g_" ++ toString i

end GW.Hybrids
