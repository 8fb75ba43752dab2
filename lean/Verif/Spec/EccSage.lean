import Verif.Spec.EndToEnd
import Verif.Spec.FullModels
import Verif.Model.EccSage

/-! # The population of the `ecc_matters` analysis -/

namespace GW.EndToEnd
open GW XR MeasureTheory GW.PyDict GW.Full

noncomputable section
open Classical

/-- The hyper-parameters of the population: the log of the rate, the slope and the bounds of the primary mass, the location, scale and bounds of the
eccentricity. -/
structure Eccentric where
  logRate : ℝ
  slope : ℝ
  mmin : ℝ
  mmax : ℝ
  loc : ℝ
  scale : ℝ
  low : ℝ
  high : ℝ

/-- The prior table means these hyper-parameters at those values of the sampled ones. -/
def Eccentric.Meant (E : Eccentric) (params : Dict String (Guru.PVal XR)) (value : String → ℝ) : Prop :=
  ∀ nv ∈ [("log_rate", E.logRate), ("alpha_m", E.slope), ("mmin", E.mmin), ("mmax", E.mmax), ("loc", E.loc), ("scale", E.scale), ("low", E.low), ("high", E.high)],
    Sage.meaning params [] (fun n => fin (value n)) nv.1 = some (some (fin nv.2))

/-- Positive masses, bounds in order, a positive width. -/
def Eccentric.Proper (E : Eccentric) : Prop := 0 < E.mmin ∧ E.mmin < E.mmax ∧ 0 < E.scale ∧ E.low < E.high

/-- The quantities of an event. -/
abbrev eccentricQuantities : List String := ["mass_1_source", "mass_2_source", "eccentricity"]

/-- Mergers per unit of everything: the rate, times a power law in the primary mass, a secondary mass uniform between the lowest mass and the primary, and a
normal eccentricity restricted to its bounds. -/
def Eccentric.rate (E : Eccentric) (x : Event eccentricQuantities) : ℝ :=
  Real.exp E.logRate * (wysockiDensity E.slope E.mmin E.mmax (quantity x "mass_1_source") (quantity x "mass_2_source") *
    Spin.restrictedNormal E.loc E.scale (Set.Icc E.low E.high) (quantity x "eccentricity"))

end
end GW.EndToEnd
