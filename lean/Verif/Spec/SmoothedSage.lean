import Verif.Spec.EndToEnd
import Verif.Spec.SmoothedDensity
import Verif.Model.SmoothedSage

/-! # The population of the smoothed analyses -/

namespace GW.EndToEnd
open GW XR MeasureTheory GW.PyDict GW.Hybrids

noncomputable section
open Classical

/-- The options of the smoothed analyses. -/
def Offered (f : Flag) : Prop := f ∈ [.betaSpin, .spinMixture, .chiEffMixture, .chiEffSkew, .chiP, .tilt, .eccentricity, .redshift]

/-- Beta laws vanish at both ends: both concentrations exceed one.  Other laws: no condition. -/
def Peaked : Law → Prop
  | .beta mean variance => 1 < mean * (mean * (1 - mean) / variance - 1) ∧ 1 < (1 - mean) * (mean * (1 - mean) / variance - 1)
  | _ => True

/-- The hyper-parameters the prior table means at those values. -/
def smoothedTold (a : Smoother) (params : Dict String (Guru.PVal XR)) (o : Flag → Bool) (Nb Ng : Nat) (value : String → ℝ) : Dict String ℝ :=
  hyperParameters (a.parameters o Nb Ng) (Sage.meaning params (smoothedExtra a o Nb Ng) fun n => fin (value n))

/-- The hyper-parameters give the components and weights `m` and the shared hyper-parameters `S`. -/
def Describes (a : Smoother) (o : Flag → Bool) (Nb Ng : Nat) (params : Dict String ℝ) (m : Smoothed) (S : Smoothing) : Prop := match a with
  | .o3 => nSmoothedPowerlawMSmoothedGaussian o Nb Ng params = .ok m ∧ S.OfO3 params
  | .o4 => nBrokenPowerlawMGaussian o Nb Ng params = .ok m ∧ S.OfO4 params

/-- Mergers per unit of everything: the rate, times the mixture of the components with its primary mass smoothed and normalised, times the smoothed
normalised power law of the mass ratio. -/
def smoothedRate (dV : ℝ → ℝ) (S : Smoothing) (Z : ℝ → ℝ) {columns : List String} (m : Smoothed) (laws : List (List Law)) (x : Event columns) : ℝ :=
  S.density (S.massTotal (massMixture dV m.weights laws)) Z (weighted m.weights (List.zipWith (namedDensity dV (quantity x)) m.components laws))
    (quantity x "mass_1_source") (quantity x "mass_ratio")

end
end GW.EndToEnd
