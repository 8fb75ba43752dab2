import Verif.Model.RoundedPowerLaw
import Verif.Model.RoundedLikelihood

/-!
# A population of power laws in rounded arithmetic

The log density `ScaledMixture.log_prob` of truncated power laws, every operation rounded.

Simplifications: those of `Model/Rounding.lean`; one dimension; the log rates and the parameters of the components enter as they are.
-/

namespace GW.RoundedPowerLaw
open GW XR Rounding

noncomputable section
open Classical

/-- A component: its log rate and its parameters.  Source: gwkokab/models/utils/_scaledmixture.py lines 44–90 (`log_scales`,
`component_distributions`) and gwkokab/models/utils/_doubletruncpowerlaw.py lines 382–398. -/
structure Component where
  logRate : ℝ
  alpha : ℝ
  low : ℝ
  high : ℝ

/-- The log density of a component as the mixture sees it: `-inf` outside the support.  Source: gwkokab/models/utils/_scaledmixture.py lines 236–247 (`jnp.where`
on the support) and gwkokab/models/utils/_doubletruncpowerlaw.py lines 391, 404–418. -/
def Component.logProb (fl : ℝ → XR) (c : Component) (m : ℝ) : XR :=
  if c.low ≤ m ∧ m ≤ c.high then RoundedPowerLaw.logProb fl (fin m) c.alpha c.low c.high else ninf

/-- `ScaledMixture.log_prob` of truncated power laws.  Source: gwkokab/models/utils/_scaledmixture.py lines 151–161 and 236–247. -/
def populationLogProb (fl : ℝ → XR) (R : RoundedLikelihood.Reduction) (cs : List Component) (m : ℝ) : XR :=
  RoundedLikelihood.mixtureLogProb fl R (cs.map fun c => (c.logRate, c.logProb fl m))

end
end GW.RoundedPowerLaw
