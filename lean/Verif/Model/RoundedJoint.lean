import Verif.Model.RoundedLikelihood

/-!
# The log density of a joint distribution in rounded arithmetic

Simplifications: those of `Model/Rounding.lean`; the log densities of the marginals enter as they are.
-/

namespace GW.RoundedLikelihood
open GW XR Rounding

noncomputable section

/-- The loop of `JointDistribution.log_prob`: zeros, plus the log densities of the marginals one after the other, rounded after every addition.
Source: gwkokab/models/utils/_joindistribution.py lines 132–148. -/
def jointLogProb (fl : ℝ → XR) (marginals : List XR) : XR := marginals.foldl (fun acc l => Rounding.add fl acc l) (fin 0)

end
end GW.RoundedLikelihood
