import Verif.Model.Rounding

/-!
# The power law density in rounded arithmetic

The simplifications are those of `Model/Rounding.lean`.
-/

namespace GW.RoundedPowerLaw
open GW XR Rounding

noncomputable section
open Classical

/-- `doubly_truncated_power_law_log_norm_constant`, gwkokab/models/utils/_doubletruncpowerlaw.py lines 15–30. -/
def logNorm (fl : ℝ → XR) (alpha low high : ℝ) : XR :=
  let oneMoreAlpha := add fl (fin 1) (fin (PowerLaw.safeAlpha alpha))
  let neqNeg1 := rd fl (log (div fl (sub fl (power fl (fin high) oneMoreAlpha) (power fl (fin low) oneMoreAlpha)) oneMoreAlpha))
  let eqNeg1 := rd fl (log (sub fl (rd fl (log (fin high))) (rd fl (log (fin low)))))
  select (PowerLaw.mask alpha) neqNeg1 eqNeg1

/-- `doubly_truncated_power_law_log_prob`, gwkokab/models/utils/_doubletruncpowerlaw.py lines 95–99. -/
def logProb (fl : ℝ → XR) (x : XR) (alpha low high : ℝ) : XR :=
  sub fl (mul fl (fin alpha) (rd fl (log x))) (logNorm fl alpha low high)

end
end GW.RoundedPowerLaw
