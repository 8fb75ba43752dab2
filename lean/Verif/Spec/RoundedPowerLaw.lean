import Verif.Model.Rounding
import Mathlib.MeasureTheory.Integral.IntervalIntegral.Basic
import Mathlib.Analysis.SpecialFunctions.Pow.Real

/-!
# What a rounded power law density should be
-/

namespace GW.RoundedPowerLaw
open GW XR Rounding

noncomputable section

/-- The normalisation constant of `x ^ alpha` on `[low, high]`. -/
def mass (alpha low high : ℝ) : ℝ := ∫ t in low..high, t ^ alpha

/-- How much the rounding errors of the intermediate results are enlarged by the difference the normalisation constant is computed from. -/
def amplification (alpha low high : ℝ) : ℝ :=
  open Classical in
  if alpha = -1 then (|Real.log high| + |Real.log low| + 2) / Real.log (high / low)
  else (1 + |1 + alpha| * Max.max |Real.log high| |Real.log low|) *
    ((high ^ (1 + alpha) + low ^ (1 + alpha)) / |high ^ (1 + alpha) - low ^ (1 + alpha)|)

/-- The intermediate results neither overflow nor underflow. -/
structure InRange (f : Format) (alpha low high : ℝ) : Prop where
  exponent : |1 + alpha| ≤ (2 : ℝ) ^ f.emax
  powers : alpha ≠ -1 → ∀ b, b = low ∨ b = high → (2 : ℝ) ^ (f.emin + f.p) ≤ b ^ (1 + alpha) ∧ b ^ (1 + alpha) ≤ (2 : ℝ) ^ (f.emax - 1)
  massLow : (2 : ℝ) ^ (f.emin + f.p) ≤ mass alpha low high
  massHigh : mass alpha low high ≤ (2 : ℝ) ^ (f.emax - 1)
  logs : |Real.log high| + |Real.log low| + 1 ≤ (2 : ℝ) ^ f.emax
  logMass : |Real.log (mass alpha low high)| + 1 ≤ (2 : ℝ) ^ f.emax

end
end GW.RoundedPowerLaw
