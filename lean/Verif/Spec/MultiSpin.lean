import Mathlib.Probability.Distributions.Gaussian.Real
import Mathlib.MeasureTheory.Integral.IntervalIntegral.Basic

/-!
# What a population with spins per mass component is

Nothing here refers to the code.
-/

namespace GW.MultiSpin.Spec
open ProbabilityTheory
open scoped Classical

noncomputable section

/-- The density on the real line of a normal variable conditioned to `[lo, hi]`. -/
def cutNormal (loc scale lo hi x : ℝ) : ℝ :=
  if lo ≤ x ∧ x ≤ hi then gaussianPDFReal loc (scale ^ 2).toNNReal x / ∫ y in lo..hi, gaussianPDFReal loc (scale ^ 2).toNNReal y else 0

/-- The two tilts: with probability `zeta` independent normals conditioned to `[-1, 1]`, else uniform on the square. -/
def tilts (zeta loc1 scale1 loc2 scale2 t1 t2 : ℝ) : ℝ :=
  if (-1 ≤ t1 ∧ t1 ≤ 1) ∧ (-1 ≤ t2 ∧ t2 ≤ 1) then zeta * (cutNormal loc1 scale1 (-1) 1 t1 * cutNormal loc2 scale2 (-1) 1 t2) + (1 - zeta) * (1 / 4) else 0

end
end GW.MultiSpin.Spec
