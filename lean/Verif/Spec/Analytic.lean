import Mathlib.LinearAlgebra.Matrix.NonsingularInverse
import Mathlib.Analysis.SpecialFunctions.Trigonometric.Basic
import Mathlib.Analysis.SpecialFunctions.Sqrt

/-! Textbook Monte-Carlo means and the multivariate normal density. -/

namespace GW

/-- The mean of a list of weights. -/
noncomputable def mean (w : List ℝ) : ℝ := w.sum / w.length

/-- The estimated variance of the mean: the sample second moment minus the squared mean, over `N - 1`. -/
noncomputable def varOfMean (w : List ℝ) : ℝ := ((w.map (· ^ 2)).sum / w.length - mean w ^ 2) / (w.length - 1)

/-- The rule the loop of an event follows, `w j` being the weights of its first `j` batches: at least one batch and at most `nMax`, another one as long as the estimated squared error is at or below `minErr²`. -/
def StopsAfter (minErr : ℝ) (nMax : ℕ) (w : ℕ → List ℝ) (b : ℕ) : Prop :=
  1 ≤ b ∧ b ≤ nMax ∧ (∀ j, 1 ≤ j → j < b → varOfMean (w j) ≤ minErr ^ 2) ∧ (b < nMax → minErr ^ 2 < varOfMean (w b))

/-- Density of the multivariate normal with mean `μ` and covariance `S`. -/
noncomputable def gauss {d : ℕ} (μ : Fin d → ℝ) (S : Matrix (Fin d) (Fin d) ℝ) (x : Fin d → ℝ) : ℝ :=
  Real.exp (-(1 / 2) * ((x - μ) ⬝ᵥ S⁻¹.mulVec (x - μ))) / (Real.sqrt (2 * Real.pi) ^ d * Real.sqrt S.det)

/-- Density of `d` independent standard normals. -/
noncomputable def stdNormal {d : ℕ} (e : Fin d → ℝ) : ℝ := ∏ i, (Real.exp (-(1 / 2) * e i ^ 2) / Real.sqrt (2 * Real.pi))

end GW
