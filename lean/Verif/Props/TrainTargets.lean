import Verif.Model.TrainTargets
import Verif.Lemmas.XR
import Mathlib.Tactic.Linarith

/-!
# C57: training targets in log space
-/

namespace GW.TrainTargets
open GW

/-- **C57 (partial: positive targets).** For positive targets the prepared value is the logarithm, so it is strictly
increasing. -/
theorem C57_positive_targets_ordered_partial (tiny a b : ℝ) (ha : 0 < a) (hab : a < b) :
    logTarget tiny (.fin a) = .fin (Real.log a) ∧ logTarget tiny (.fin b) = .fin (Real.log b) ∧
    Real.log a < Real.log b := by
  refine ⟨?_, ?_, Real.log_lt_log ha hab⟩ <;> simp [logTarget, ha, ha.trans hab]

/-- **C57 (violated).** A target of zero (never detected) is prepared as `-tiny`, which is *larger* than the prepared value of
every target `y` with `0 < y < exp(-tiny)` — practically every probability below one. -/
theorem C57_zero_target_violated (tiny y : ℝ) (hy : 0 < y) (h : y < Real.exp (-tiny)) :
    logTarget tiny (.fin 0) = .fin (-tiny) ∧ logTarget tiny (.fin y) = .fin (Real.log y) ∧ Real.log y < -tiny := by
  refine ⟨by simp [logTarget], by simp [logTarget, hy], ?_⟩
  rw [Real.log_lt_iff_lt_exp hy]
  exact h

/-- **C57 (finite).** Every finite target `≥ 0` is prepared as a finite number. -/
theorem C57_targets_finite (tiny y : ℝ) (hy : 0 ≤ y) : ∃ t : ℝ, logTarget tiny (.fin y) = .fin t := by
  rcases hy.eq_or_lt with rfl | hy
  · exact ⟨-tiny, by simp [logTarget]⟩
  · exact ⟨Real.log y, by simp [logTarget, hy]⟩

/-- Non-vacuity of C57: with any `tiny ≤ 1/2`, probability 1/2 is affected. -/
example (tiny : ℝ) (h : tiny ≤ 1 / 2) : (1 / 2 : ℝ) < Real.exp (-tiny) ∨ (1 / 2 : ℝ) = Real.exp (-tiny) ∨ tiny = 1 / 2 := by
  have := Real.add_one_le_exp (-tiny)
  rcases lt_or_eq_of_le (show (1 / 2 : ℝ) ≤ Real.exp (-tiny) by linarith) with h | h
  · exact Or.inl h
  · exact Or.inr (Or.inl h)

end GW.TrainTargets
