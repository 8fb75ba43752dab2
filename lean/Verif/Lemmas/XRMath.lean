import Verif.Model.XRMath
import Verif.Lemmas.XR

/-! Simplification lemmas for the elementary functions on `XR`. -/

namespace GW
namespace XR

theorem pow_fin_pos {a : ℝ} (h : 0 < a) (p : ℝ) : pow (fin a) p = fin (a ^ p) := by simp [pow, h]
theorem pow_fin_zero_pos {p : ℝ} (h : 0 < p) : pow (fin 0) p = fin 0 := by simp [pow, h]
theorem pow_fin_zero_neg {p : ℝ} (h : p < 0) : pow (fin 0) p = pinf := by
  simp [pow, not_lt.2 h.le, h.ne]
@[simp] theorem sqrt_fin {a : ℝ} (h : 0 ≤ a) : sqrt (fin a) = fin (Real.sqrt a) := by simp [sqrt, h]
theorem sqrt_fin_neg {a : ℝ} (h : a < 0) : sqrt (fin a) = nan := by simp [sqrt, not_le.2 h]
@[simp] theorem abs_fin (a : ℝ) : abs (fin a) = fin |a| := rfl
@[simp] theorem square_fin (a : ℝ) : square (fin a) = fin (a * a) := rfl
@[simp] theorem max_fin_fin (a b : ℝ) : max (fin a) (fin b) = fin (Max.max a b) := rfl
@[simp] theorem min_fin_fin (a b : ℝ) : min (fin a) (fin b) = fin (Min.min a b) := by
  simp only [min, neg_fin, max_fin_fin, max_neg_neg, neg_neg]
theorem eqc_fin (a b : ℝ) : eqc (fin a) b = decide (a = b) := rfl
@[simp] theorem eqc_fin_of_ne {a b : ℝ} (h : a ≠ b) : eqc (fin a) b = false := by simp [eqc, h]
@[simp] theorem eqc_fin_self (a : ℝ) : eqc (fin a) a = true := by simp [eqc]
@[simp] theorem eqc_pinf (a : ℝ) : eqc pinf a = false := rfl
@[simp] theorem eqc_ninf (a : ℝ) : eqc ninf a = false := rfl
@[simp] theorem eqc_nan (a : ℝ) : eqc nan a = false := rfl
@[simp] theorem select_true (a b : XR) : select true a b = a := rfl
@[simp] theorem select_false (a b : XR) : select false a b = b := rfl
@[simp] theorem cos_fin (a : ℝ) : cos (fin a) = fin (Real.cos a) := rfl
@[simp] theorem sin_fin (a : ℝ) : sin (fin a) = fin (Real.sin a) := rfl
theorem arccos_fin {a : ℝ} (h1 : -1 ≤ a) (h2 : a ≤ 1) : arccos (fin a) = fin (Real.arccos a) := by simp [arccos, h1, h2]
@[simp] theorem arctan2_fin (y x : ℝ) : arctan2 (fin y) (fin x) = fin (Complex.arg ⟨x, y⟩) := rfl
@[simp] theorem log1p_fin {a : ℝ} (h : 0 < 1 + a) : log1p (fin a) = fin (Real.log (1 + a)) := by simp [log1p, h]

theorem logaddexp_fin (a b : ℝ) : logaddexp (fin a) (fin b) = fin (Real.log (Real.exp a + Real.exp b)) := by
  have hp : 0 < 1 + Real.exp (-|a - b|) := by positivity
  simp only [logaddexp, sub_fin_fin, isNan_fin, Bool.false_eq_true, if_false, abs_fin, neg_fin, exp_fin, log1p_fin hp, max_fin_fin, add_fin_fin]
  congr 1
  rw [← Real.log_exp (Max.max a b), ← Real.log_mul (Real.exp_pos _).ne' hp.ne']
  congr 1
  rcases le_total a b with h | h
  · rw [max_eq_right h, abs_of_nonpos (by linarith), mul_add, mul_one, ← Real.exp_add, show b + - -(a - b) = a by ring]
    ring
  · rw [max_eq_left h, abs_of_nonneg (by linarith), mul_add, mul_one, ← Real.exp_add, show a + -(a - b) = b by ring]

theorem softplus_fin (a : ℝ) : softplus (fin a) = fin (Real.log (1 + Real.exp a)) := by
  rw [softplus, logaddexp_fin, Real.exp_zero, add_comm]

end XR
end GW
