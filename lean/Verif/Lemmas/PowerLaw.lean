import Verif.Model.PowerLaw
import Verif.Lemmas.XRMath
import Verif.Spec.XR
import Mathlib.Analysis.SpecialFunctions.Integrals.Basic
import Mathlib.Analysis.SpecialFunctions.Integrability.Basic
import Mathlib.MeasureTheory.Integral.IntervalIntegral.Basic

/-! Closed forms for the truncated power law. -/

namespace GW.PowerLaw
open GW XR

/-- The unnormalised mass between `l` and `x`. -/
noncomputable def J (α l x : ℝ) : ℝ := ∫ t in l..x, t ^ α

theorem intervalIntegrable_rpow_pos {α a b : ℝ} (ha : 0 < a) (hb : 0 < b) :
    IntervalIntegrable (fun t : ℝ => t ^ α) MeasureTheory.volume a b := by
  apply intervalIntegral.intervalIntegrable_rpow
  right
  intro h
  rw [Set.mem_uIcc] at h
  rcases h with h | h <;> linarith [h.1, h.2]

theorem J_add {α l x y : ℝ} (hl : 0 < l) (hx : 0 < x) (hy : 0 < y) : J α l x + J α x y = J α l y :=
  intervalIntegral.integral_add_adjacent_intervals (intervalIntegrable_rpow_pos hl hx) (intervalIntegrable_rpow_pos hx hy)

theorem J_pos {α x y : ℝ} (hx : 0 < x) (hxy : x < y) : 0 < J α x y := by
  apply intervalIntegral.intervalIntegral_pos_of_pos_on (intervalIntegrable_rpow_pos hx (hx.trans hxy)) _ hxy
  intro t ht
  exact Real.rpow_pos_of_pos (hx.trans ht.1) α

theorem J_self (α l : ℝ) : J α l l = 0 := intervalIntegral.integral_same

theorem J_lt {α l x y : ℝ} (hl : 0 < l) (hx : 0 < x) (hxy : x < y) : J α l x < J α l y := by
  have := J_add (α := α) hl hx (hx.trans hxy)
  have := J_pos (α := α) hx hxy
  linarith

theorem J_lt_iff {α l x y : ℝ} (hl : 0 < l) (hx : 0 < x) (hy : 0 < y) : J α l x < J α l y ↔ x < y := by
  constructor
  · intro h
    by_contra hn
    rcases (not_lt.1 hn).eq_or_lt with e | e
    · rw [e] at h
      exact lt_irrefl _ h
    · exact absurd (J_lt (α := α) hl hy e) (not_lt.2 h.le)
  · exact J_lt hl hx

theorem J_le_iff {α l x y : ℝ} (hl : 0 < l) (hx : 0 < x) (hy : 0 < y) : J α l x ≤ J α l y ↔ x ≤ y := by
  rw [← not_lt, ← not_lt, J_lt_iff hl hy hx]

theorem J_inj {α l x y : ℝ} (hl : 0 < l) (hx : 0 < x) (hy : 0 < y) (h : J α l x = J α l y) : x = y :=
  le_antisymm ((J_le_iff hl hx hy).1 h.le) ((J_le_iff hl hy hx).1 h.ge)

theorem J_closed {α l x : ℝ} (hα : α ≠ -1) (hl : 0 < l) (hx : 0 < x) : J α l x = (x ^ (1 + α) - l ^ (1 + α)) / (1 + α) := by
  rw [J, integral_rpow, add_comm]
  right
  refine ⟨hα, fun h => ?_⟩
  rw [Set.mem_uIcc] at h
  rcases h with h | h <;> linarith [h.1, h.2]

theorem J_neg_one {l x : ℝ} (hl : 0 < l) (hx : 0 < x) : J (-1) l x = Real.log (x / l) := by
  rw [J]
  simp only [Real.rpow_neg_one]
  exact integral_inv_of_pos hl hx

theorem pow_ne {α l h : ℝ} (hα : α ≠ -1) (hl : 0 < l) (hlh : l < h) : h ^ (1 + α) - l ^ (1 + α) ≠ 0 := by
  have h1 := J_pos (α := α) hl hlh
  rw [J_closed hα hl (hl.trans hlh)] at h1
  intro e
  rw [e] at h1
  simp at h1

theorem mask_of_ne {α : ℝ} (h : α ≠ -1) : mask α = true := by simp [mask, h]
theorem mask_neg_one : mask (-1) = false := by simp [mask]
theorem safeAlpha_of_ne {α : ℝ} (h : α ≠ -1) : safeAlpha α = α := by simp [safeAlpha, h]
theorem one_add_ne {α : ℝ} (h : α ≠ -1) : 1 + α ≠ 0 := fun e => h (by linarith)

theorem logNorm_eq {α l h : ℝ} (hl : 0 < l) (hlh : l < h) : logNorm α l h = fin (Real.log (J α l h)) := by
  have hh := hl.trans hlh
  have hJ := J_pos (α := α) hl hlh
  by_cases hα : α = -1
  · subst hα
    rw [J_neg_one hl hh] at hJ ⊢
    rw [Real.log_div hh.ne' hl.ne'] at hJ ⊢
    simp only [logNorm, logNormX, mask_neg_one, select_false, log_fin_pos hh, log_fin_pos hl, sub_fin_fin, log_fin_pos hJ]
  · rw [J_closed hα hl hh] at hJ ⊢
    simp only [logNorm, logNormX, mask_of_ne hα, select_true, safeAlpha_of_ne hα, pow_fin_pos hh, pow_fin_pos hl, sub_fin_fin,
      div_fin_of_ne _ (one_add_ne hα), log_fin_pos hJ]

theorem logProbFn_eq {α l h x : ℝ} (hl : 0 < l) (hlh : l < h) (hx : 0 < x) :
    logProbFn (fin x) α l h = fin (α * Real.log x - Real.log (J α l h)) := by
  rw [logProbFn, logProbX, ← logNorm, logNorm_eq hl hlh]
  simp [hx]

theorem exp_logProb {α l h x : ℝ} (hl : 0 < l) (hlh : l < h) (hx : 0 < x) :
    Real.exp (α * Real.log x - Real.log (J α l h)) = x ^ α / J α l h := by
  rw [Real.exp_sub, Real.exp_log (J_pos hl hlh), Real.rpow_def_of_pos hx, mul_comm]

/-- The cdf on the positive axis. -/
theorem cdf_eq {α l h x : ℝ} (hl : 0 < l) (hlh : l < h) (hx : 0 < x) :
    cdf (fin x) α l h = fin (Min.min (Max.max (J α l x / J α l h) 0) 1) := by
  have hh := hl.trans hlh
  have hJ := J_pos (α := α) hl hlh
  by_cases hα : α = -1
  · subst hα
    have hne : Real.log (h / l) ≠ 0 := by
      rw [← J_neg_one hl hh]
      exact hJ.ne'
    have e1 : (0 : ℝ) < x / l := by positivity
    have e2 : (0 : ℝ) < h / l := by positivity
    simp only [cdf, mask_neg_one, select_false, div_fin_of_ne _ hl.ne', log_fin_pos e1, log_fin_pos e2, div_fin_of_ne _ hne, clip01,
      max_fin_fin, min_fin_fin, J_neg_one hl hx, J_neg_one hl hh]
  · have hd := pow_ne hα hl hlh
    simp only [cdf, mask_of_ne hα, safeAlpha_of_ne hα, select_true, pow_fin_pos hx, pow_fin_pos hl, pow_fin_pos hh, sub_fin_fin,
      div_fin_of_ne _ hd, clip01, max_fin_fin, min_fin_fin, J_closed hα hl hx, J_closed hα hl hh]
    rw [div_div_div_cancel_right₀ (one_add_ne hα)]

/-- The inverse cdf at a probability: a positive number with the right mass below it. -/
theorem icdf_eq {α l h q : ℝ} (hl : 0 < l) (hlh : l < h) (h0 : 0 ≤ q) (h1 : q ≤ 1) :
    ∃ x, icdf q α l h = fin x ∧ 0 < x ∧ J α l x = q * J α l h := by
  have hh := hl.trans hlh
  by_cases hα : α = -1
  · subst hα
    have e2 : (0 : ℝ) < h / l := by positivity
    have hx : 0 < (h / l) ^ q * l := by positivity
    refine ⟨(h / l) ^ q * l, ?_, hx, ?_⟩
    · simp only [icdf, icdfX, mask_neg_one, select_false, div_fin_of_ne _ hl.ne', pow_fin_pos e2, mul_fin_fin]
    · rw [J_neg_one hl hx, J_neg_one hl hh, mul_div_assoc, div_self hl.ne', mul_one, Real.log_rpow e2]
  · have ha := one_add_ne hα
    have hy : 0 < l ^ (1 + α) + q * (h ^ (1 + α) - l ^ (1 + α)) := by
      have p1 := Real.rpow_pos_of_pos hl (1 + α)
      have p2 := Real.rpow_pos_of_pos hh (1 + α)
      rcases h0.eq_or_lt with e | e
      · rw [← e]
        simpa using p1
      · nlinarith [mul_nonneg (sub_nonneg.2 h1) p1.le, mul_pos e p2]
    have hx := Real.rpow_pos_of_pos hy (1 / (1 + α))
    refine ⟨_, ?_, hx, ?_⟩
    · simp only [icdf, icdfX, mask_of_ne hα, safeAlpha_of_ne hα, select_true, pow_fin_pos hl, pow_fin_pos hh, sub_fin_fin, mul_fin_fin, add_fin_fin,
        pow_fin_pos hy]
    · rw [J_closed hα hl hx, J_closed hα hl hh, ← Real.rpow_mul hy.le, one_div_mul_cancel ha, Real.rpow_one]
      ring

end GW.PowerLaw
