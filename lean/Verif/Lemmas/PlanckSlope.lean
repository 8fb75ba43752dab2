import Verif.Props.Planck
import Mathlib.Analysis.SpecialFunctions.Trigonometric.DerivHyp
import Mathlib.Analysis.Calculus.Deriv.MeanValue

/-! How fast the Planck window rises. -/

namespace GW
open Set

theorem planck_le_one (x : ℝ) : planckTaper x ≤ 1 := by
  unfold planckTaper
  split_ifs
  · norm_num
  · exact le_rfl
  · have := Real.exp_pos (1 / x + 1 / (x - 1))
    rw [div_le_one (by positivity)]
    linarith

theorem planck_ge_zero (x : ℝ) : 0 ≤ planckTaper x := by
  unfold planckTaper
  split_ifs <;> positivity

theorem planck_mono : Monotone planckTaper := by
  intro x y hxy
  rcases le_or_gt x 0 with h | h
  · rw [(GW.Num.C25_window_shape.1 x).2 h]
    exact planck_ge_zero y
  rcases le_or_gt 1 y with k | k
  · rw [(GW.Num.C25_window_shape.2.1 y).2 k]
    exact planck_le_one x
  · exact GW.Num.C25_window_shape.2.2.2.1.monotoneOn ⟨h.le, by linarith⟩ ⟨by linarith, k.le⟩ hxy

theorem exp_add_exp_neg (g : ℝ) : 2 + g ^ 2 ≤ Real.exp g + Real.exp (-g) := by
  have h : (g / 2) ^ 2 ≤ Real.sinh (g / 2) ^ 2 := by
    rcases le_total 0 (g / 2) with hg | hg
    · exact pow_le_pow_left₀ hg (Real.self_le_sinh_iff.2 hg) 2
    · have := pow_le_pow_left₀ (neg_nonneg.2 hg) (Real.self_le_sinh_iff.2 (neg_nonneg.2 hg)) 2
      rwa [Real.sinh_neg, neg_sq, neg_sq] at this
  rw [Real.sinh_eq] at h
  have e1 : Real.exp (g / 2) ^ 2 = Real.exp g := by rw [← Real.exp_nat_mul]; congr 1; push_cast; ring
  have e2 : Real.exp (-(g / 2)) ^ 2 = Real.exp (-g) := by rw [← Real.exp_nat_mul]; congr 1; push_cast; ring
  have e3 : Real.exp (g / 2) * Real.exp (-(g / 2)) = 1 := by rw [← Real.exp_add]; simp
  nlinarith

theorem planck_deriv {x : ℝ} (h0 : 0 < x) (h1 : x < 1) :
    HasDerivAt planckTaper ((1 / x ^ 2 + 1 / (1 - x) ^ 2) * Real.exp (1 / x + 1 / (x - 1)) / (1 + Real.exp (1 / x + 1 / (x - 1))) ^ 2) x := by
  have a : x ≠ 0 := h0.ne'
  have b : x - 1 ≠ 0 := by linarith
  have hg : HasDerivAt (fun y : ℝ => 1 / y + 1 / (y - 1)) (-(1 / x ^ 2 + 1 / (1 - x) ^ 2)) x := by
    have := ((hasDerivAt_id x).inv a).add (((hasDerivAt_id x).sub_const 1).inv b)
    refine (this.congr_of_eventuallyEq (Filter.Eventually.of_forall fun y => ?_)).congr_deriv ?_
    · simp
    · simp only [id]
      rw [show (1 - x) ^ 2 = (x - 1) ^ 2 by ring]
      ring
  have hd := (hg.exp.const_add 1).inv (by positivity)
  refine (hd.congr_of_eventuallyEq ?_).congr_deriv ?_
  · filter_upwards [gt_mem_nhds h1, lt_mem_nhds h0] with y hy hy'
    rw [GW.Num.planck_mid hy' hy, one_div]
    rfl
  · ring

theorem planck_deriv_le {x : ℝ} (h0 : 0 < x) (h1 : x < 1) :
    (1 / x ^ 2 + 1 / (1 - x) ^ 2) * Real.exp (1 / x + 1 / (x - 1)) / (1 + Real.exp (1 / x + 1 / (x - 1))) ^ 2 ≤ 2 := by
  set g := 1 / x + 1 / (x - 1) with hg
  have hE := Real.exp_pos g
  rw [div_le_iff₀ (by positivity)]
  have key := exp_add_exp_neg g
  have hE' : Real.exp g * Real.exp (-g) = 1 := by rw [← Real.exp_add]; simp
  have h2 : Real.exp g * (4 + g ^ 2) ≤ (1 + Real.exp g) ^ 2 := by nlinarith
  have hP : 4 ≤ 1 / (x * (1 - x)) := by
    rw [le_div_iff₀ (mul_pos h0 (by linarith))]
    nlinarith [sq_nonneg (2 * x - 1)]
  set P := 1 / (x * (1 - x)) with hPd
  have a : x ≠ 0 := h0.ne'
  have b : x - 1 ≠ 0 := by linarith
  have c : 1 - x ≠ 0 := by linarith
  have e0 : 1 / x + 1 / (1 - x) = P := by rw [hPd]; field_simp; ring
  have e1 : 1 / x ^ 2 + 1 / (1 - x) ^ 2 = P ^ 2 - 2 * P := by
    rw [hPd]; field_simp; ring
  have e2 : g ^ 2 = P ^ 2 - 4 * P := by
    rw [hg, show 1 / (x - 1) = -(1 / (1 - x)) by rw [← neg_sub, one_div_neg_eq_neg_one_div], hPd]; field_simp; ring
  rw [e1]
  have h3 : P ^ 2 - 2 * P ≤ 2 * (4 + g ^ 2) := by rw [e2]; nlinarith
  calc (P ^ 2 - 2 * P) * Real.exp g ≤ 2 * (4 + g ^ 2) * Real.exp g := mul_le_mul_of_nonneg_right h3 hE.le
    _ ≤ 2 * (1 + Real.exp g) ^ 2 := by linarith

/-- The window rises at most with slope two. -/
theorem planck_slope {x y : ℝ} (hxy : x ≤ y) : planckTaper y - planckTaper x ≤ 2 * (y - x) := by
  have hm : MonotoneOn (fun t => 2 * t - planckTaper t) (Icc 0 1) := by
    refine monotoneOn_of_deriv_nonneg (convex_Icc 0 1) ((continuous_const.mul continuous_id).sub GW.Num.C25_window_continuous).continuousOn ?_ ?_
    · intro t ht
      rw [interior_Icc] at ht
      exact (((hasDerivAt_id t).const_mul 2).sub (planck_deriv ht.1 ht.2)).differentiableAt.differentiableWithinAt
    · intro t ht
      rw [interior_Icc] at ht
      have := ((hasDerivAt_id t).const_mul 2).sub (planck_deriv ht.1 ht.2)
      have e : deriv (fun t => 2 * t - planckTaper t) t = _ := this.deriv
      rw [e]
      have := planck_deriv_le ht.1 ht.2
      linarith
  have clamp : ∀ t, planckTaper t = planckTaper (max 0 (min t 1)) := by
    intro t
    rcases le_or_gt t 0 with h | h
    · rw [min_eq_left (by linarith), max_eq_left h, (GW.Num.C25_window_shape.1 t).2 h, (GW.Num.C25_window_shape.1 0).2 le_rfl]
    rcases le_or_gt 1 t with k | k
    · rw [min_eq_right k, max_eq_right (by norm_num), (GW.Num.C25_window_shape.2.1 t).2 k, (GW.Num.C25_window_shape.2.1 1).2 le_rfl]
    · rw [min_eq_left k.le, max_eq_right h.le]
  have hc : max 0 (min x 1) ≤ max 0 (min y 1) := max_le_max le_rfl (min_le_min hxy le_rfl)
  have := hm (a := max 0 (min x 1)) (b := max 0 (min y 1)) ⟨le_max_left _ _, max_le (by norm_num) (min_le_right _ _)⟩ ⟨le_max_left _ _, max_le (by norm_num) (min_le_right _ _)⟩ hc
  simp only at this
  rw [← clamp, ← clamp] at this
  have hd : max 0 (min y 1) - max 0 (min x 1) ≤ y - x := by
    have h1 : min y 1 ≤ min x 1 + (y - x) := by
      rcases le_total x 1 with p | p
      · rw [min_eq_left p]
        exact (min_le_left _ _).trans (by linarith)
      · rw [min_eq_right p]
        exact (min_le_right _ _).trans (by linarith)
    have h2 : max 0 (min y 1) ≤ max 0 (min x 1) + (y - x) := max_le (by have := le_max_left 0 (min x 1); linarith) (h1.trans (by have := le_max_right 0 (min x 1); linarith))
    linarith
  linarith

/-- Near its lower edge the window is far below any line. -/
theorem planck_le_sq {x : ℝ} (h0 : 0 ≤ x) (h1 : x ≤ 1 / 2) : planckTaper x ≤ 4 * x ^ 2 := by
  rcases h0.eq_or_lt with h | h
  · rw [← h, (GW.Num.C25_window_shape.1 0).2 le_rfl]
    norm_num
  · rw [GW.Num.planck_mid h (by linarith)]
    have a : -2 ≤ 1 / (x - 1) := by
      rw [le_div_iff_of_neg (by linarith)]
      linarith
    have b := Real.add_one_le_exp ((1 / x - 2) / 2)
    have hE := Real.exp_pos ((1 / x - 2) / 2)
    have hx : 2 ≤ 1 / x := by rw [le_div_iff₀ h]; linarith
    have c : Real.exp ((1 / x - 2) / 2) ^ 2 = Real.exp (1 / x - 2) := by rw [← Real.exp_nat_mul]; congr 1; push_cast; ring
    have d : Real.exp (1 / x - 2) ≤ Real.exp (1 / x + 1 / (x - 1)) := Real.exp_le_exp.2 (by linarith)
    have e : (1 / x) ^ 2 ≤ 4 * (1 + Real.exp (1 / x + 1 / (x - 1))) := by nlinarith
    rw [div_le_iff₀ (by positivity)]
    have f : x ^ 2 * (1 / x) ^ 2 = 1 := by field_simp
    nlinarith [mul_le_mul_of_nonneg_left e (sq_nonneg x)]

end GW
