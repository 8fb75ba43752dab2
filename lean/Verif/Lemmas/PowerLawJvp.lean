import Verif.Lemmas.PowerLaw
import Verif.Spec.Tangent
import Mathlib.Analysis.SpecialFunctions.Pow.Deriv
import Mathlib.Analysis.SpecialFunctions.Trigonometric.DerivHyp
import Mathlib.Analysis.Complex.Exponential
import Mathlib.Tactic.FieldSimp

/-! Derivatives of the closed forms. -/

namespace GW.PowerLaw
open GW XR Filter Topology

theorem line (c d : ℝ) : HasDerivAt (fun t : ℝ => c + t * d) d 0 := by
  simpa using ((hasDerivAt_id (0 : ℝ)).mul_const d).const_add c

theorem line_cont (c d : ℝ) : ContinuousAt (fun t : ℝ => c + t * d) 0 := (line c d).continuousAt

theorem ev_pos {c : ℝ} (d : ℝ) (h : 0 < c) : ∀ᶠ t : ℝ in 𝓝 0, 0 < c + t * d :=
  (line_cont c d).eventually (lt_mem_nhds (by simpa using h))

theorem ev_lt {c c' : ℝ} (d d' : ℝ) (h : c < c') : ∀ᶠ t : ℝ in 𝓝 0, c + t * d < c' + t * d' := by
  filter_upwards [ev_pos (d' - d) (sub_pos.2 h)] with t ht
  linarith

theorem ev_ne {c e : ℝ} (d : ℝ) (h : c ≠ e) : ∀ᶠ t : ℝ in 𝓝 0, c + t * d ≠ e :=
  (line_cont c d).eventually (isOpen_ne.mem_nhds (by simpa using h))

/-- `(c + t d) ^ (1 + (α + t β))`. -/
theorem pow_line {c : ℝ} (d α β : ℝ) (hc : 0 < c) :
    HasDerivAt (fun t : ℝ => (c + t * d) ^ (1 + (α + t * β))) ((1 + α) * c ^ α * d + β * c ^ (1 + α) * Real.log c) 0 := by
  have h1 := (line c d).rpow ((line α β).const_add 1) (by simpa using hc)
  refine h1.congr_deriv ?_
  simp only [zero_mul, add_zero]
  rw [show 1 + α - 1 = α by ring]
  ring

/-- `sinh x / x`, continued by `1`. -/
noncomputable def shc (x : ℝ) : ℝ := if x = 0 then 1 else Real.sinh x / x

theorem shc_bound {x : ℝ} (hx : |x| ≤ 1) : |shc x - 1| ≤ x ^ 2 := by
  by_cases h : x = 0
  · simp [shc, h]
  · have b1 := Real.exp_bound hx (n := 3) (by norm_num)
    have b2 := Real.exp_bound (x := -x) (by rwa [abs_neg]) (n := 3) (by norm_num)
    simp only [Finset.sum_range_succ, Finset.sum_range_zero, Nat.factorial] at b1 b2
    norm_num at b1 b2
    have hs : |Real.sinh x - x| ≤ |x| ^ 3 := by
      rw [Real.sinh_eq]
      have h1 := abs_le.1 b1
      have h2 := abs_le.1 b2
      rw [abs_le]
      have := pow_nonneg (abs_nonneg x) 3
      constructor <;> nlinarith [h1.1, h1.2, h2.1, h2.2]
    rw [shc, if_neg h]
    have : Real.sinh x / x - 1 = (Real.sinh x - x) / x := by field_simp
    rw [this, abs_div, div_le_iff₀ (abs_pos.2 h)]
    calc |Real.sinh x - x| ≤ |x| ^ 3 := hs
      _ = x ^ 2 * |x| := by rw [← sq_abs x]; ring

theorem shc_deriv : HasDerivAt shc 0 0 := by
  rw [hasDerivAt_iff_isLittleO]
  have h0 : shc 0 = 1 := by simp [shc]
  have hO : (fun x : ℝ => shc x - shc 0 - (x - 0) • (0 : ℝ)) =O[𝓝 0] fun x : ℝ => x ^ 2 := by
    apply Asymptotics.IsBigO.of_bound 1
    have : ∀ᶠ x : ℝ in 𝓝 0, |x| < 1 := by
      have := Metric.ball_mem_nhds (0 : ℝ) one_pos
      filter_upwards [this] with x hx
      simpa using hx
    filter_upwards [this] with x hx
    simp only [h0, smul_zero, sub_zero, Real.norm_eq_abs, one_mul]
    rw [abs_of_nonneg (sq_nonneg x)]
    exact shc_bound hx.le
  refine hO.trans_isLittleO ?_
  simpa using (Asymptotics.isLittleO_pow_id (𝕜 := ℝ) (n := 2) one_lt_two)

theorem shc_pos (x : ℝ) : 0 < shc x := by
  rw [shc]
  split
  · exact one_pos
  · rename_i h
    rcases lt_or_gt_of_ne h with h | h
    · exact div_pos_of_neg_of_neg (Real.sinh_neg_iff.2 h) h
    · exact div_pos (Real.sinh_pos_iff.2 h) h

/-- The normalisation in a form that is smooth through the singular exponent. -/
theorem logJ_smooth {α l h : ℝ} (hl : 0 < l) (hlh : l < h) :
    Real.log (J α l h) = (1 + α) * (Real.log l + Real.log h) / 2 + Real.log (Real.log h - Real.log l) +
      Real.log (shc ((1 + α) * (Real.log h - Real.log l) / 2)) := by
  have hh := hl.trans hlh
  have hL : 0 < Real.log h - Real.log l := sub_pos.2 (Real.log_lt_log hl hlh)
  by_cases hα : α = -1
  · subst hα
    rw [J_neg_one hl hh, Real.log_div hh.ne' hl.ne']
    simp [shc]
  · have hs := one_add_ne hα
    have hx : (1 + α) * (Real.log h - Real.log l) / 2 ≠ 0 := by
      have := mul_ne_zero hs hL.ne'
      positivity
    rw [J_closed hα hl hh, ← Real.log_exp ((1 + α) * (Real.log l + Real.log h) / 2), ← Real.log_mul (Real.exp_pos _).ne' hL.ne',
      ← Real.log_mul (mul_pos (Real.exp_pos _) hL).ne' (shc_pos _).ne']
    congr 1
    rw [shc, if_neg hx, Real.sinh_eq, Real.rpow_def_of_pos hh, Real.rpow_def_of_pos hl]
    set s := 1 + α with hsdef
    have e1 : Real.exp (Real.log h * s) = Real.exp (s * (Real.log l + Real.log h) / 2) * Real.exp (s * (Real.log h - Real.log l) / 2) := by
      rw [← Real.exp_add]; congr 1; ring
    have e2 : Real.exp (Real.log l * s) = Real.exp (s * (Real.log l + Real.log h) / 2) * Real.exp (-(s * (Real.log h - Real.log l) / 2)) := by
      rw [← Real.exp_add]; congr 1; ring
    rw [e1, e2]
    field_simp

end GW.PowerLaw
