import Verif.Model.Numeric
import Verif.Spec.Planck
import Verif.Spec.XR
import Verif.Lemmas.XRMath
import Mathlib.Topology.Order.LeftRight

/-!
# C25: the Planck taper is a proper window
-/

namespace GW.Num
open GW XR
open scoped Classical

/-- **C25.**  For every real `x` the function returns exactly `log S(x)`: `-inf` for `x ≤ 0`, `0` for `x ≥ 1`, a finite negative number in between; never NaN. -/
theorem C25_log_window (x : ℝ) : logPlanck (fin x) = log (fin (planckTaper x)) ∧ IsLog (logPlanck (fin x)) ∧ expR (logPlanck (fin x)) = planckTaper x := by
  have key : logPlanck (fin x) = log (fin (planckTaper x)) := by
    unfold logPlanck planckTaper
    by_cases h0 : x ≤ 0
    · simp [h0]
    · push Not at h0
      by_cases h1 : 1 ≤ x
      · simp [select, not_le.2 h0, h1]
      · push Not at h1
        have hx1 : x - 1 ≠ 0 := by linarith
        have hp : 0 < 1 / (1 + Real.exp (1 / x + 1 / (x - 1))) := by positivity
        rw [if_neg (not_le.2 h0), if_neg (not_le.2 h1), log_fin_pos hp]
        simp only [eqc_fin_of_ne h0.ne', eqc_fin_of_ne h1.ne, select_false, div_fin_of_ne _ h0.ne', sub_fin_fin, div_fin_of_ne _ hx1, add_fin_fin, softplus_fin, neg_fin, le_fin_fin,
          not_le.2 h0, lt_fin_fin, h1, decide_true, decide_false, select_true]
        rw [one_div (1 + Real.exp (1 / x + 1 / (x - 1))), Real.log_inv]
  have hn : 0 ≤ planckTaper x := by
    unfold planckTaper
    split_ifs <;> positivity
  refine ⟨key, key ▸ isLog_log_sum hn, ?_⟩
  rw [key]
  rcases hn.eq_or_lt with h | h
  · rw [← h]
    simp
  · rw [log_fin_pos h, expR_fin, Real.exp_log h]

/-- **C25 (special floats).**  `+inf` is above the window, `-inf` below it; a NaN input is treated as being above it. -/
theorem C25_log_window_special : logPlanck pinf = fin 0 ∧ logPlanck ninf = ninf ∧ logPlanck nan = fin 0 := by
  refine ⟨?_, ?_, ?_⟩
  · rw [logPlanck, decide_eq_false (show ¬ le pinf (fin 0) from id), decide_eq_false (show ¬ lt pinf (fin 1) from id)]
    rfl
  · rw [logPlanck, decide_eq_true (show le ninf (fin 0) from trivial)]
    rfl
  · rw [logPlanck, decide_eq_false (show ¬ le nan (fin 0) from id), decide_eq_false (show ¬ lt nan (fin 1) from id)]
    rfl

theorem planck_mid {x : ℝ} (h0 : 0 < x) (h1 : x < 1) : planckTaper x = 1 / (1 + Real.exp (1 / x + 1 / (x - 1))) := by
  simp [planckTaper, not_le.2 h0, not_le.2 h1]

/-- **C25.**  The window: zero exactly for `x ≤ 0`, one exactly for `x ≥ 1`, strictly between otherwise; strictly increasing on `[0, 1]`; `S(x) + S(1-x) = 1` for all real `x`. -/
theorem C25_window_shape :
    (∀ x, planckTaper x = 0 ↔ x ≤ 0) ∧ (∀ x, planckTaper x = 1 ↔ 1 ≤ x) ∧ (∀ x, 0 < x → x < 1 → 0 < planckTaper x ∧ planckTaper x < 1) ∧
    StrictMonoOn planckTaper (Set.Icc 0 1) ∧ (∀ x, planckTaper x + planckTaper (1 - x) = 1) := by
  have hmid : ∀ x, 0 < x → x < 1 → 0 < planckTaper x ∧ planckTaper x < 1 := by
    intro x h0 h1
    rw [planck_mid h0 h1]
    have := Real.exp_pos (1 / x + 1 / (x - 1))
    refine ⟨by positivity, ?_⟩
    rw [div_lt_one (by positivity)]
    linarith
  have hlow : ∀ x, x ≤ 0 → planckTaper x = 0 := fun x h => by simp [planckTaper, h]
  have hhigh : ∀ x, 1 ≤ x → planckTaper x = 1 := fun x h => by
    have : ¬ x ≤ 0 := by linarith
    simp [planckTaper, h, this]
  refine ⟨fun x => ⟨fun h => ?_, hlow x⟩, fun x => ⟨fun h => ?_, hhigh x⟩, hmid, ?_, ?_⟩
  · by_contra hx
    push Not at hx
    rcases lt_or_ge x 1 with h1 | h1
    · exact (hmid x hx h1).1.ne' h
    · rw [hhigh x h1] at h
      norm_num at h
  · by_contra hx
    push Not at hx
    rcases lt_or_ge 0 x with h1 | h1
    · exact (hmid x h1 hx).2.ne h
    · rw [hlow x h1] at h
      norm_num at h
  · intro x hx y hy hxy
    rcases hx.1.eq_or_lt with h | h
    · rw [hlow x h.symm.le]
      rcases hy.2.eq_or_lt with k | k
      · rw [hhigh y k.symm.le]
        norm_num
      · exact (hmid y (by linarith) k).1
    · rcases hy.2.eq_or_lt with k | k
      · rw [hhigh y k.symm.le]
        exact (hmid x h (by linarith)).2
      · rw [planck_mid h (by linarith), planck_mid (by linarith) k]
        apply one_div_lt_one_div_of_lt (by positivity)
        apply add_lt_add_right
        rw [Real.exp_lt_exp]
        apply add_lt_add
        · exact one_div_lt_one_div_of_lt h hxy
        · rw [← neg_lt_neg_iff, ← one_div_neg_eq_neg_one_div, ← one_div_neg_eq_neg_one_div]
          exact one_div_lt_one_div_of_lt (by linarith) (by linarith)
  · intro x
    rcases le_or_gt x 0 with h | h
    · rw [hlow x h, hhigh _ (by linarith), zero_add]
    · rcases le_or_gt 1 x with h1 | h1
      · rw [hhigh x h1, hlow _ (by linarith), add_zero]
      · rw [planck_mid h h1, planck_mid (by linarith) (by linarith)]
        have e : (1 / (1 - x) + 1 / (1 - x - 1)) = -(1 / x + 1 / (x - 1)) := by
          have a : x ≠ 0 := h.ne'
          have b : x - 1 ≠ 0 := by linarith
          have c : 1 - x ≠ 0 := by linarith
          rw [show 1 - x - 1 = -x by ring, show 1 - x = -(x - 1) by ring, one_div_neg_eq_neg_one_div, one_div_neg_eq_neg_one_div]
          ring
        rw [e, Real.exp_neg]
        have := Real.exp_pos (1 / x + 1 / (x - 1))
        field_simp
        ring

theorem planck_le {x : ℝ} (h0 : 0 ≤ x) (h1 : x ≤ 1 / 2) : planckTaper x ≤ x := by
  rcases h0.eq_or_lt with h | h
  · simp [planckTaper, ← h]
  · rw [planck_mid h (by linarith), div_le_iff₀ (by positivity)]
    have a : -2 ≤ 1 / (x - 1) := by
      rw [le_div_iff_of_neg (by linarith)]
      linarith
    have b := Real.add_one_le_exp (1 / x + 1 / (x - 1))
    have c : x * (1 / x) = 1 := by field_simp
    nlinarith

/-- **C25.**  The window is continuous on the whole line, in particular at both edges, where its terms overflow. -/
theorem C25_window_continuous : Continuous planckTaper := by
  have sym := C25_window_shape.2.2.2.2
  have hn : ∀ x, 0 ≤ planckTaper x := by
    intro x
    unfold planckTaper
    split_ifs <;> positivity
  have at0 : ContinuousAt planckTaper 0 := by
    have h0 : planckTaper 0 = 0 := by simp [planckTaper]
    rw [ContinuousAt, h0]
    have up : ∀ᶠ x in nhds (0 : ℝ), planckTaper x ≤ |x| := by
      filter_upwards [gt_mem_nhds (show (0 : ℝ) < 1 / 2 by norm_num)] with x hx
      rcases le_or_gt x 0 with h | h
      · rw [(C25_window_shape.1 x).2 h]
        exact abs_nonneg _
      · exact (planck_le h.le hx.le).trans (le_abs_self _)
    refine tendsto_of_tendsto_of_tendsto_of_le_of_le' tendsto_const_nhds ?_ (Filter.Eventually.of_forall hn) up
    have : Filter.Tendsto (fun x : ℝ => |x|) (nhds 0) (nhds |0|) := continuous_abs.continuousAt
    simpa using this
  have at1 : ContinuousAt planckTaper 1 := by
    have e : planckTaper = fun x => 1 - planckTaper (1 - x) := by
      funext x
      linarith [sym x]
    rw [e]
    apply ContinuousAt.sub continuousAt_const
    have : ContinuousAt planckTaper (1 - 1) := by simpa using at0
    exact ContinuousAt.comp (f := fun x : ℝ => 1 - x) this (by fun_prop)
  rw [continuous_iff_continuousAt]
  intro x
  rcases lt_trichotomy x 0 with h | h | h
  · have : planckTaper =ᶠ[nhds x] fun _ => 0 := by
      filter_upwards [gt_mem_nhds h] with y hy
      exact (C25_window_shape.1 y).2 hy.le
    exact continuousAt_const.congr this.symm
  · exact h ▸ at0
  · rcases lt_trichotomy x 1 with k | k | k
    · have : planckTaper =ᶠ[nhds x] fun x => 1 / (1 + Real.exp (1 / x + 1 / (x - 1))) := by
        filter_upwards [gt_mem_nhds k, lt_mem_nhds h] with y hy hy'
        exact planck_mid hy' hy
      refine ContinuousAt.congr ?_ this.symm
      have a : x ≠ 0 := h.ne'
      have b : x - 1 ≠ 0 := by linarith
      refine ContinuousAt.div continuousAt_const ?_ (by positivity)
      apply ContinuousAt.add continuousAt_const
      apply Real.continuous_exp.continuousAt.comp
      exact (continuousAt_const.div continuousAt_id a).add (continuousAt_const.div (continuousAt_id.sub continuousAt_const) b)
    · exact k ▸ at1
    · have : planckTaper =ᶠ[nhds x] fun _ => 1 := by
        filter_upwards [lt_mem_nhds k] with y hy
        exact (C25_window_shape.2.1 y).2 hy.le
      exact continuousAt_const.congr this.symm

/-- The middle of the window. -/
example : logPlanck (fin (1 / 2)) = fin (Real.log (1 / 2)) := by
  rw [(C25_log_window _).1, planck_mid (by norm_num) (by norm_num), log_fin_pos (by positivity)]
  norm_num

end GW.Num
