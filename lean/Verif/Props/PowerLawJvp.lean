import Verif.Lemmas.PowerLawJvp

/-!
# C23: the hand-written derivatives of the power law

Each theorem says: for every tangent direction the rule returns the derivative of the accompanied function along that direction.
-/

namespace GW.PowerLaw
open GW XR Filter Topology

theorem isTangent_of {g : ℝ → XR} {v : XR} (G : ℝ → ℝ) {r : ℝ} (hd : HasDerivAt G r 0) (hg : ∀ᶠ t in 𝓝 0, g t = fin (G t)) (e : v = fin r) : IsTangent g v :=
  ⟨G, r, e, hg, hd⟩

/-! ## log normalisation -/

theorem lnAlpha_eq {l h α : ℝ} (hα : α ≠ -1) (hl : 0 < l) (hlh : l < h) :
    lnAlpha l h α = fin (-(1 / (1 + α)) + (h ^ (1 + α) * Real.log h - l ^ (1 + α) * Real.log l) / (h ^ (1 + α) - l ^ (1 + α))) := by
  have hh := hl.trans hlh
  simp only [lnAlpha, pow_fin_pos hl, pow_fin_pos hh, log_fin_pos hl, log_fin_pos hh, mul_fin_fin, sub_fin_fin, div_fin_of_ne _ (pow_ne hα hl hlh), recip,
    div_fin_of_ne _ (one_add_ne hα), neg_fin, add_fin_fin]

/-- The two one-sided values at `-1 ± δ` average to the exact derivative. -/
theorem lnAlpha_average {l h δ : ℝ} (hδ : δ ≠ 0) (hl : 0 < l) (hlh : l < h) :
    (lnAlpha l h (-1 - δ) + lnAlpha l h (-1 + δ)) * fin (1 / 2) = fin ((Real.log l + Real.log h) / 2) := by
  have hh := hl.trans hlh
  have h1 : (-1 - δ) ≠ -1 := fun e => hδ (by linarith)
  have h2 : (-1 + δ) ≠ -1 := fun e => hδ (by linarith)
  rw [lnAlpha_eq h1 hl hlh, lnAlpha_eq h2 hl hlh, add_fin_fin, mul_fin_fin]
  congr 1
  have d1 := pow_ne h2 hl hlh
  rw [show 1 + (-1 - δ) = -δ by ring, show 1 + (-1 + δ) = δ by ring] at *
  rw [Real.rpow_neg hh.le, Real.rpow_neg hl.le]
  have ph := Real.rpow_pos_of_pos hh δ
  have pl := Real.rpow_pos_of_pos hl δ
  set H := h ^ δ
  set L := l ^ δ
  have d2 : H⁻¹ - L⁻¹ ≠ 0 := by
    rw [inv_sub_inv ph.ne' pl.ne']
    apply div_ne_zero
    · intro e; exact d1 (by linarith)
    · positivity
  have e : (H⁻¹ * Real.log h - L⁻¹ * Real.log l) / (H⁻¹ - L⁻¹) = (H * Real.log l - L * Real.log h) / (H - L) := by
    rw [div_eq_div_iff d2 d1]
    field_simp
    ring
  rw [e, div_neg]
  field_simp
  ring

/-- **C23 (log normalisation).**  For every exponent, including `-1`, all bounds `0 < low < high` and every direction. -/
theorem C23_log_norm (alpha low high alphaT lowT highT : ℝ) (hl : 0 < low) (hlh : low < high) :
    IsTangent (fun t => logNorm (alpha + t * alphaT) (low + t * lowT) (high + t * highT)) (logNormJvp alpha low high alphaT lowT highT) := by
  have hh := hl.trans hlh
  have hL : 0 < Real.log high - Real.log low := sub_pos.2 (Real.log_lt_log hl hlh)
  have evl := ev_pos lowT hl
  have evlh := ev_lt lowT highT hlh
  by_cases hα : alpha = -1
  · subst hα
    refine ⟨fun t => (1 + (-1 + t * alphaT)) * (Real.log (low + t * lowT) + Real.log (high + t * highT)) / 2
        + Real.log (Real.log (high + t * highT) - Real.log (low + t * lowT))
        + Real.log (shc ((1 + (-1 + t * alphaT)) * (Real.log (high + t * highT) - Real.log (low + t * lowT)) / 2)),
      (Real.log low + Real.log high) / 2 * alphaT + -(1 / (low * (Real.log high - Real.log low))) * lowT
        + 1 / (high * (Real.log high - Real.log low)) * highT, ?_, ?_, ?_⟩
    · have n1 : low * (Real.log high - Real.log low) ≠ 0 := by positivity
      have n2 : high * (Real.log high - Real.log low) ≠ 0 := by positivity
      simp only [logNormJvp, mask_neg_one, select_false]
      rw [lnAlpha_average (by norm_num) hl hlh]
      simp only [log_fin_pos hl, log_fin_pos hh, sub_fin_fin, mul_fin_fin, recip, div_fin_of_ne _ n1, div_fin_of_ne _ n2, neg_fin, add_fin_fin]
    · filter_upwards [evl, evlh] with t h1 h2
      rw [logNorm_eq h1 h2, logJ_smooth h1 h2]
    · have dl : HasDerivAt (fun t : ℝ => Real.log (low + t * lowT)) (lowT / low) 0 := by
        simpa using (line low lowT).log (by simpa using hl.ne')
      have dh : HasDerivAt (fun t : ℝ => Real.log (high + t * highT)) (highT / high) 0 := by
        simpa using (line high highT).log (by simpa using hh.ne')
      have ds := (line (-1) alphaT).const_add 1
      have d1 := (ds.mul (dl.add dh)).div_const 2
      have d2 := (dh.sub dl).log (by simpa using hL.ne')
      have d3 := (ds.mul (dh.sub dl)).div_const 2
      have d4 := HasDerivAt.comp (h₂ := shc) (h₂' := 0) (0 : ℝ) (by simpa using shc_deriv) d3
      have d5 := d4.log (by exact (shc_pos _).ne')
      refine ((d1.add d2).add d5).congr_deriv ?_
      simp only [Pi.add_apply, Pi.sub_apply, zero_mul, add_zero, add_neg_cancel, zero_div]
      field_simp
      ring
  · have hs := one_add_ne hα
    have hd := pow_ne hα hl hlh
    have evα := ev_ne alphaT hα
    refine ⟨fun t => Real.log (((high + t * highT) ^ (1 + (alpha + t * alphaT)) - (low + t * lowT) ^ (1 + (alpha + t * alphaT))) / (1 + (alpha + t * alphaT))),
      (-(1 / (1 + alpha)) + (high ^ (1 + alpha) * Real.log high - low ^ (1 + alpha) * Real.log low) / (high ^ (1 + alpha) - low ^ (1 + alpha))) * alphaT
        + -(1 + alpha) * low ^ alpha / (high ^ (1 + alpha) - low ^ (1 + alpha)) * lowT
        + (1 + alpha) * high ^ alpha / (high ^ (1 + alpha) - low ^ (1 + alpha)) * highT, ?_, ?_, ?_⟩
    · simp only [logNormJvp, mask_of_ne hα, select_true, safeAlpha_of_ne hα]
      rw [lnAlpha_eq hα hl hlh]
      simp only [pow_fin_pos hl, pow_fin_pos hh, sub_fin_fin, mul_fin_fin, div_fin_of_ne _ hd, add_fin_fin]
    · filter_upwards [evl, evlh, evα] with t h1 h2 h3
      rw [logNorm_eq h1 h2, J_closed h3 h1 (h1.trans h2)]
    · have hJ := J_pos (α := alpha) hl hlh
      rw [J_closed hα hl hh] at hJ
      have d1 := ((pow_line highT alpha alphaT hh).sub (pow_line lowT alpha alphaT hl)).div ((line alpha alphaT).const_add 1) (by simpa using hs)
      have d2 := d1.log (by simpa using hJ.ne')
      refine d2.congr_deriv ?_
      simp only [Pi.sub_apply, Pi.div_apply, zero_mul, add_zero]
      generalize high ^ (1 + alpha) = H at *
      generalize low ^ (1 + alpha) = L at *
      field_simp
      ring

/-! ## cdf -/

/-- **C23 (cdf, partial).**  Inside the support the rule is exact in every direction for every exponent but `-1`; for exponent `-1` it is exact in the directions of `x` and of the lower bound.
Missing: at exponent `-1` the direction of the upper bound has the wrong sign and the direction of the exponent is only approximated; outside the support the
rule does not vanish although the clipped cdf is constant (the next three theorems). -/
theorem C23_cdf_partial (x alpha low high xT alphaT lowT highT : ℝ) (hl : 0 < low) (hlx : low < x) (hxh : x < high)
    (hside : alpha ≠ -1 ∨ (alphaT = 0 ∧ highT = 0)) :
    IsTangent (fun t => cdf (fin (x + t * xT)) (alpha + t * alphaT) (low + t * lowT) (high + t * highT)) (cdfJvp x alpha low high xT alphaT lowT highT) := by
  have hx := hl.trans hlx
  have hh := hx.trans hxh
  have hlh := hlx.trans hxh
  have evl := ev_pos lowT hl
  have ev1 := ev_lt lowT xT hlx
  have ev2 := ev_lt xT highT hxh
  have inner : ∀ᶠ t : ℝ in 𝓝 0, cdf (fin (x + t * xT)) (alpha + t * alphaT) (low + t * lowT) (high + t * highT) =
      fin (J (alpha + t * alphaT) (low + t * lowT) (x + t * xT) / J (alpha + t * alphaT) (low + t * lowT) (high + t * highT)) := by
    filter_upwards [evl, ev1, ev2] with t h1 h2 h3
    have h4 := h1.trans h2
    rw [cdf_eq h1 (h2.trans h3) h4]
    have p1 := J_pos (α := alpha + t * alphaT) h1 h2
    have p2 := J_pos (α := alpha + t * alphaT) h1 (h2.trans h3)
    have p3 := J_lt (α := alpha + t * alphaT) h1 h4 h3
    rw [max_eq_left (div_pos p1 p2).le, min_eq_left ((div_le_one p2).2 p3.le)]
  by_cases hα : alpha = -1
  · obtain ⟨rfl, rfl⟩ := hside.resolve_left (fun h => h hα)
    subst hα
    have hL : 0 < Real.log high - Real.log low := sub_pos.2 (Real.log_lt_log hl hlh)
    refine ⟨fun t => (Real.log (x + t * xT) - Real.log (low + t * lowT)) / (Real.log high - Real.log (low + t * lowT)),
      1 / (x * (Real.log high - Real.log low)) * xT + 0 +
      ((Real.log x - Real.log low) / ((Real.log high - Real.log low) * (Real.log high - Real.log low) * low) - 1 / ((Real.log high - Real.log low) * low)) * lowT + 0, ?_, ?_, ?_⟩
    · have n1 : x * (Real.log high - Real.log low) ≠ 0 := by positivity
      have n2 : (Real.log high - Real.log low) * low ≠ 0 := by positivity
      have n3 : (Real.log high - Real.log low) * (Real.log high - Real.log low) * low ≠ 0 := by positivity
      have n4 : (Real.log high - Real.log low) * (Real.log high - Real.log low) * high ≠ 0 := by positivity
      have a1 : (-1 - 1 / 1000 : ℝ) ≠ -1 := by norm_num
      have a2 : (-1 + 1 / 1000 : ℝ) ≠ -1 := by norm_num
      have s1 : (high ^ (1 + (-1 - 1 / 1000 : ℝ)) - low ^ (1 + (-1 - 1 / 1000 : ℝ))) * (high ^ (1 + (-1 - 1 / 1000 : ℝ)) - low ^ (1 + (-1 - 1 / 1000 : ℝ))) ≠ 0 :=
        mul_ne_zero (pow_ne a1 hl hlh) (pow_ne a1 hl hlh)
      have s2 : (high ^ (1 + (-1 + 1 / 1000 : ℝ)) - low ^ (1 + (-1 + 1 / 1000 : ℝ))) * (high ^ (1 + (-1 + 1 / 1000 : ℝ)) - low ^ (1 + (-1 + 1 / 1000 : ℝ))) ≠ 0 :=
        mul_ne_zero (pow_ne a2 hl hlh) (pow_ne a2 hl hlh)
      simp only [cdfJvp, mask_neg_one, select_false, cXEq, cLowEq, cHighEq, cAlpha, recip, log_fin_pos hl, log_fin_pos hh, log_fin_pos hx, sub_fin_fin, mul_fin_fin, square_fin,
        div_fin_of_ne _ n1, div_fin_of_ne _ n2, div_fin_of_ne _ n3, div_fin_of_ne _ n4, pow_fin_pos hl, pow_fin_pos hh, pow_fin_pos hx,
        div_fin_of_ne _ (pow_ne a1 hl hlh), div_fin_of_ne _ (pow_ne a2 hl hlh), div_fin_of_ne _ s1, div_fin_of_ne _ s2, add_fin_fin, mul_zero]
    · filter_upwards [inner, evl, ev1, ev2] with t h0 h1 h2 h3
      rw [h0]
      simp only [mul_zero, add_zero] at h3 ⊢
      have h4 := h1.trans h2
      rw [J_neg_one h1 h4, J_neg_one h1 (h4.trans h3), Real.log_div h4.ne' h1.ne', Real.log_div (h4.trans h3).ne' h1.ne']
    · have dl : HasDerivAt (fun t : ℝ => Real.log (low + t * lowT)) (lowT / low) 0 := by
        simpa using (line low lowT).log (by simpa using hl.ne')
      have dx : HasDerivAt (fun t : ℝ => Real.log (x + t * xT)) (xT / x) 0 := by
        simpa using (line x xT).log (by simpa using hx.ne')
      have d1 := (dx.sub dl).div (dl.const_sub (Real.log high)) (by simpa using hL.ne')
      refine d1.congr_deriv ?_
      simp only [Pi.sub_apply, zero_mul, add_zero]
      field_simp
      ring
  · have hs := one_add_ne hα
    have hd := pow_ne hα hl hlh
    have hd2 := mul_ne_zero hd hd
    have evα := ev_ne alphaT hα
    refine isTangent_of (fun t => ((x + t * xT) ^ (1 + (alpha + t * alphaT)) - (low + t * lowT) ^ (1 + (alpha + t * alphaT))) /
        ((high + t * highT) ^ (1 + (alpha + t * alphaT)) - (low + t * lowT) ^ (1 + (alpha + t * alphaT))))
      (((pow_line xT alpha alphaT hx).sub (pow_line lowT alpha alphaT hl)).div ((pow_line highT alpha alphaT hh).sub (pow_line lowT alpha alphaT hl)) (by simpa using hd)) ?_ ?_
    · filter_upwards [inner, evl, ev1, ev2, evα] with t h0 h1 h2 h3 h4
      rw [h0]
      congr 1
      have h5 := h1.trans h2
      rw [J_closed h4 h1 h5, J_closed h4 h1 (h5.trans h3), div_div_div_cancel_right₀ (one_add_ne h4)]
    · simp only [cdfJvp, mask_of_ne hα, select_true, safeAlpha_of_ne hα, cX, cAlpha, cLow, cHigh, log_fin_pos hl, log_fin_pos hh, log_fin_pos hx, sub_fin_fin, mul_fin_fin,
        square_fin, pow_fin_pos hl, pow_fin_pos hh, pow_fin_pos hx, div_fin_of_ne _ hd, div_fin_of_ne _ hd2, add_fin_fin, neg_fin]
      congr 1
      simp only [Pi.sub_apply, zero_mul, add_zero]
      generalize high ^ (1 + alpha) = H at *
      generalize low ^ (1 + alpha) = L at *
      generalize x ^ (1 + alpha) = X at *
      field_simp
      ring

/-- **C23 (violated: sign).**  For exponent `-1` the derivative of the cdf with respect to the upper bound has the wrong sign, at every point of the support. -/
theorem C23_cdf_high_violated (x low high : ℝ) (hl : 0 < low) (hlx : low < x) (hxh : x < high) :
    ∃ r, 0 < r ∧ cdfJvp x (-1) low high 0 0 0 1 = fin r ∧ IsTangent (fun t => cdf (fin x) (-1) low (high + t * 1)) (fin (-r)) ∧
      ¬ IsTangent (fun t => cdf (fin x) (-1) low (high + t * 1)) (cdfJvp x (-1) low high 0 0 0 1) := by
  have hx := hl.trans hlx
  have hh := hx.trans hxh
  have hlh := hlx.trans hxh
  have hL : 0 < Real.log high - Real.log low := sub_pos.2 (Real.log_lt_log hl hlh)
  have hX : 0 < Real.log x - Real.log low := sub_pos.2 (Real.log_lt_log hl hlx)
  have hr : 0 < (Real.log x - Real.log low) / ((Real.log high - Real.log low) * (Real.log high - Real.log low) * high) := by positivity
  have e : cdfJvp x (-1) low high 0 0 0 1 = fin ((Real.log x - Real.log low) / ((Real.log high - Real.log low) * (Real.log high - Real.log low) * high)) := by
    have n1 : x * (Real.log high - Real.log low) ≠ 0 := by positivity
    have n2 : (Real.log high - Real.log low) * low ≠ 0 := by positivity
    have n3 : (Real.log high - Real.log low) * (Real.log high - Real.log low) * low ≠ 0 := by positivity
    have n4 : (Real.log high - Real.log low) * (Real.log high - Real.log low) * high ≠ 0 := by positivity
    have a1 : (-1 - 1 / 1000 : ℝ) ≠ -1 := by norm_num
    have a2 : (-1 + 1 / 1000 : ℝ) ≠ -1 := by norm_num
    have s1 : (high ^ (1 + (-1 - 1 / 1000 : ℝ)) - low ^ (1 + (-1 - 1 / 1000 : ℝ))) * (high ^ (1 + (-1 - 1 / 1000 : ℝ)) - low ^ (1 + (-1 - 1 / 1000 : ℝ))) ≠ 0 :=
      mul_ne_zero (pow_ne a1 hl hlh) (pow_ne a1 hl hlh)
    have s2 : (high ^ (1 + (-1 + 1 / 1000 : ℝ)) - low ^ (1 + (-1 + 1 / 1000 : ℝ))) * (high ^ (1 + (-1 + 1 / 1000 : ℝ)) - low ^ (1 + (-1 + 1 / 1000 : ℝ))) ≠ 0 :=
      mul_ne_zero (pow_ne a2 hl hlh) (pow_ne a2 hl hlh)
    simp only [cdfJvp, mask_neg_one, select_false, cXEq, cLowEq, cHighEq, cAlpha, recip, log_fin_pos hl, log_fin_pos hh, log_fin_pos hx, sub_fin_fin, mul_fin_fin, square_fin,
      div_fin_of_ne _ n1, div_fin_of_ne _ n2, div_fin_of_ne _ n3, div_fin_of_ne _ n4, pow_fin_pos hl, pow_fin_pos hh, pow_fin_pos hx,
      div_fin_of_ne _ (pow_ne a1 hl hlh), div_fin_of_ne _ (pow_ne a2 hl hlh), div_fin_of_ne _ s1, div_fin_of_ne _ s2, add_fin_fin, mul_zero, mul_one, zero_add]
  have tr : IsTangent (fun t => cdf (fin x) (-1) low (high + t * 1)) (fin (-((Real.log x - Real.log low) / ((Real.log high - Real.log low) * (Real.log high - Real.log low) * high)))) := by
    refine ⟨fun t => (Real.log x - Real.log low) / (Real.log (high + t * 1) - Real.log low), _, rfl, ?_, ?_⟩
    · have ev2 := ev_lt 0 1 hxh
      filter_upwards [ev2] with t h3
      simp only [mul_zero, add_zero] at h3
      rw [cdf_eq hl (hlx.trans h3) hx]
      have p1 := J_pos (α := -1) hl hlx
      have p2 := J_pos (α := -1) hl (hlx.trans h3)
      have p3 := J_lt (α := -1) hl hx h3
      rw [max_eq_left (div_pos p1 p2).le, min_eq_left ((div_le_one p2).2 p3.le), J_neg_one hl hx, J_neg_one hl (hx.trans h3), Real.log_div hx.ne' hl.ne',
        Real.log_div (hx.trans h3).ne' hl.ne']
    · have dh : HasDerivAt (fun t : ℝ => Real.log (high + t * 1)) (1 / high) 0 := by
        simpa using (line high 1).log (by simpa using hh.ne')
      have d1 := (hasDerivAt_const (0 : ℝ) (Real.log x - Real.log low)).div (dh.sub_const (Real.log low)) (by simpa using hL.ne')
      refine d1.congr_deriv ?_
      simp only [zero_mul, add_zero]
      field_simp
      ring
  refine ⟨_, hr, e, tr, fun h => ?_⟩
  have := h.unique tr
  rw [e] at this
  injection this with this
  linarith

/-- **C23 (violated: clipped region).**  Above the support the cdf is constantly one, but the rule returns a non-zero derivative (density proportional to `1` on `[1, 2]`, at `x = 3`). -/
theorem C23_cdf_outside_violated : IsTangent (fun t => cdf (fin (3 + t * 1)) 0 1 2) (fin 0) ∧ cdfJvp 3 0 1 2 1 0 0 0 = fin 1 := by
  constructor
  · refine ⟨fun _ => 1, 0, rfl, ?_, hasDerivAt_const _ _⟩
    filter_upwards [ev_lt 0 1 (show (2 : ℝ) < 3 by norm_num)] with t ht
    simp only [mul_zero, add_zero] at ht
    rw [cdf_eq one_pos one_lt_two (by linarith)]
    have p2 := J_pos (α := 0) one_pos one_lt_two
    have h4 := J_lt (α := 0) one_pos two_pos ht
    have : 1 ≤ J 0 1 (3 + t * 1) / J 0 1 2 := (one_le_div p2).2 h4.le
    rw [max_eq_left (by linarith), min_eq_right this]
  · have hα : (0 : ℝ) ≠ -1 := by norm_num
    have hd : (2 : ℝ) - 1 ≠ 0 := by norm_num
    have hd2 : ((2 : ℝ) - 1) * (2 - 1) ≠ 0 := by norm_num
    have h3 : (0 : ℝ) < 3 := by norm_num
    simp only [cdfJvp, mask_of_ne hα, select_true, safeAlpha_of_ne hα, cX, cAlpha, cLow, cHigh, log_fin_pos one_pos, log_fin_pos two_pos, log_fin_pos h3, sub_fin_fin, mul_fin_fin,
      square_fin, pow_fin_pos one_pos, pow_fin_pos two_pos, pow_fin_pos h3, add_zero, Real.rpow_one, Real.rpow_zero, div_fin_of_ne _ hd, div_fin_of_ne _ hd2, add_fin_fin, neg_fin]
    norm_num

/-- **C23 (violated: exponent direction at `-1`).**  For exponent `-1` the derivative of the cdf with respect to the exponent is the average of its values at `-1 ± 0.001`, which is
not the derivative: on `[1, e²]` at `x = e` the derivative is `-1/4` and the rule returns `-e^δ/(1 + e^δ)²`, which is larger. -/
theorem C23_cdf_alpha_violated :
    IsTangent (fun t => cdf (fin (Real.exp 1)) (-1 + t * 1) 1 (Real.exp 2)) (fin (-(1 / 4))) ∧
    ∃ r, cdfJvp (Real.exp 1) (-1) 1 (Real.exp 2) 0 1 0 0 = fin r ∧ -(1 / 4) < r := by
  have hx : 0 < Real.exp 1 := Real.exp_pos _
  have hh : 0 < Real.exp 2 := Real.exp_pos _
  have h1x : (1 : ℝ) < Real.exp 1 := by simp
  have hxh : Real.exp 1 < Real.exp 2 := by rw [Real.exp_lt_exp]; norm_num
  have hlh := h1x.trans hxh
  constructor
  · refine ⟨fun t => 1 / (Real.exp t + 1), _, rfl, ?_, ?_⟩
    · refine Eventually.of_forall fun t => ?_
      show cdf (fin (Real.exp 1)) (-1 + t * 1) 1 (Real.exp 2) = _
      rw [cdf_eq one_pos hlh hx]
      have p1 := J_pos (α := -1 + t * 1) one_pos h1x
      have p2 := J_pos (α := -1 + t * 1) one_pos hlh
      have p3 := J_lt (α := -1 + t * 1) one_pos hx hxh
      rw [max_eq_left (div_pos p1 p2).le, min_eq_left ((div_le_one p2).2 p3.le)]
      congr 1
      by_cases ht : t = 0
      · subst ht
        simp only [zero_mul, add_zero]
        rw [J_neg_one one_pos hx, J_neg_one one_pos hh]
        simp
        norm_num
      · have hα : -1 + t * 1 ≠ -1 := fun e => ht (by linarith)
        rw [J_closed hα one_pos hx, J_closed hα one_pos hh, div_div_div_cancel_right₀ (one_add_ne hα)]
        rw [show 1 + (-1 + t * 1) = t by ring, Real.one_rpow, ← Real.exp_mul, ← Real.exp_mul, one_mul]
        have e2 : Real.exp (2 * t) = Real.exp t * Real.exp t := by rw [← Real.exp_add]; congr 1; ring
        have hne : Real.exp t - 1 ≠ 0 := by
          rw [sub_ne_zero]
          simpa using ht
        have hp : Real.exp t + 1 ≠ 0 := by positivity
        rw [e2, show Real.exp t * Real.exp t - 1 = (Real.exp t - 1) * (Real.exp t + 1) by ring]
        field_simp
    · have d := (hasDerivAt_const (0 : ℝ) (1 : ℝ)).div ((Real.hasDerivAt_exp 0).add_const 1) (by positivity)
      refine d.congr_deriv ?_
      simp
      norm_num
  · have a1 : (-1 - 1 / 1000 : ℝ) ≠ -1 := by norm_num
    have a2 : (-1 + 1 / 1000 : ℝ) ≠ -1 := by norm_num
    have val : ∀ δ : ℝ, δ ≠ 0 → cAlpha (Real.exp 1) 1 (Real.exp 2) (-1 + δ) = fin (-(Real.exp δ / (1 + Real.exp δ) ^ 2)) := by
      intro δ hδ
      have a : -1 + δ ≠ -1 := fun e => hδ (by linarith)
      have hd := pow_ne a one_pos hlh
      have hd2 := mul_ne_zero hd hd
      simp only [cAlpha, log_fin_pos one_pos, log_fin_pos hx, log_fin_pos hh, pow_fin_pos one_pos, pow_fin_pos hx, pow_fin_pos hh, sub_fin_fin, mul_fin_fin, square_fin,
        div_fin_of_ne _ hd, div_fin_of_ne _ hd2]
      congr 1
      rw [show 1 + (-1 + δ) = δ by ring] at hd ⊢
      rw [Real.one_rpow, ← Real.exp_mul, ← Real.exp_mul, one_mul, Real.log_exp, Real.log_exp, Real.log_one] at *
      have e2 : Real.exp (2 * δ) = Real.exp δ * Real.exp δ := by rw [← Real.exp_add]; congr 1; ring
      rw [e2] at hd ⊢
      have hp : Real.exp δ + 1 ≠ 0 := by positivity
      have hne : Real.exp δ - 1 ≠ 0 := by
        intro h
        apply hd
        rw [show Real.exp δ = 1 by linarith]
        ring
      rw [show Real.exp δ * Real.exp δ - 1 = (Real.exp δ - 1) * (Real.exp δ + 1) by ring]
      field_simp
      ring
    have v1 := val (-(1 / 1000)) (by norm_num)
    have v2 := val (1 / 1000) (by norm_num)
    rw [← sub_eq_add_neg] at v1
    have hL : Real.log (Real.exp 2) - Real.log 1 = 2 := by simp
    refine ⟨(-(Real.exp (-(1 / 1000)) / (1 + Real.exp (-(1 / 1000))) ^ 2) + -(Real.exp (1 / 1000) / (1 + Real.exp (1 / 1000)) ^ 2)) * (1 / 2), ?_, ?_⟩
    · have n1 : Real.exp 1 * 2 ≠ 0 := by positivity
      have n2 : (2 : ℝ) * 2 ≠ 0 := by norm_num
      have n3 : (2 : ℝ) * 2 * Real.exp 2 ≠ 0 := by positivity
      have n4 : (2 : ℝ) ≠ 0 := by norm_num
      simp only [cdfJvp, mask_neg_one, select_false, v1, v2, cXEq, cLowEq, cHighEq, recip, log_fin_pos one_pos, log_fin_pos hh, log_fin_pos hx, sub_fin_fin, hL, mul_fin_fin, square_fin,
        div_fin_of_ne _ n1, div_fin_of_ne _ n2, div_fin_of_ne _ n3, div_fin_of_ne _ n4, add_fin_fin, mul_zero, mul_one, zero_add, add_zero]
    · have key : ∀ δ : ℝ, δ ≠ 0 → Real.exp δ / (1 + Real.exp δ) ^ 2 < 1 / 4 := by
        intro δ hδ
        have he := Real.exp_pos δ
        rw [div_lt_div_iff₀ (by positivity) (by norm_num)]
        have : Real.exp δ - 1 ≠ 0 := by
          rw [sub_ne_zero]
          simpa using hδ
        have := pow_pos (abs_pos.2 this) 2
        rw [sq_abs] at this
        nlinarith
      have k1 := key (-(1 / 1000)) (by norm_num)
      have k2 := key (1 / 1000) (by norm_num)
      linarith

/-! ## inverse cdf -/

theorem icdf_val {α l h q : ℝ} (hα : α ≠ -1) (hl : 0 < l) (hh : 0 < h) (hy : 0 < l ^ (1 + α) + q * (h ^ (1 + α) - l ^ (1 + α))) :
    icdf q α l h = fin ((l ^ (1 + α) + q * (h ^ (1 + α) - l ^ (1 + α))) ^ (1 / (1 + α))) := by
  simp only [icdf, icdfX, mask_of_ne hα, safeAlpha_of_ne hα, select_true, pow_fin_pos hl, pow_fin_pos hh, sub_fin_fin, mul_fin_fin, add_fin_fin, pow_fin_pos hy]

/-- **C23 (inverse cdf, partial).**  The rule is exact in every direction for every exponent but `-1`; for exponent `-1` it is exact in the directions of the quantile and of both bounds.
Missing: the direction of the exponent at `-1` is a finite-difference approximation. -/
theorem C23_icdf_partial (q alpha low high qT alphaT lowT highT : ℝ) (hl : 0 < low) (hlh : low < high) (h0 : 0 ≤ q) (h1 : q ≤ 1)
    (hside : alpha ≠ -1 ∨ alphaT = 0) :
    IsTangent (fun t => icdf (q + t * qT) (alpha + t * alphaT) (low + t * lowT) (high + t * highT)) (icdfJvp q alpha low high qT alphaT lowT highT) := by
  have hh := hl.trans hlh
  have evl := ev_pos lowT hl
  have evh := ev_pos highT hh
  have ypos : ∀ a : ℝ, 0 < low ^ a + q * (high ^ a - low ^ a) := by
    intro a
    have p1 := Real.rpow_pos_of_pos hl a
    have p2 := Real.rpow_pos_of_pos hh a
    rcases h0.eq_or_lt with e | e
    · rw [← e]
      simpa using p1
    · nlinarith [mul_nonneg (sub_nonneg.2 h1) p1.le, mul_pos e p2]
  by_cases hα : alpha = -1
  · subst hα
    obtain rfl := hside.resolve_left (fun h => h rfl)
    have hr : 0 < high / low := by positivity
    refine isTangent_of (fun t => ((high + t * highT) / (low + t * lowT)) ^ (q + t * qT) * (low + t * lowT))
      ((((line high highT).div (line low lowT) (by simpa using hl.ne')).rpow (line q qT) (by simpa using hr)).mul (line low lowT)) ?_ ?_
    · filter_upwards [evl, evh] with t h1 h2
      have h3 : 0 < (high + t * highT) / (low + t * lowT) := div_pos h2 h1
      simp only [icdf, icdfX, mul_zero, add_zero, mask_neg_one, select_false, div_fin_of_ne _ h1.ne', pow_fin_pos h3, mul_fin_fin]
    · have y1 := ypos (1 + (-1 - 1 / 1000))
      have y2 := ypos (1 + (-1 + 1 / 1000))
      have n1 : (1 + (-1 - 1 / 1000) : ℝ) ≠ 0 := by norm_num
      have n2 : (1 + (-1 + 1 / 1000) : ℝ) ≠ 0 := by norm_num
      simp only [icdfJvp, mask_neg_one, select_false, iXEq, iLowEq, iHighEq, iAlpha, pow_fin_pos hl, pow_fin_pos hh, sub_fin_fin, mul_fin_fin, add_fin_fin, square_fin,
        div_fin_of_ne _ hl.ne', pow_fin_pos hr, log_fin_pos hl, log_fin_pos hh, log_fin_pos y1, log_fin_pos y2, pow_fin_pos y1, pow_fin_pos y2,
        div_fin_of_ne _ (mul_ne_zero n1 y1.ne'), div_fin_of_ne _ (mul_ne_zero n2 y2.ne'), div_fin_of_ne _ (mul_ne_zero n1 n1), div_fin_of_ne _ (mul_ne_zero n2 n2), mul_zero, add_zero]
      congr 1
      simp only [Pi.div_apply, zero_mul, add_zero]
      rw [Real.log_div hh.ne' hl.ne']
      have e : (high / low) ^ q = (high / low) ^ (q - 1) * (high / low) := by
        rw [← Real.rpow_add_one hr.ne']
        congr 1
        ring
      rw [e]
      generalize (high / low) ^ (q - 1) = P
      field_simp
      ring
  · have hs := one_add_ne hα
    have evα := ev_ne alphaT hα
    have y := ypos (1 + alpha)
    have dl := pow_line lowT alpha alphaT hl
    have dh := pow_line highT alpha alphaT hh
    have dy := dl.add ((line q qT).mul (dh.sub dl))
    have evy : ∀ᶠ t : ℝ in 𝓝 0, 0 < (low + t * lowT) ^ (1 + (alpha + t * alphaT)) +
        (q + t * qT) * ((high + t * highT) ^ (1 + (alpha + t * alphaT)) - (low + t * lowT) ^ (1 + (alpha + t * alphaT))) :=
      dy.continuousAt.eventually (lt_mem_nhds (by simpa using y))
    refine isTangent_of (fun t => ((low + t * lowT) ^ (1 + (alpha + t * alphaT)) +
        (q + t * qT) * ((high + t * highT) ^ (1 + (alpha + t * alphaT)) - (low + t * lowT) ^ (1 + (alpha + t * alphaT)))) ^ (1 / (1 + (alpha + t * alphaT))))
      (dy.rpow ((hasDerivAt_const (0 : ℝ) (1 : ℝ)).div ((line alpha alphaT).const_add 1) (by simpa using hs)) (by simpa using y)) ?_ ?_
    · filter_upwards [evl, evh, evα, evy] with t h1 h2 h3 h4
      exact icdf_val h3 h1 h2 h4
    · simp only [icdfJvp, mask_of_ne hα, select_true, safeAlpha_of_ne hα, iX, iAlpha, iLow, iHigh, pow_fin_pos hl, pow_fin_pos hh, sub_fin_fin, mul_fin_fin, add_fin_fin, square_fin,
        log_fin_pos hl, log_fin_pos hh, log_fin_pos y, pow_fin_pos y, div_fin_of_ne _ (mul_ne_zero hs y.ne'), div_fin_of_ne _ (mul_ne_zero hs hs), div_fin_of_ne _ hs]
      congr 1
      simp only [Pi.add_apply, Pi.sub_apply, Pi.mul_apply, zero_mul, add_zero]
      have e : (low ^ (1 + alpha) + q * (high ^ (1 + alpha) - low ^ (1 + alpha))) ^ (1 / (1 + alpha)) =
          (low ^ (1 + alpha) + q * (high ^ (1 + alpha) - low ^ (1 + alpha))) ^ (1 / (1 + alpha) - 1) * (low ^ (1 + alpha) + q * (high ^ (1 + alpha) - low ^ (1 + alpha))) := by
        rw [← Real.rpow_add_one y.ne']
        congr 1
        ring
      rw [e]
      generalize (low ^ (1 + alpha) + q * (high ^ (1 + alpha) - low ^ (1 + alpha))) ^ (1 / (1 + alpha) - 1) = P
      generalize Real.log (low ^ (1 + alpha) + q * (high ^ (1 + alpha) - low ^ (1 + alpha))) = Q
      generalize high ^ (1 + alpha) = H at *
      generalize low ^ (1 + alpha) = L at *
      have y' := y.ne'
      clear dy e evy dl dh
      generalize hY : L + q * (H - L) = Y at *
      field_simp
      ring

/-- The rule of the log normalisation at the singular exponent, in a mixed direction. -/
example : IsTangent (fun t => logNorm (-1 + t * 2) (5 + t * 1) (100 + t * (-3))) (logNormJvp (-1) 5 100 2 1 (-3)) := C23_log_norm (-1) 5 100 2 1 (-3) (by norm_num) (by norm_num)

end GW.PowerLaw
