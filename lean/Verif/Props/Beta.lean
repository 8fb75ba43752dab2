import Verif.Model.Beta
import Verif.Lemmas.XRMath
import Mathlib.Probability.Distributions.Beta
import Mathlib.Probability.Moments.Variance

/-!
# C26: Beta distribution parameter conversion
-/

namespace GW.Beta
open GW XR MeasureTheory ProbabilityTheory
open scoped Classical

theorem sq_scale {s : ℝ} (hs : 0 < s) : pow (fin s) 2 = fin (s ^ 2) := by
  rw [pow_fin_pos hs]
  norm_num

theorem toConc_fin {mean variance loc scale : ℝ} (hs : 0 < scale) (hv : variance ≠ 0) :
    toConc mean variance loc scale =
      (fin (-(mean - loc) * (((mean - loc) * (mean - (loc + scale)) + variance) / (scale * variance))),
       fin ((mean - (loc + scale)) * (((mean - loc) * (mean - (loc + scale)) + variance) / (scale * variance)))) := by
  have : scale * variance ≠ 0 := mul_ne_zero hs.ne' hv
  simp only [toConc, add_fin_fin, sub_fin_fin, mul_fin_fin, neg_fin, div_fin_of_ne _ this]

theorem toMeanVar_fin {a b loc scale : ℝ} (hs : 0 < scale) (ha : 0 < a) (hb : 0 < b) :
    toMeanVar a b loc scale = (fin (loc + scale * (a / (a + b))), fin (scale ^ 2 * (a * b / ((a + b) ^ 2 * (a + b + 1))))) := by
  have h1 : a + b ≠ 0 := by positivity
  have h2 : (a + b) * (a + b) * (a + b + 1) ≠ 0 := by positivity
  simp only [toMeanVar, add_fin_fin, mul_fin_fin, square_fin, div_fin_of_ne _ h1, div_fin_of_ne _ h2, sq_scale hs]
  congr 3
  ring

/-- **C26.**  From concentrations to mean and variance and back: the original concentrations, for every location, positive scale and positive concentrations; mean and variance are inside the
range `low < mean < high`, `0 < variance < (mean-low)(high-mean)`. -/
theorem C26_conc_roundtrip (a b loc scale : ℝ) (hs : 0 < scale) (ha : 0 < a) (hb : 0 < b) :
    ∃ mean variance, toMeanVar a b loc scale = (fin mean, fin variance) ∧ toConc mean variance loc scale = (fin a, fin b) ∧
      loc < mean ∧ mean < loc + scale ∧ 0 < variance ∧ variance < (mean - loc) * (loc + scale - mean) := by
  refine ⟨_, _, toMeanVar_fin hs ha hb, ?_, ?_, ?_, ?_, ?_⟩
  · have hv : scale ^ 2 * (a * b / ((a + b) ^ 2 * (a + b + 1))) ≠ 0 := by positivity
    rw [toConc_fin hs hv]
    congr 2
    · field_simp
      ring
    · field_simp
      ring
  · have : 0 < scale * (a / (a + b)) := by positivity
    linarith
  · have : a / (a + b) < 1 := (div_lt_one (by positivity)).2 (by linarith)
    nlinarith
  · positivity
  · have e : (loc + scale * (a / (a + b)) - loc) * (loc + scale - (loc + scale * (a / (a + b)))) = scale ^ 2 * (a * b / (a + b) ^ 2) := by
      field_simp
      ring
    rw [e]
    apply mul_lt_mul_of_pos_left _ (by positivity)
    apply div_lt_div_of_pos_left (by positivity) (by positivity)
    have : 0 < (a + b) ^ 2 := by positivity
    nlinarith

/-- **C26.**  From mean and variance to concentrations and back, in the admissible range. -/
theorem C26_mean_roundtrip (mean variance loc scale : ℝ) (hs : 0 < scale) (h1 : loc < mean) (h2 : mean < loc + scale) (h3 : 0 < variance)
    (h4 : variance < (mean - loc) * (loc + scale - mean)) :
    ∃ a b, 0 < a ∧ 0 < b ∧ toConc mean variance loc scale = (fin a, fin b) ∧ toMeanVar a b loc scale = (fin mean, fin variance) := by
  obtain ⟨m, hm⟩ : ∃ m, m = mean - loc := ⟨_, rfl⟩
  obtain ⟨k, hk⟩ : ∃ k, k = loc + scale - mean := ⟨_, rfl⟩
  have hm0 : 0 < m := by linarith
  have hk0 : 0 < k := by linarith
  have hsum : scale = m + k := by linarith
  have hd : 0 < m * k - variance := by
    rw [hm, hk]
    linarith
  have hneg : mean - (loc + scale) = -k := by linarith
  have ea : -(mean - loc) * (((mean - loc) * (mean - (loc + scale)) + variance) / (scale * variance)) = m * (m * k - variance) / (scale * variance) := by
    rw [hneg, ← hm]
    ring
  have eb : (mean - (loc + scale)) * (((mean - loc) * (mean - (loc + scale)) + variance) / (scale * variance)) = k * (m * k - variance) / (scale * variance) := by
    rw [hneg, ← hm]
    ring
  have pa : 0 < m * (m * k - variance) / (scale * variance) := by positivity
  have pb : 0 < k * (m * k - variance) / (scale * variance) := by positivity
  refine ⟨_, _, pa, pb, ?_, ?_⟩
  · rw [toConc_fin hs h3.ne', ea, eb]
  · rw [toMeanVar_fin hs pa pb]
    have hs' : m * (m * k - variance) / (scale * variance) + k * (m * k - variance) / (scale * variance) = (m * k - variance) / variance := by
      rw [hsum]
      field_simp
    rw [hs']
    have h5 : (m * k - variance) / variance + 1 = m * k / variance := by
      field_simp
      ring
    rw [h5]
    generalize hD : m * k - variance = D at *
    congr 2
    · field_simp
      linarith
    · field_simp

/-- **C26.**  The concentrations are finite and positive exactly for `low < mean < high` and `0 < variance < (mean-low)(high-mean)`. -/
theorem C26_positive_iff (mean variance loc scale : ℝ) (hs : 0 < scale) :
    (∃ a b, toConc mean variance loc scale = (fin a, fin b) ∧ 0 < a ∧ 0 < b) ↔
      loc < mean ∧ mean < loc + scale ∧ 0 < variance ∧ variance < (mean - loc) * (loc + scale - mean) := by
  constructor
  · rintro ⟨a, b, he, ha, hb⟩
    have hv : variance ≠ 0 := by
      rintro rfl
      have : (toConc mean 0 loc scale).1 = fin a := by rw [he]
      simp only [toConc, add_fin_fin, sub_fin_fin, mul_fin_fin, neg_fin, mul_zero, add_zero, div_fin_fin, if_true] at this
      revert this
      unfold mulInf
      split_ifs with h1 h2
      · have : ∀ r : ℝ, fin r * pinf = mulInf r := fun _ => rfl
        rw [this]
        unfold mulInf
        split_ifs <;> simp
      · have : ∀ r : ℝ, fin r * ninf = neg (mulInf r) := fun _ => rfl
        rw [this]
        unfold mulInf
        split_ifs <;> simp [neg]
      · simp
    rw [toConc_fin hs hv] at he
    simp only [Prod.mk.injEq, fin.injEq] at he
    obtain ⟨e1, e2⟩ := he
    set S := ((mean - loc) * (mean - (loc + scale)) + variance) / (scale * variance) with hS
    have hSneg : S < 0 := by
      have : scale * S = -(a + b) := by
        rw [← e1, ← e2]
        ring
      by_contra hc
      push Not at hc
      have : 0 ≤ scale * S := by positivity
      linarith
    have k1 : loc < mean := by nlinarith
    have k2 : mean < loc + scale := by nlinarith
    have hpr : 0 < (mean - loc) * (loc + scale - mean) := mul_pos (by linarith) (by linarith)
    have hv0 : 0 < variance := by
      by_contra hc
      have hvn : variance < 0 := lt_of_le_of_ne (not_lt.1 hc) hv
      have : 0 ≤ S := by
        rw [hS]
        apply div_nonneg_of_nonpos
        · nlinarith
        · nlinarith
      linarith
    refine ⟨k1, k2, hv0, ?_⟩
    rw [hS, div_neg_iff] at hSneg
    have hp : 0 < scale * variance := by positivity
    rcases hSneg with h | h
    · linarith [h.2]
    · nlinarith [h.1]
  · rintro ⟨h1, h2, h3, h4⟩
    obtain ⟨a, b, ha, hb, he, -⟩ := C26_mean_roundtrip mean variance loc scale hs h1 h2 h3 h4
    exact ⟨a, b, he, ha, hb⟩

/-- **C26.**  `BetaFromMeanVar` uses the same concentrations as the conversion on `[0, 1]`, for all means and non-zero variances. -/
theorem C26_same_formula (mean variance : ℝ) (hv : variance ≠ 0) : fromMeanVar mean variance = toConc mean variance 0 1 := by
  rw [toConc_fin one_pos hv]
  simp only [fromMeanVar, square_fin, sub_fin_fin, mul_fin_fin, div_fin_of_ne _ hv]
  congr 2
  · field_simp
    ring
  · field_simp
    ring

/-! ## Moments of the beta distribution -/

theorem beta_succ {a b : ℝ} (ha : 0 < a) (hb : 0 < b) : beta (a + 1) b = a / (a + b) * beta a b := by
  unfold beta
  rw [show a + 1 + b = (a + b) + 1 by ring, Real.Gamma_add_one ha.ne', Real.Gamma_add_one (by positivity)]
  have := Real.Gamma_pos_of_pos (show 0 < a + b by positivity)
  field_simp

theorem mul_betaPDF {a b : ℝ} (ha : 0 < a) (hb : 0 < b) (x : ℝ) : x * betaPDFReal a b x = a / (a + b) * betaPDFReal (a + 1) b x := by
  unfold betaPDFReal
  split_ifs with h
  · have hB := beta_pos ha hb
    rw [beta_succ ha hb, show a + 1 - 1 = (a - 1) + 1 by ring, Real.rpow_add_one h.1.ne']
    field_simp
  · simp

theorem integral_beta {a b : ℝ} (ha : 0 < a) (hb : 0 < b) : ∫ x, betaPDFReal a b x = 1 := by
  have h := lintegral_betaPDF_eq_one ha hb
  have hn : ∀ x, 0 ≤ betaPDFReal a b x := by
    intro x
    by_cases hx : 0 < x ∧ x < 1
    · exact (betaPDFReal_pos hx.1 hx.2 ha hb).le
    · simp [betaPDFReal, hx]
  rw [integral_eq_lintegral_of_nonneg_ae (Filter.Eventually.of_forall hn) (by fun_prop)]
  unfold betaPDF at h
  rw [h, ENNReal.toReal_one]

theorem betaPDF_nonneg {a b : ℝ} (ha : 0 < a) (hb : 0 < b) (x : ℝ) : 0 ≤ betaPDFReal a b x := by
  by_cases hx : 0 < x ∧ x < 1
  · exact (betaPDFReal_pos hx.1 hx.2 ha hb).le
  · simp [betaPDFReal, hx]

theorem integral_betaMeasure {a b : ℝ} (ha : 0 < a) (hb : 0 < b) (f : ℝ → ℝ) : ∫ x, f x ∂(betaMeasure a b) = ∫ x, betaPDFReal a b x * f x := by
  rw [betaMeasure, integral_withDensity_eq_integral_toReal_smul (by unfold betaPDF; fun_prop) (Filter.Eventually.of_forall fun x => by simp [betaPDF])]
  apply integral_congr_ae
  refine Filter.Eventually.of_forall fun x => ?_
  simp [betaPDF, ENNReal.toReal_ofReal (betaPDF_nonneg ha hb x)]

theorem beta_mean {a b : ℝ} (ha : 0 < a) (hb : 0 < b) : ∫ x, x ∂(betaMeasure a b) = a / (a + b) := by
  rw [integral_betaMeasure ha hb]
  simp only [mul_comm (betaPDFReal a b _), mul_betaPDF ha hb]
  rw [integral_const_mul, integral_beta (by positivity) hb, mul_one]

theorem beta_second {a b : ℝ} (ha : 0 < a) (hb : 0 < b) : ∫ x, x ^ 2 ∂(betaMeasure a b) = a / (a + b) * ((a + 1) / (a + 1 + b)) := by
  rw [integral_betaMeasure ha hb]
  have e : ∀ x, betaPDFReal a b x * x ^ 2 = a / (a + b) * ((a + 1) / (a + 1 + b) * betaPDFReal (a + 1 + 1) b x) := by
    intro x
    rw [← mul_betaPDF (by positivity) hb, show betaPDFReal a b x * x ^ 2 = x * (x * betaPDFReal a b x) by ring, mul_betaPDF ha hb]
    ring
  simp only [e]
  rw [integral_const_mul, integral_const_mul, integral_beta (by positivity) hb, mul_one]

theorem beta_memLp {a b : ℝ} (ha : 0 < a) (hb : 0 < b) : MemLp (fun x : ℝ => x) 2 (betaMeasure a b) := by
  have := isProbabilityMeasureBeta ha hb
  apply MemLp.of_bound (C := 1) (by fun_prop)
  rw [betaMeasure, ae_withDensity_iff (by unfold betaPDF; fun_prop)]
  refine Filter.Eventually.of_forall fun x hx => ?_
  by_cases h : 0 < x ∧ x < 1
  · rw [Real.norm_eq_abs, abs_of_pos h.1]
    exact h.2.le
  · simp [betaPDF, betaPDFReal, h] at hx

/-- **C26.**  `BetaFromMeanVar(mean, variance)` is, for every admissible pair, a beta distribution whose expected value is `mean` and whose variance is `variance`. -/
theorem C26_moments (mean variance : ℝ) (h0 : 0 < mean) (h1 : mean < 1) (h2 : 0 < variance) (h3 : variance < mean * (1 - mean)) :
    ∃ a b, fromMeanVar mean variance = (fin a, fin b) ∧ 0 < a ∧ 0 < b ∧ IsProbabilityMeasure (betaMeasure a b) ∧
      ∫ x, x ∂(betaMeasure a b) = mean ∧ Var[fun x => x; betaMeasure a b] = variance := by
  obtain ⟨a, b, ha, hb, e1, e2⟩ := C26_mean_roundtrip mean variance 0 1 one_pos h0 (by linarith) h2 (by simpa using h3)
  rw [toMeanVar_fin one_pos ha hb] at e2
  simp only [Prod.mk.injEq, fin.injEq, zero_add, one_mul, one_pow] at e2
  have := isProbabilityMeasureBeta ha hb
  refine ⟨a, b, by rw [C26_same_formula _ _ h2.ne', e1], ha, hb, this, ?_, ?_⟩
  · rw [beta_mean ha hb, e2.1]
  · have hv := variance_eq_sub (beta_memLp ha hb)
    rw [hv]
    have es : ∫ x, ((fun x : ℝ => x) ^ 2) x ∂(betaMeasure a b) = a / (a + b) * ((a + 1) / (a + 1 + b)) := beta_second ha hb
    rw [es, beta_mean ha hb, ← e2.2]
    field_simp
    ring

/-- **C26.**  The check used to reject points is, for a positive variance, exactly `alpha > alpha_min` and `beta > beta_min`. -/
theorem C26_check_iff (mean variance aMin bMin : ℝ) (hv : 0 < variance) :
    check mean variance aMin bMin = true ↔ ∃ a b, fromMeanVar mean variance = (fin a, fin b) ∧ aMin < a ∧ bMin < b := by
  simp only [check, Bool.and_eq_true, decide_eq_true_eq, square_fin, add_fin_fin, sub_fin_fin, mul_fin_fin, lt_fin_fin, fromMeanVar, div_fin_of_ne _ hv.ne', Prod.mk.injEq, fin.injEq]
  have e1 : (variance * (aMin + mean) < mean * mean * (1 - mean)) ↔ aMin < (mean * mean * (1 - mean) - mean * variance) / variance := by
    rw [lt_div_iff₀ hv]
    constructor <;> intro h <;> linarith
  have e2 : (variance * (bMin + 1 - mean) < mean * ((1 - mean) * (1 - mean))) ↔ bMin < (mean * ((1 - mean) * (1 - mean)) - (1 - mean) * variance) / variance := by
    rw [lt_div_iff₀ hv]
    constructor <;> intro h <;> linarith
  rw [e1, e2]
  constructor
  · rintro ⟨h1, h2⟩
    exact ⟨_, _, ⟨rfl, rfl⟩, h1, h2⟩
  · rintro ⟨a, b, ⟨rfl, rfl⟩, h1, h2⟩
    exact ⟨h1, h2⟩

/-- **C26.**  So with non-negative minima a point that passes has an admissible mean and variance. -/
theorem C26_check_admissible (mean variance aMin bMin : ℝ) (hv : 0 < variance) (ha : 0 ≤ aMin) (hb : 0 ≤ bMin) (h : check mean variance aMin bMin = true) :
    0 < mean ∧ mean < 1 ∧ variance < mean * (1 - mean) := by
  obtain ⟨a, b, e, h1, h2⟩ := (C26_check_iff _ _ _ _ hv).1 h
  rw [C26_same_formula _ _ hv.ne'] at e
  have := (C26_positive_iff mean variance 0 1 one_pos).1 ⟨a, b, e, ha.trans_lt h1, hb.trans_lt h2⟩
  exact ⟨this.1, by linarith [this.2.1], by simpa using this.2.2.2⟩

/-- **C26 (non-positive variance).**  The variance itself is not checked: every mean in `(0, 1)` passes with a zero variance (concentrations `+inf`) and, for non-negative minima, with any negative one
(negative concentrations). -/
theorem C26_check_nonpositive_violated (mean variance aMin bMin : ℝ) (h0 : 0 < mean) (h1 : mean < 1) (hv : variance ≤ 0) (ha : 0 ≤ aMin) (hb : 0 ≤ bMin) :
    check mean variance aMin bMin = true ∧
    (variance = 0 → fromMeanVar mean variance = (pinf, pinf)) ∧ (variance < 0 → ∃ a b, fromMeanVar mean variance = (fin a, fin b) ∧ a < 0 ∧ b < 0) := by
  have h1' : 0 < 1 - mean := by linarith
  have p1 : 0 < mean * mean * (1 - mean) := by positivity
  have p2 : 0 < mean * ((1 - mean) * (1 - mean)) := by positivity
  refine ⟨?_, ?_, ?_⟩
  · simp only [check, Bool.and_eq_true, decide_eq_true_eq, square_fin, add_fin_fin, sub_fin_fin, mul_fin_fin, lt_fin_fin]
    constructor
    · have : variance * (aMin + mean) ≤ 0 := mul_nonpos_of_nonpos_of_nonneg hv (by linarith)
      linarith
    · have : variance * (bMin + 1 - mean) ≤ 0 := mul_nonpos_of_nonpos_of_nonneg hv (by linarith)
      linarith
  · rintro rfl
    simp only [fromMeanVar, square_fin, sub_fin_fin, mul_fin_fin, mul_zero, sub_zero, div_fin_fin, if_true, mulInf, p1, p2]
  · intro hv'
    refine ⟨(mean * mean * (1 - mean) - mean * variance) / variance, (mean * ((1 - mean) * (1 - mean)) - (1 - mean) * variance) / variance,
      by simp only [fromMeanVar, square_fin, sub_fin_fin, mul_fin_fin, div_fin_of_ne _ hv'.ne], ?_, ?_⟩
    · apply div_neg_of_pos_of_neg _ hv'
      nlinarith
    · apply div_neg_of_pos_of_neg _ hv'
      nlinarith

/-- A spin magnitude distribution with mean 0.2 and variance 0.01. -/
example : ∃ a b, fromMeanVar (1 / 5) (1 / 100) = (fin a, fin b) ∧ 0 < a ∧ 0 < b ∧ IsProbabilityMeasure (betaMeasure a b) ∧
    ∫ x, x ∂(betaMeasure a b) = 1 / 5 ∧ Var[fun x => x; betaMeasure a b] = 1 / 100 :=
  C26_moments (1 / 5) (1 / 100) (by norm_num) (by norm_num) (by norm_num) (by norm_num)

end GW.Beta
