import Verif.Model.MassModels
import Verif.Lemmas.PowerLaw
import Verif.Props.Constraints
import Verif.Props.PowerLaw
import Mathlib.MeasureTheory.Integral.Bochner.Set
import Mathlib.MeasureTheory.Measure.Lebesgue.Basic

/-!
# C24: two-dimensional and broken power-law mass models are normalised
-/

namespace GW.Mass
open GW XR GW.PowerLaw GW.Constraints MeasureTheory ENNReal
open scoped Classical

/-! ## Helpers -/

theorem lint_pow {α l h : ℝ} (hl : 0 < l) (hlh : l < h) : ∫⁻ x in Set.Icc l h, ENNReal.ofReal (x ^ α / J α l h) = 1 := by
  have hJ := J_pos (α := α) hl hlh
  have hi : IntervalIntegrable (fun x : ℝ => x ^ α / J α l h) volume l h := (intervalIntegrable_rpow_pos hl (hl.trans hlh)).div_const _
  have hi2 : IntegrableOn (fun x : ℝ => x ^ α / J α l h) (Set.Icc l h) volume :=
    (intervalIntegrable_iff_integrableOn_Icc_of_le hlh.le).1 hi
  rw [← ofReal_integral_eq_lintegral_ofReal hi2, integral_Icc_eq_integral_Ioc, ← intervalIntegral.integral_of_le hlh.le, intervalIntegral.integral_div,
    ← J, div_self hJ.ne', ENNReal.ofReal_one]
  filter_upwards [ae_restrict_mem measurableSet_Icc] with x hx
  exact div_nonneg (Real.rpow_nonneg (hl.le.trans hx.1) _) hJ.le

theorem accepts_iff (c : Leaf) (x : List XR) : accepts c x = true ↔ c.check x = .ok true := by
  unfold accepts
  cases c.check x <;> simp

/-! ## C24: power law in primary mass and mass ratio -/

/-- The conditional normalisation is the proper one. -/
theorem pmr_logProb {d : PowerlawPMR} (h0 : 0 < d.mmin) (h : d.mmin < d.mmax) {m q : ℝ} (hm : d.mmin < m) (hm' : m ≤ d.mmax) (hq : d.mmin / m ≤ q) (hq1 : q ≤ 1) :
    d.logProb (fin m) (fin q) = fin ((-d.alpha * Real.log m - Real.log (J (-d.alpha) d.mmin d.mmax)) + (d.beta * Real.log q - Real.log (J d.beta (d.mmin / m) 1))) := by
  have hm0 := h0.trans hm
  have hl : 0 < d.mmin / m := by positivity
  have hl1 : d.mmin / m < 1 := (div_lt_one hm0).2 hm
  have hs : d.support (fin m) (fin q) = true := by
    rw [PowerlawPMR.support, accepts_iff, C19_ratio_iff]
    exact ⟨h0, hm.le, hm', hq, hq1⟩
  have e1 := logProbFn_eq (α := -d.alpha) h0 h hm0
  have e2 := logProbFn_eq (α := d.beta) hl hl1 (hl.trans_le hq)
  have h3 : decide (le (fin m) (fin d.mmin)) = false := by simpa using hm
  simp only [logProbFn] at e1 e2
  simp only [PowerlawPMR.logProb, validated, hs, select_true, ite_self, h3, select_false, div_fin_of_ne _ hm0.ne', e1, e2, add_fin_fin]

/-- **C24.**  `PowerlawPrimaryMassRatio`, for all real exponents and `0 < mmin < mmax`, with argument validation: the density integrates to one over the whole
plane, vanishes outside the support, and on it (away from the line `m1 = mmin`, where the code returns `-inf`) it is the product of a power law in `m1` and a power law in `q` normalised on `[mmin/m1, 1]`. -/
theorem C24_primary_ratio (d : PowerlawPMR) (h0 : 0 < d.mmin) (h : d.mmin < d.mmax) (hv : d.validate = true) :
    (∫⁻ m : ℝ, ∫⁻ q : ℝ, ENNReal.ofReal (expR (d.logProb (fin m) (fin q))) = 1) ∧
    (∀ m q : XR, ¬ (Leaf.massRatioSandwich d.mmin d.mmax).check [m, q] = .ok true → d.logProb m q = ninf) ∧
    (∃ Z : ℝ, 0 < Z ∧ ∀ m, d.mmin < m → m ≤ d.mmax → ∃ Zq : ℝ, 0 < Zq ∧
      ∀ q, d.mmin / m ≤ q → q ≤ 1 → expR (d.logProb (fin m) (fin q)) = m ^ (-d.alpha) / Z * (q ^ d.beta / Zq)) := by
  have hout : ∀ m q : XR, ¬ (Leaf.massRatioSandwich d.mmin d.mmax).check [m, q] = .ok true → d.logProb m q = ninf := by
    intro m q hn
    rw [← accepts_iff, ← PowerlawPMR.support, Bool.not_eq_true] at hn
    simp only [PowerlawPMR.logProb, validated, hv, if_true, hn, select_false]
  have hin : ∀ m, d.mmin < m → m ≤ d.mmax → ∀ q, d.mmin / m ≤ q → q ≤ 1 →
      expR (d.logProb (fin m) (fin q)) = m ^ (-d.alpha) / J (-d.alpha) d.mmin d.mmax * (q ^ d.beta / J d.beta (d.mmin / m) 1) := by
    intro m h1 h2 q h3 h4
    have hm0 := h0.trans h1
    have hl : 0 < d.mmin / m := by positivity
    have hl1 : d.mmin / m < 1 := (div_lt_one hm0).2 h1
    rw [pmr_logProb h0 h h1 h2 h3 h4, expR_fin, Real.exp_add, exp_logProb h0 h hm0, exp_logProb hl hl1 (hl.trans_le h3)]
  refine ⟨?_, hout, ⟨J (-d.alpha) d.mmin d.mmax, J_pos h0 h, fun m h1 h2 => ⟨J d.beta (d.mmin / m) 1, ?_, hin m h1 h2⟩⟩⟩
  · have inner : ∀ m : ℝ, m ≠ d.mmin → ∫⁻ q : ℝ, ENNReal.ofReal (expR (d.logProb (fin m) (fin q))) =
        (Set.Icc d.mmin d.mmax).indicator (fun m => ENNReal.ofReal (m ^ (-d.alpha) / J (-d.alpha) d.mmin d.mmax)) m := by
      intro m hne
      by_cases hm : d.mmin < m ∧ m ≤ d.mmax
      · have hm0 := h0.trans hm.1
        have hl : 0 < d.mmin / m := by positivity
        have hl1 : d.mmin / m < 1 := (div_lt_one hm0).2 hm.1
        rw [Set.indicator_of_mem (show m ∈ Set.Icc d.mmin d.mmax from ⟨hm.1.le, hm.2⟩)]
        have e : (fun q : ℝ => ENNReal.ofReal (expR (d.logProb (fin m) (fin q)))) = (Set.Icc (d.mmin / m) 1).indicator
            (fun q => ENNReal.ofReal (m ^ (-d.alpha) / J (-d.alpha) d.mmin d.mmax) * ENNReal.ofReal (q ^ d.beta / J d.beta (d.mmin / m) 1)) := by
          funext q
          by_cases hq : q ∈ Set.Icc (d.mmin / m) 1
          · rw [Set.indicator_of_mem hq, hin m hm.1 hm.2 q hq.1 hq.2, ENNReal.ofReal_mul]
            exact div_nonneg (Real.rpow_nonneg hm0.le _) (J_pos h0 h).le
          · rw [Set.indicator_of_notMem hq, hout]
            · simp
            · rw [C19_ratio_iff]
              rintro ⟨_, _, _, h4, h5⟩
              exact hq ⟨h4, h5⟩
        rw [e, lintegral_indicator measurableSet_Icc, lintegral_const_mul' _ _ ENNReal.ofReal_ne_top, lint_pow hl hl1, mul_one]
      · rw [Set.indicator_of_notMem]
        · have e : ∀ q : ℝ, d.logProb (fin m) (fin q) = ninf := by
            intro q
            apply hout
            rw [C19_ratio_iff]
            rintro ⟨_, h2, h3, _, _⟩
            exact hm ⟨lt_of_le_of_ne h2 (Ne.symm hne), h3⟩
          simp [e]
        · rintro ⟨h2, h3⟩
          exact hm ⟨lt_of_le_of_ne h2 (Ne.symm hne), h3⟩
    have ae : ∀ᵐ m : ℝ, ∫⁻ q : ℝ, ENNReal.ofReal (expR (d.logProb (fin m) (fin q))) =
        (Set.Icc d.mmin d.mmax).indicator (fun m => ENNReal.ofReal (m ^ (-d.alpha) / J (-d.alpha) d.mmin d.mmax)) m := by
      have : ∀ᵐ m : ℝ, m ≠ d.mmin := by
        rw [ae_iff]
        simp
      filter_upwards [this] with m hm using inner m hm
    rw [lintegral_congr_ae ae, lintegral_indicator measurableSet_Icc, lint_pow h0 h]
  · have hm0 := h0.trans h1
    exact J_pos (by positivity) ((div_lt_one hm0).2 h1)

/-- **C24.**  Every sample of `PowerlawPrimaryMassRatio` lies in its support. -/
theorem C24_primary_ratio_sample (d : PowerlawPMR) (h0 : 0 < d.mmin) (h : d.mmin < d.mmax) (u1 u2 : ℝ) (h1 : 0 ≤ u1) (h1' : u1 ≤ 1) (h2 : 0 ≤ u2) (h2' : u2 ≤ 1) :
    (Leaf.massRatioSandwich d.mmin d.mmax).check [(d.sample u1 u2).1, (d.sample u1 u2).2] = .ok true := by
  obtain ⟨m, e, hm1, hm2, -⟩ := (C22_icdf ⟨-d.alpha, d.mmin, d.mmax, true⟩ h0 h).1 u1 h1 h1'
  have hm0 := h0.trans_le hm1
  have e1 : icdfX u1 (-d.alpha) (fin d.mmin) (fin d.mmax) = fin m := e
  have hl : 0 < d.mmin / m := by positivity
  have key : ∃ q, icdfX u2 d.beta (fin d.mmin / fin m) (fin 1) = fin q ∧ d.mmin / m ≤ q ∧ q ≤ 1 := by
    rw [div_fin_of_ne _ hm0.ne']
    rcases hm1.eq_or_lt with hm | hm
    · refine ⟨1, ?_, by simp [← hm, h0.ne'], le_refl _⟩
      have : d.mmin / m = 1 := by
        rw [div_eq_one_iff_eq hm0.ne']
        exact hm
      rw [this]
      simp only [icdfX, pow_fin_pos one_pos, Real.one_rpow, sub_fin_fin, sub_self, mul_fin_fin, mul_zero, add_fin_fin, add_zero, div_fin_of_ne _ one_ne_zero, div_one,
        mul_one]
      unfold select
      split <;> rfl
    · obtain ⟨q, e, hq1, hq2, -⟩ := (C22_icdf ⟨d.beta, d.mmin / m, 1, true⟩ hl ((div_lt_one hm0).2 hm)).1 u2 h2 h2'
      exact ⟨q, e, hq1, hq2⟩
  obtain ⟨q, eq, hq1, hq2⟩ := key
  simp only [PowerlawPMR.sample, e1, eq]
  rw [C19_ratio_iff]
  exact ⟨h0, hm1, hm2, hq1, hq2⟩

/-! ## C24: Wysocki 2019 -/

/-- **C24.**  `Wysocki2019MassModel` integrates to one over the plane and vanishes outside its support. -/
theorem C24_wysocki (d : Wysocki) (h0 : 0 < d.mmin) (h : d.mmin < d.mmax) (hv : d.validate = true) :
    (∫⁻ m1 : ℝ, ∫⁻ m2 : ℝ, ENNReal.ofReal (expR (d.logProb (fin m1) (fin m2))) = 1) ∧
    (∀ m1 m2 : XR, ¬ (Leaf.massSandwich d.mmin d.mmax).check [m1, m2] = .ok true → d.logProb m1 m2 = ninf) ∧
    (∃ Z : ℝ, 0 < Z ∧ ∀ m1 m2, d.mmin < m1 → m1 ≤ d.mmax → d.mmin ≤ m2 → m2 ≤ m1 →
      expR (d.logProb (fin m1) (fin m2)) = m1 ^ (-d.alphaM) / (m1 - d.mmin) / Z) := by
  have hJ := J_pos (α := -d.alphaM) h0 h
  have hout : ∀ m q : XR, ¬ (Leaf.massSandwich d.mmin d.mmax).check [m, q] = .ok true → d.logProb m q = ninf := by
    intro m q hn
    rw [← accepts_iff, ← Wysocki.support, Bool.not_eq_true] at hn
    simp only [Wysocki.logProb, validated, hv, if_true, hn, select_false]
  have hin : ∀ m1 m2, d.mmin < m1 → m1 ≤ d.mmax → d.mmin ≤ m2 → m2 ≤ m1 →
      expR (d.logProb (fin m1) (fin m2)) = m1 ^ (-d.alphaM) / J (-d.alphaM) d.mmin d.mmax * (1 / (m1 - d.mmin)) := by
    intro m1 m2 h1 h2 h3 h4
    have hm0 := h0.trans h1
    have hs : d.support (fin m1) (fin m2) = true := by
      rw [Wysocki.support, accepts_iff, C19_sandwich_iff]
      exact ⟨h0, h3, h4, h2⟩
    have e1 := logProbFn_eq (α := -d.alphaM) h0 h hm0
    simp only [logProbFn] at e1
    have hp : 0 < m1 - d.mmin := sub_pos.2 h1
    have e2 : uniformLogpdf (fin m2) (fin d.mmin) (fin m1 - fin d.mmin) = fin (-Real.log (m1 - d.mmin)) := by
      have c1 : decide (lt (fin d.mmin + (fin m1 - fin d.mmin)) (fin m2)) = false := by
        simp [h4]
      have c2 : decide (lt (fin m2) (fin d.mmin)) = false := by simp [h3]
      rw [uniformLogpdf, c1, c2]
      simp [hp]
    simp only [Wysocki.logProb, validated, hs, select_true, ite_self, e1, e2, add_fin_fin, expR_fin]
    rw [Real.exp_add, exp_logProb h0 h hm0, Real.exp_neg, Real.exp_log hp, one_div]
  refine ⟨?_, hout, ⟨J (-d.alphaM) d.mmin d.mmax, hJ, ?_⟩⟩
  · have inner : ∀ m : ℝ, m ≠ d.mmin → ∫⁻ q : ℝ, ENNReal.ofReal (expR (d.logProb (fin m) (fin q))) =
        (Set.Icc d.mmin d.mmax).indicator (fun m => ENNReal.ofReal (m ^ (-d.alphaM) / J (-d.alphaM) d.mmin d.mmax)) m := by
      intro m hne
      by_cases hm : d.mmin < m ∧ m ≤ d.mmax
      · have hm0 := h0.trans hm.1
        have hp : 0 < m - d.mmin := sub_pos.2 hm.1
        rw [Set.indicator_of_mem (show m ∈ Set.Icc d.mmin d.mmax from ⟨hm.1.le, hm.2⟩)]
        have e : (fun q : ℝ => ENNReal.ofReal (expR (d.logProb (fin m) (fin q)))) = (Set.Icc d.mmin m).indicator
            (fun _ => ENNReal.ofReal (m ^ (-d.alphaM) / J (-d.alphaM) d.mmin d.mmax) * ENNReal.ofReal (1 / (m - d.mmin))) := by
          funext q
          by_cases hq : q ∈ Set.Icc d.mmin m
          · rw [Set.indicator_of_mem hq, hin m q hm.1 hm.2 hq.1 hq.2, ENNReal.ofReal_mul]
            exact div_nonneg (Real.rpow_nonneg hm0.le _) hJ.le
          · rw [Set.indicator_of_notMem hq, hout]
            · simp
            · rw [C19_sandwich_iff]
              rintro ⟨_, h2, h3, _⟩
              exact hq ⟨h2, h3⟩
        rw [e, lintegral_indicator measurableSet_Icc, setLIntegral_const, Real.volume_Icc, mul_assoc, ← ENNReal.ofReal_mul (by positivity), one_div,
          inv_mul_cancel₀ hp.ne', ENNReal.ofReal_one, mul_one]
      · rw [Set.indicator_of_notMem]
        · have e : ∀ q : ℝ, d.logProb (fin m) (fin q) = ninf := by
            intro q
            apply hout
            rw [C19_sandwich_iff]
            rintro ⟨_, h2, h3, h4⟩
            exact hm ⟨lt_of_le_of_ne (h2.trans h3) (Ne.symm hne), h4⟩
          simp [e]
        · rintro ⟨h2, h3⟩
          exact hm ⟨lt_of_le_of_ne h2 (Ne.symm hne), h3⟩
    have ae : ∀ᵐ m : ℝ, ∫⁻ q : ℝ, ENNReal.ofReal (expR (d.logProb (fin m) (fin q))) =
        (Set.Icc d.mmin d.mmax).indicator (fun m => ENNReal.ofReal (m ^ (-d.alphaM) / J (-d.alphaM) d.mmin d.mmax)) m := by
      have : ∀ᵐ m : ℝ, m ≠ d.mmin := by
        rw [ae_iff]
        simp
      filter_upwards [this] with m hm using inner m hm
    rw [lintegral_congr_ae ae, lintegral_indicator measurableSet_Icc, lint_pow h0 h]
  · intro m1 m2 h1 h2 h3 h4
    rw [hin m1 m2 h1 h2 h3 h4]
    ring

/-- **C24.**  Every sample of `Wysocki2019MassModel` lies in its support. -/
theorem C24_wysocki_sample (d : Wysocki) (h0 : 0 < d.mmin) (h : d.mmin < d.mmax) (u1 u2 : ℝ) (h1 : 0 ≤ u1) (h1' : u1 ≤ 1) (h2 : 0 ≤ u2) (h2' : u2 ≤ 1) :
    (Leaf.massSandwich d.mmin d.mmax).check [(d.sample u1 u2).1, (d.sample u1 u2).2] = .ok true := by
  obtain ⟨m, e, hm1, hm2, -⟩ := (C22_icdf ⟨-d.alphaM, d.mmin, d.mmax, true⟩ h0 h).1 u1 h1 h1'
  have e1 : icdfX u1 (-d.alphaM) (fin d.mmin) (fin d.mmax) = fin m := e
  simp only [Wysocki.sample, e1, sub_fin_fin, mul_fin_fin, add_fin_fin]
  rw [C19_sandwich_iff]
  refine ⟨h0, by nlinarith, by nlinarith, hm2⟩

/-! ## C24: broken power law -/

/-- The normalisation of the broken power law. -/
noncomputable def brokenNorm (d : Broken) : ℝ :=
  d.mbreak ^ d.alpha1 * J (-d.alpha1) d.mmin d.mbreak + d.mbreak ^ d.alpha2 * J (-d.alpha2) d.mbreak d.mmax

theorem brokenNorm_pos {d : Broken} (h0 : 0 < d.mmin) (h1 : d.mmin < d.mbreak) (h2 : d.mbreak < d.mmax) : 0 < brokenNorm d := by
  have hb := h0.trans h1
  have := J_pos (α := -d.alpha1) h0 h1
  have := J_pos (α := -d.alpha2) hb h2
  unfold brokenNorm
  positivity

theorem broken_eq {d : Broken} (h0 : 0 < d.mmin) (h1 : d.mmin < d.mbreak) (h2 : d.mbreak < d.mmax) {m : ℝ} (hm : d.mmin ≤ m) (hm' : m ≤ d.mmax) :
    d.logProb (fin m) = fin ((if m < d.mbreak then d.alpha1 else d.alpha2) * Real.log (d.mbreak / m) - Real.log (brokenNorm d)) := by
  have hb := h0.trans h1
  have hm0 := h0.trans_le hm
  have hs : d.support (fin m) = true := by simp [Broken.support, hm, hm']
  have e1 := logProbFn_eq (α := -d.alpha1) h0 h1 hb
  have e2 := logProbFn_eq (α := -d.alpha2) hb h2 hb
  simp only [logProbFn] at e1 e2
  have hr : 0 < d.mbreak / m := by positivity
  have p1 := J_pos (α := -d.alpha1) h0 h1
  have p2 := J_pos (α := -d.alpha2) hb h2
  have g : ∀ a Jv : ℝ, 0 < Jv → Real.exp (-(-a * Real.log d.mbreak - Real.log Jv)) = d.mbreak ^ a * Jv := by
    intro a Jv hJ
    rw [show -(-a * Real.log d.mbreak - Real.log Jv) = Real.log d.mbreak * a + Real.log Jv by ring, Real.exp_add, Real.exp_log hJ, Real.rpow_def_of_pos hb]
  simp only [Broken.logProb, validated, hs, select_true, ite_self, brokenLogProb, e1, e2, neg_fin, logaddexp_fin, g _ _ p1, g _ _ p2, div_fin_of_ne _ hm0.ne', log_fin_pos hr]
  by_cases hlt : m < d.mbreak
  · simp [hlt, brokenNorm]
  · simp [hlt, brokenNorm]

/-- The density itself. -/
theorem broken_exp {d : Broken} (h0 : 0 < d.mmin) (h1 : d.mmin < d.mbreak) (h2 : d.mbreak < d.mmax) {m : ℝ} (hm : d.mmin ≤ m) (hm' : m ≤ d.mmax) :
    expR (d.logProb (fin m)) = (m / d.mbreak) ^ (-(if m < d.mbreak then d.alpha1 else d.alpha2)) / brokenNorm d := by
  have hb := h0.trans h1
  have hm0 := h0.trans_le hm
  rw [broken_eq h0 h1 h2 hm hm', expR_fin, Real.exp_sub, Real.exp_log (brokenNorm_pos h0 h1 h2), Real.rpow_def_of_pos (by positivity)]
  congr 2
  rw [Real.log_div hb.ne' hm0.ne', Real.log_div hm0.ne' hb.ne']
  ring

theorem integral_pow_ratio {α l h b : ℝ} (hl : 0 < l) (hlh : l ≤ h) (hb : 0 < b) : ∫ m in l..h, (m / b) ^ (-α) = b ^ α * J (-α) l h := by
  have : ∫ m in l..h, (m / b) ^ (-α) = ∫ m in l..h, b ^ α * m ^ (-α) := by
    apply intervalIntegral.integral_congr
    intro m hm
    rw [Set.uIcc_of_le hlh] at hm
    have hm0 := hl.trans_le hm.1
    show (m / b) ^ (-α) = b ^ α * m ^ (-α)
    rw [Real.div_rpow hm0.le hb.le, Real.rpow_neg hb.le]
    field_simp
  rw [this, intervalIntegral.integral_const_mul]
  rfl

/-- **C24.**  `BrokenPowerlaw`, for all real slopes and `0 < mmin < mbreak < mmax`: on `[mmin, mmax]` the density is `(m/mbreak)^(-slope)/Z` with the slope `alpha1` below
the break and `alpha2` above, it integrates to one, is continuous (in particular at the break), and with validation it is `-inf` outside. -/
theorem C24_broken (d : Broken) (h0 : 0 < d.mmin) (h1 : d.mmin < d.mbreak) (h2 : d.mbreak < d.mmax) :
    (∃ Z, 0 < Z ∧ (∀ m, d.mmin ≤ m → m < d.mbreak → expR (d.logProb (fin m)) = (m / d.mbreak) ^ (-d.alpha1) / Z) ∧
      (∀ m, d.mbreak ≤ m → m ≤ d.mmax → expR (d.logProb (fin m)) = (m / d.mbreak) ^ (-d.alpha2) / Z)) ∧
    (∫ m in d.mmin..d.mmax, expR (d.logProb (fin m)) = 1) ∧
    ContinuousOn (fun m => expR (d.logProb (fin m))) (Set.Icc d.mmin d.mmax) ∧
    (d.validate = true → ∀ m : XR, ¬ (le (fin d.mmin) m ∧ le m (fin d.mmax)) → d.logProb m = ninf) := by
  have hb := h0.trans h1
  have hN := brokenNorm_pos h0 h1 h2
  have lowE : ∀ m, d.mmin ≤ m → m ≤ d.mbreak → expR (d.logProb (fin m)) = (m / d.mbreak) ^ (-d.alpha1) / brokenNorm d := by
    intro m k1 k2
    rw [broken_exp h0 h1 h2 k1 (k2.trans h2.le)]
    rcases k2.eq_or_lt with k | k
    · rw [k, div_self hb.ne', Real.one_rpow, Real.one_rpow]
    · rw [if_pos k]
  have highE : ∀ m, d.mbreak ≤ m → m ≤ d.mmax → expR (d.logProb (fin m)) = (m / d.mbreak) ^ (-d.alpha2) / brokenNorm d := by
    intro m k1 k2
    rw [broken_exp h0 h1 h2 (h1.le.trans k1) k2, if_neg (not_lt.2 k1)]
  have c1 : ContinuousOn (fun m => expR (d.logProb (fin m))) (Set.Icc d.mmin d.mbreak) := by
    have : ContinuousOn (fun m : ℝ => (m / d.mbreak) ^ (-d.alpha1) / brokenNorm d) (Set.Icc d.mmin d.mbreak) := by
      apply ContinuousOn.div_const
      apply ContinuousOn.rpow_const (continuousOn_id.div_const _)
      intro m hm
      left
      have := h0.trans_le hm.1
      simp only [id]
      positivity
    exact this.congr fun m hm => lowE m hm.1 hm.2
  have c2 : ContinuousOn (fun m => expR (d.logProb (fin m))) (Set.Icc d.mbreak d.mmax) := by
    have : ContinuousOn (fun m : ℝ => (m / d.mbreak) ^ (-d.alpha2) / brokenNorm d) (Set.Icc d.mbreak d.mmax) := by
      apply ContinuousOn.div_const
      apply ContinuousOn.rpow_const (continuousOn_id.div_const _)
      intro m hm
      left
      have := hb.trans_le hm.1
      simp only [id]
      positivity
    exact this.congr fun m hm => highE m hm.1 hm.2
  refine ⟨⟨brokenNorm d, hN, fun m k1 k2 => lowE m k1 k2.le, highE⟩, ?_, ?_, ?_⟩
  · have i1 : IntervalIntegrable (fun m => expR (d.logProb (fin m))) volume d.mmin d.mbreak := by
      apply ContinuousOn.intervalIntegrable
      rwa [Set.uIcc_of_le h1.le]
    have i2 : IntervalIntegrable (fun m => expR (d.logProb (fin m))) volume d.mbreak d.mmax := by
      apply ContinuousOn.intervalIntegrable
      rwa [Set.uIcc_of_le h2.le]
    rw [← intervalIntegral.integral_add_adjacent_intervals i1 i2]
    have e1 : ∫ m in d.mmin..d.mbreak, expR (d.logProb (fin m)) = d.mbreak ^ d.alpha1 * J (-d.alpha1) d.mmin d.mbreak / brokenNorm d := by
      rw [← integral_pow_ratio h0 h1.le hb, ← intervalIntegral.integral_div]
      apply intervalIntegral.integral_congr
      intro m hm
      rw [Set.uIcc_of_le h1.le] at hm
      exact lowE m hm.1 hm.2
    have e2 : ∫ m in d.mbreak..d.mmax, expR (d.logProb (fin m)) = d.mbreak ^ d.alpha2 * J (-d.alpha2) d.mbreak d.mmax / brokenNorm d := by
      rw [← integral_pow_ratio hb h2.le hb, ← intervalIntegral.integral_div]
      apply intervalIntegral.integral_congr
      intro m hm
      rw [Set.uIcc_of_le h2.le] at hm
      exact highE m hm.1 hm.2
    rw [e1, e2, ← add_div]
    exact div_self hN.ne'
  · rw [← Set.Icc_union_Icc_eq_Icc h1.le h2.le]
    exact c1.union_of_isClosed c2 isClosed_Icc isClosed_Icc
  · intro hv m hm
    have : d.support m = false := by
      rw [Bool.eq_false_iff]
      intro h
      simp only [Broken.support, Bool.and_eq_true, decide_eq_true_eq] at h
      exact hm h
    simp only [Broken.logProb, validated, hv, if_true, this, select_false]

/-- **C24 (unordered break).**  Nothing rejects a break outside the mass range: with `mbreak > mmax` the log density is NaN at every mass in the support. -/
theorem C24_break_outside_violated (d : Broken) (h0 : 0 < d.mmin) (h1 : d.mmin < d.mmax) (h2 : d.mmax < d.mbreak) (m : ℝ) (hm : d.mmin ≤ m) (hm' : m ≤ d.mmax) :
    d.logProb (fin m) = nan := by
  have hb := (h0.trans h1).trans h2
  have hx := h0.trans h1
  have hm0 := h0.trans_le hm
  have hs : d.support (fin m) = true := by simp [Broken.support, hm, hm']
  have neg : logNormX (-d.alpha2) (fin d.mbreak) (fin d.mmax) = nan := by
    by_cases hα : -d.alpha2 = -1
    · have hL : Real.log d.mmax - Real.log d.mbreak < 0 := sub_neg.2 (Real.log_lt_log hx h2)
      rw [hα]
      simp only [logNormX, mask_neg_one, select_false, log_fin_pos hx, log_fin_pos hb, sub_fin_fin, log_fin_neg hL]
    · have hJ := J_pos (α := -d.alpha2) hx h2
      rw [J_closed hα hx hb] at hJ
      have : (d.mmax ^ (1 + -d.alpha2) - d.mbreak ^ (1 + -d.alpha2)) / (1 + -d.alpha2) < 0 := by
        rw [← neg_sub, neg_div]
        linarith
      simp only [logNormX, mask_of_ne hα, safeAlpha_of_ne hα, select_true, pow_fin_pos hx, pow_fin_pos hb, sub_fin_fin, div_fin_of_ne _ (one_add_ne hα), log_fin_neg this]
  have e2 : logProbX (fin d.mbreak) (-d.alpha2) (fin d.mbreak) (fin d.mmax) = nan := by simp [logProbX, neg]
  have : ∀ a, logaddexp a nan = nan := by
    intro a
    simp [logaddexp]
  simp only [Broken.logProb, validated, hs, select_true, ite_self, brokenLogProb, e2, neg_nan, this, sub_nan]

/-- Typical parameters. -/
example : ∫⁻ m : ℝ, ∫⁻ q : ℝ, ENNReal.ofReal (expR ((⟨2.3, 1.1, 5, 100, true⟩ : PowerlawPMR).logProb (fin m) (fin q))) = 1 :=
  (C24_primary_ratio ⟨2.3, 1.1, 5, 100, true⟩ (by norm_num) (by norm_num) rfl).1
example : ∫ m in (5 : ℝ)..100, expR ((⟨1.7, 4.5, 35, 100, 5, true⟩ : Broken).logProb (fin m)) = 1 :=
  (C24_broken ⟨1.7, 4.5, 35, 100, 5, true⟩ (by norm_num) (by norm_num) (by norm_num)).2.1

end GW.Mass
