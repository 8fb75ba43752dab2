import Verif.Lemmas.PowerLaw

/-!
# C22: the doubly truncated power law
-/

namespace GW.PowerLaw
open GW XR MeasureTheory

/-- **C22.**  For every exponent and `0 < low < high`: the log density is finite on `[low, high]`, its exponential is proportional to `x ^ alpha` and integrates to one
there, and with argument validation it is `-inf` at every float outside. -/
theorem C22_normalised (d : Dist) (hl : 0 < d.low) (hlh : d.low < d.high) :
    (∀ x, d.low ≤ x → x ≤ d.high → ∃ v, d.logProb (fin x) = fin v) ∧
    (∃ Z, 0 < Z ∧ ∀ x, d.low ≤ x → x ≤ d.high → expR (d.logProb (fin x)) = x ^ d.alpha / Z) ∧
    (∫ x in d.low..d.high, expR (d.logProb (fin x)) = 1) ∧
    (d.validate = true → ∀ x : XR, ¬ (le (fin d.low) x ∧ le x (fin d.high)) → d.logProb x = ninf) := by
  have key : ∀ x, d.low ≤ x → x ≤ d.high → d.logProb (fin x) = fin (d.alpha * Real.log x - Real.log (J d.alpha d.low d.high)) := by
    intro x h1 h2
    have hs : d.support (fin x) = true := by simp [Dist.support, h1, h2]
    simp [Dist.logProb, hs, logProbFn_eq hl hlh (hl.trans_le h1)]
  have key2 : ∀ x, d.low ≤ x → x ≤ d.high → expR (d.logProb (fin x)) = x ^ d.alpha / J d.alpha d.low d.high := by
    intro x h1 h2
    rw [key x h1 h2, expR_fin, exp_logProb hl hlh (hl.trans_le h1)]
  refine ⟨fun x h1 h2 => ⟨_, key x h1 h2⟩, ⟨_, J_pos hl hlh, key2⟩, ?_, ?_⟩
  · have : ∫ x in d.low..d.high, expR (d.logProb (fin x)) = ∫ x in d.low..d.high, x ^ d.alpha / J d.alpha d.low d.high := by
      apply intervalIntegral.integral_congr
      intro x hx
      rw [Set.uIcc_of_le hlh.le] at hx
      exact key2 x hx.1 hx.2
    rw [this, intervalIntegral.integral_div]
    exact div_self (J_pos hl hlh).ne'
  · intro hv x hx
    have : d.support x = false := by
      rw [Bool.eq_false_iff]
      intro h
      simp only [Dist.support, Bool.and_eq_true, decide_eq_true_eq] at h
      exact hx h
    simp [Dist.logProb, hv, this]

/-- **C22.**  The cdf is the integral of the density on `[low, high]`, `0` for `0 < x ≤ low` and `1` for every `x ≥ high`. -/
theorem C22_cdf (d : Dist) (hl : 0 < d.low) (hlh : d.low < d.high) :
    (∀ x, d.low ≤ x → x ≤ d.high → cdf (fin x) d.alpha d.low d.high = fin (∫ t in d.low..x, expR (d.logProb (fin t)))) ∧
    (∀ x, 0 < x → x ≤ d.low → cdf (fin x) d.alpha d.low d.high = fin 0) ∧
    (∀ x, d.high ≤ x → cdf (fin x) d.alpha d.low d.high = fin 1) := by
  have hJ := J_pos (α := d.alpha) hl hlh
  obtain ⟨Z, -, hZ⟩ := (C22_normalised d hl hlh).2.1
  refine ⟨fun x h1 h2 => ?_, fun x h1 h2 => ?_, fun x h1 => ?_⟩
  · have hx := hl.trans_le h1
    have e : ∫ t in d.low..x, expR (d.logProb (fin t)) = J d.alpha d.low x / J d.alpha d.low d.high := by
      have : ∫ t in d.low..x, expR (d.logProb (fin t)) = ∫ t in d.low..x, t ^ d.alpha / J d.alpha d.low d.high := by
        apply intervalIntegral.integral_congr
        intro t ht
        rw [Set.uIcc_of_le h1] at ht
        have hs : d.support (fin t) = true := by simp [Dist.support, ht.1, ht.2.trans h2]
        have ht0 := hl.trans_le ht.1
        simp [Dist.logProb, hs, logProbFn_eq hl hlh ht0, exp_logProb hl hlh ht0]
      rw [this, intervalIntegral.integral_div]
      rfl
    rw [cdf_eq hl hlh hx, e]
    have h3 : 0 ≤ J d.alpha d.low x := by
      rw [← J_self d.alpha d.low]
      exact (J_le_iff hl hl hx).2 h1
    have h4 : J d.alpha d.low x ≤ J d.alpha d.low d.high := (J_le_iff hl hx (hl.trans hlh)).2 h2
    rw [max_eq_left (div_nonneg h3 hJ.le), min_eq_left ((div_le_one hJ).2 h4)]
  · rw [cdf_eq hl hlh h1]
    have h3 : J d.alpha d.low x ≤ 0 := by
      rw [← J_self d.alpha d.low]
      exact (J_le_iff hl h1 hl).2 h2
    rw [max_eq_right (div_nonpos_of_nonpos_of_nonneg h3 hJ.le)]
    simp
  · have hx := (hl.trans hlh).trans_le h1
    rw [cdf_eq hl hlh hx]
    have h4 : J d.alpha d.low d.high ≤ J d.alpha d.low x := (J_le_iff hl (hl.trans hlh) hx).2 h1
    have : 1 ≤ J d.alpha d.low x / J d.alpha d.low d.high := (one_le_div hJ).2 h4
    rw [max_eq_left (by linarith), min_eq_right this]

/-- **C22.**  The cdf is non-decreasing on the positive axis, strictly increasing on `[low, high]`. -/
theorem C22_cdf_monotone (d : Dist) (hl : 0 < d.low) (hlh : d.low < d.high) (x y : ℝ) (hx : 0 < x) (hxy : x < y) :
    le (cdf (fin x) d.alpha d.low d.high) (cdf (fin y) d.alpha d.low d.high) ∧
    (d.low ≤ x → y ≤ d.high → lt (cdf (fin x) d.alpha d.low d.high) (cdf (fin y) d.alpha d.low d.high)) := by
  have hJ := J_pos (α := d.alpha) hl hlh
  have hy := hx.trans hxy
  have hlt : J d.alpha d.low x / J d.alpha d.low d.high < J d.alpha d.low y / J d.alpha d.low d.high :=
    div_lt_div_of_pos_right (J_lt hl hx hxy) hJ
  rw [cdf_eq hl hlh hx, cdf_eq hl hlh hy]
  refine ⟨min_le_min_right _ (max_le_max_right _ hlt.le), fun h1 h2 => ?_⟩
  have h3 : 0 ≤ J d.alpha d.low x := by
    rw [← J_self d.alpha d.low]
    exact (J_le_iff hl hl hx).2 h1
  have h4 : J d.alpha d.low y ≤ J d.alpha d.low d.high := (J_le_iff hl hy (hl.trans hlh)).2 h2
  have h5 := div_nonneg h3 hJ.le
  have h6 := (div_le_one hJ).2 h4
  rw [max_eq_left h5, max_eq_left (by linarith), min_eq_left (by linarith), min_eq_left h6]
  exact hlt

/-- **C22.**  The inverse cdf (and so every sample) maps `[0, 1]` into `[low, high]` and is inverse to the cdf, both ways round. -/
theorem C22_icdf (d : Dist) (hl : 0 < d.low) (hlh : d.low < d.high) :
    (∀ q, 0 ≤ q → q ≤ 1 → ∃ x, d.sample q = fin x ∧ d.low ≤ x ∧ x ≤ d.high ∧ cdf (fin x) d.alpha d.low d.high = fin q) ∧
    (∀ x, d.low ≤ x → x ≤ d.high → ∃ q, 0 ≤ q ∧ q ≤ 1 ∧ cdf (fin x) d.alpha d.low d.high = fin q ∧ d.sample q = fin x) := by
  have hJ := J_pos (α := d.alpha) hl hlh
  have hh := hl.trans hlh
  refine ⟨fun q h0 h1 => ?_, fun x h1 h2 => ?_⟩
  · obtain ⟨x, e, hx, hJx⟩ := icdf_eq (α := d.alpha) hl hlh h0 h1
    refine ⟨x, e, ?_, ?_, ?_⟩
    · rw [← J_le_iff (α := d.alpha) hl hl hx, J_self, hJx]
      positivity
    · rw [← J_le_iff (α := d.alpha) hl hx hh, hJx]
      nlinarith
    · rw [cdf_eq hl hlh hx, hJx, mul_div_assoc, div_self hJ.ne', mul_one, max_eq_left h0, min_eq_left h1]
  · have hx := hl.trans_le h1
    have h3 : 0 ≤ J d.alpha d.low x := by
      rw [← J_self d.alpha d.low]
      exact (J_le_iff hl hl hx).2 h1
    have h4 : J d.alpha d.low x ≤ J d.alpha d.low d.high := (J_le_iff hl hx hh).2 h2
    have q0 := div_nonneg h3 hJ.le
    have q1 := (div_le_one hJ).2 h4
    refine ⟨J d.alpha d.low x / J d.alpha d.low d.high, q0, q1, ?_, ?_⟩
    · rw [cdf_eq hl hlh hx, max_eq_left q0, min_eq_left q1]
    · obtain ⟨y, e, hy, hJy⟩ := icdf_eq (α := d.alpha) hl hlh q0 q1
      rw [div_mul_cancel₀ _ hJ.ne'] at hJy
      rw [Dist.sample, e, J_inj hl hy hx hJy]

/-- **C22.**  A sample from the uniform draw `u` is at most `t` exactly when `u` is at most the probability below `t`: the samples follow the density. -/
theorem C22_sample_law (d : Dist) (hl : 0 < d.low) (hlh : d.low < d.high) (u t : ℝ) (h0 : 0 ≤ u) (h1 : u ≤ 1) (ht : d.low ≤ t) (ht' : t ≤ d.high) :
    le (d.sample u) (fin t) ↔ u ≤ ∫ x in d.low..t, expR (d.logProb (fin x)) := by
  obtain ⟨x, e, hx1, hx2, hc⟩ := (C22_icdf d hl hlh).1 u h0 h1
  have hct := (C22_cdf d hl hlh).1 t ht ht'
  rw [e, le_fin_fin]
  constructor
  · intro h
    rcases h.eq_or_lt with h | h
    · rw [h, hct] at hc
      injection hc with hc
      exact hc.ge
    · have := (C22_cdf_monotone d hl hlh x t (hl.trans_le hx1) h).1
      rw [hc, hct] at this
      exact this
  · intro h
    by_contra hn
    have := (C22_cdf_monotone d hl hlh t x (hl.trans_le ht) (not_le.1 hn)).2 ht hx2
    rw [hc, hct] at this
    exact absurd h (not_le.2 this)

/-- **C22 (violated for negative arguments).**  The cdf is not monotone over all reals: for the density proportional to `x` on `[1, 2]` the cdf at `-10` is `1`
although it is `0` at `1`. -/
theorem C22_cdf_negative_violated : cdf (fin (-10)) 1 1 2 = fin 1 ∧ cdf (fin 1) 1 1 2 = fin 0 := by
  refine ⟨?_, ((C22_cdf ⟨1, 1, 2, true⟩ (by norm_num) (by norm_num)).2.1 1 (by norm_num) (by norm_num))⟩
  have hp : pow (fin (-10)) (1 + 1) = fin 100 := by
    have h2 : (1 + 1 : ℝ) = ((2 : ℕ) : ℝ) := by norm_num
    have hk : ∃ k : ℤ, (1 + 1 : ℝ) = k := ⟨2, by norm_num⟩
    rw [pow, if_neg (by norm_num), if_neg (by norm_num), if_pos hk, h2, Real.rpow_natCast]
    norm_num
  have e1 : pow (fin 1) (1 + 1) = fin 1 := by rw [pow_fin_pos (by norm_num), Real.one_rpow]
  have e2 : pow (fin 2) (1 + 1) = fin 4 := by
    have h2 : (1 + 1 : ℝ) = ((2 : ℕ) : ℝ) := by norm_num
    rw [pow_fin_pos (by norm_num), h2, Real.rpow_natCast]
    norm_num
  have hα : (1 : ℝ) ≠ -1 := by norm_num
  simp only [cdf, mask_of_ne hα, safeAlpha_of_ne hα, select_true, hp, e1, e2, sub_fin_fin]
  rw [div_fin_of_ne _ (by norm_num), clip01, max_fin_fin, min_fin_fin]
  norm_num

/-- A steep power law on `[5, 100]`, and the singular exponent. -/
example : ∫ x in (5 : ℝ)..100, expR ((⟨-2.35, 5, 100, true⟩ : Dist).logProb (fin x)) = 1 := (C22_normalised ⟨-2.35, 5, 100, true⟩ (by norm_num) (by norm_num)).2.2.1
example : ∫ x in (5 : ℝ)..100, expR ((⟨-1, 5, 100, true⟩ : Dist).logProb (fin x)) = 1 := (C22_normalised ⟨-1, 5, 100, true⟩ (by norm_num) (by norm_num)).2.2.1

end GW.PowerLaw
