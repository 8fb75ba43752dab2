import Verif.Lemmas.RoundedPowerLaw
import Verif.Props.RoundedLikelihood
import Verif.Props.Rounding

/-!
# C110: the normalised power law density in floating point arithmetic
-/

namespace GW.RoundedPowerLaw
open GW XR Rounding RoundedLikelihood

variable {f : Format} {fl : ℝ → XR}

/-- If nothing is rounded, the formulas are those of the exact model. -/
theorem C110_exact (x : XR) (alpha low high : ℝ) :
    logNorm fin alpha low high = PowerLaw.logNorm alpha low high ∧ logProb fin x alpha low high = PowerLaw.logProbFn x alpha low high := by
  have hrd : ∀ y : XR, rd fin y = y := fun y => by cases y <;> rfl
  have hp : ∀ (a : XR) (e : ℝ), power fin a (fin e) = XR.pow a e := fun a e => hrd _
  have h1 : logNorm fin alpha low high = PowerLaw.logNorm alpha low high := by
    simp only [logNorm, PowerLaw.logNorm, PowerLaw.logNormX, Rounding.add, Rounding.sub, Rounding.div, hrd, add_fin_fin, hp]
  refine ⟨h1, ?_⟩
  simp only [logProb, h1, Rounding.mul, Rounding.sub, hrd]
  rfl

/-- As long as nothing overflows or underflows and the two ends are not too close for the precision, the computed normalisation constant is finite and
close to the logarithm of the integral of `x ^ alpha` over the support, for every slope, -1 included. -/
theorem C110_normalisation (hw : Wide f) (h : Nearest f fl) {alpha low high : ℝ} (ha : f.Mem alpha) (hl : 0 < low) (hlh : low < high)
    (hr : InRange f alpha low high) (hA : 64 * amplification alpha low high ≤ 2 ^ f.p) :
    ∃ r, logNorm fl alpha low high = fin r ∧
      |r - Real.log (∫ t in low..high, t ^ alpha)| ≤
        (11 * amplification alpha low high + |Real.log (∫ t in low..high, t ^ alpha)|) / 2 ^ f.p := by
  by_cases hne : alpha = -1
  · subst hne
    obtain ⟨r, e, -, b⟩ := norm_eq hw h hl hlh hr hA
    exact ⟨r, e, b⟩
  · obtain ⟨r, e, -, b⟩ := norm_ne hw h ha hne hl hlh hr hA
    exact ⟨r, e, b⟩

/-- Under the same conditions the log density is finite and accurate at every point of the support. -/
theorem C110_log_density (hw : Wide f) (h : Nearest f fl) {alpha low high x : ℝ} (ha : f.Mem alpha) (hl : 0 < low) (hlh : low < high)
    (hr : InRange f alpha low high) (hA : 64 * amplification alpha low high ≤ 2 ^ f.p) (hx1 : low ≤ x) (hx2 : x ≤ high)
    (hs : 3 * (|alpha| * (|Real.log x| + 1)) + 2 * |Real.log (∫ t in low..high, t ^ alpha)| + 2 ≤ (2 : ℝ) ^ f.emax) :
    ∃ r, logProb fl (fin x) alpha low high = fin r ∧
      |r - (alpha * Real.log x - Real.log (∫ t in low..high, t ^ alpha))| ≤
        (6 * (|alpha| * (|Real.log x| + 1)) + 3 * |Real.log (∫ t in low..high, t ^ alpha)| + 14 * amplification alpha low high) / 2 ^ f.p := by
  have hx : 0 < x := by linarith
  have hpp : (0 : ℝ) < 2 ^ f.p := by positivity
  obtain ⟨r, e1, m1, b1⟩ : ∃ r, logNorm fl alpha low high = fin r ∧ f.Mem r ∧
      |r - Real.log (mass alpha low high)| ≤ (11 * amplification alpha low high + |Real.log (mass alpha low high)|) / 2 ^ f.p := by
    by_cases hne : alpha = -1
    · subst hne; exact norm_eq hw h hl hlh hr hA
    · exact norm_ne hw h ha hne hl hlh hr hA
  change |r - Real.log (mass alpha low high)| ≤ _ at b1
  change 3 * (|alpha| * (|Real.log x| + 1)) + 2 * |Real.log (mass alpha low high)| + 2 ≤ _ at hs
  change ∃ r, _ ∧ |r - (alpha * Real.log x - Real.log (mass alpha low high))| ≤
    (6 * (|alpha| * (|Real.log x| + 1)) + 3 * |Real.log (mass alpha low high)| + 14 * amplification alpha low high) / 2 ^ f.p
  have hAp := one_le_amplification (alpha := alpha) hl hlh
  set A := amplification alpha low high
  set J := |Real.log (mass alpha low high)| with hJ
  set S := |alpha| * (|Real.log x| + 1) with hS
  have J0 : 0 ≤ J := abs_nonneg _
  have S0 : 0 ≤ S := by positivity
  have hlx : |Real.log x| ≤ (2 : ℝ) ^ f.emax := by
    have hlg := hr.logs
    have a1 := Real.log_le_log hl hx1
    have a2 := Real.log_le_log hx hx2
    have : |Real.log x| ≤ |Real.log high| + |Real.log low| := by
      rw [abs_le]
      constructor <;> linarith [neg_abs_le (Real.log low), le_abs_self (Real.log high), abs_nonneg (Real.log low), abs_nonneg (Real.log high)]
    linarith
  obtain ⟨m, e2, m2, b2, b3⟩ := slope_term hw h (α := alpha) hx hlx (by
    have : |alpha| * (2 * |Real.log x| + 1) ≤ 2 * S := by rw [hS]; linarith [abs_nonneg alpha]
    linarith)
  set u : ℝ := 1 / 2 ^ f.p with hu
  have u0 : 0 < u := by positivity
  have du : ∀ x : ℝ, x / 2 ^ f.p = x * u := fun x => by rw [hu]; ring
  have hAu : 64 * A * u ≤ 1 := by rw [← du, div_le_one hpp]; exact hA
  have u64 : u ≤ 1 / 64 := by nlinarith
  rw [du] at b1 b2 ⊢
  have hJu : J * u ≤ J * (1 / 64) := mul_le_mul_of_nonneg_left u64 J0
  have hr1 : |r| ≤ 2 * J + 1 := by
    have := abs_sub_abs_le_abs_sub r (Real.log (mass alpha low high))
    nlinarith
  have hmr : |m + -r| ≤ 3 * S + 1 + (2 * J + 1) := by
    have := abs_add_le m (-r)
    rw [abs_neg] at this
    linarith
  obtain ⟨y, e3, -, b4⟩ := Nearest.err_add hw.1 h m2 m1.neg (hmr.trans (by linarith))
  rw [du, ← sub_eq_add_neg] at b4
  refine ⟨y, ?_, ?_⟩
  · rw [logProb, e1, e2]; exact e3
  · have c1 := abs_sub_le y (m - r) (alpha * Real.log x - Real.log (mass alpha low high))
    have c2 : |m - r - (alpha * Real.log x - Real.log (mass alpha low high))| ≤ |m - alpha * Real.log x| + |r - Real.log (mass alpha low high)| := by
      rw [show m - r - (alpha * Real.log x - Real.log (mass alpha low high)) = (m - alpha * Real.log x) - (r - Real.log (mass alpha low high)) by ring]
      exact abs_sub _ _
    have c3 : |m - r| * u ≤ (3 * S + 1 + (2 * J + 1)) * u := mul_le_mul_of_nonneg_right (by rw [sub_eq_add_neg]; exact hmr) u0.le
    have c4 : 1 * u ≤ A * u := mul_le_mul_of_nonneg_right hAp u0.le
    linarith

/-- What the condition asks for: away from a slope of -1 only the exponent and the logarithm of the ratio of the ends matter. -/
theorem C110_amplification {alpha low high : ℝ} (hl : 0 < low) (hlh : low < high) (hne : alpha ≠ -1) :
    amplification alpha low high ≤
      (1 + |1 + alpha| * Max.max |Real.log high| |Real.log low|) * (1 + 2 / (|1 + alpha| * Real.log (high / low))) :=
  amplification_le hl hlh hne

/-- But a slope next to -1, as far from it as floats can be told apart there, makes both powers round to the same number: the log
normalisation is `-inf` and the log density `+inf` at every point, for all ends between 25 and 100. -/
theorem C110_flat_violated (hw : Wide f) (h : Nearest f fl) (hp : 7 ≤ f.p) {low high x : ℝ} (h1 : 25 ≤ low) (h2 : low < high) (h3 : high ≤ 100)
    (hx1 : low ≤ x) (hx2 : x ≤ high) :
    f.Mem (-1 + (2 : ℝ) ^ (-(f.p : ℤ))) ∧ logNorm fl (-1 + (2 : ℝ) ^ (-(f.p : ℤ))) low high = ninf ∧
    logProb fl (fin x) (-1 + (2 : ℝ) ^ (-(f.p : ℤ))) low high = pinf ∧
    ∃ v, PowerLaw.logProbFn (fin x) (-1 + (2 : ℝ) ^ (-(f.p : ℤ))) low high = fin v := by
  set u : ℝ := (2 : ℝ) ^ (-(f.p : ℤ)) with hu
  have u0 : 0 < u := by positivity
  have u1 : u ≤ 1 := by
    rw [show (1 : ℝ) = 2 ^ (0 : ℤ) by norm_num]
    exact zpow_le_zpow_right₀ (by norm_num) (by omega)
  have hw1 := hw.2.1
  have hw2 := hw.2.2
  have hx : 0 < x := by linarith
  have hm : f.Mem u := two_pow_mem hw.1 (by omega) (by omega)
  have hma : f.Mem (-1 + u) := by
    refine ⟨-(2 ^ f.p - 1), -(f.p : ℤ), ?_, by omega, by omega, ?_⟩
    · have : (1 : ℤ) ≤ 2 ^ f.p := one_le_pow₀ (by norm_num)
      rw [abs_neg, abs_of_nonneg (by linarith)]; linarith
    · have : (2 : ℝ) ^ f.p * u = 1 := by
        rw [hu, ← zpow_natCast, ← zpow_add₀ (by norm_num)]; simp
      push_cast
      linarith
  have hne : -1 + u ≠ -1 := by linarith [u0] |> fun (h : -1 < -1 + u) => h.ne'
  have hn : logNorm fl (-1 + u) low high = ninf := by
    refine same_powers hw.1 h hne u0.ne' (by rw [add_neg_cancel_left]; exact h.exact hm) (by linarith) (by linarith)
      (flat_power hw h hp (by linarith) h3) (flat_power hw h hp h1 (by linarith))
  refine ⟨hma, hn, ?_, ?_⟩
  · obtain ⟨l1, l2⟩ := log_hundred (h1.trans hx1) (hx2.trans h3)
    have h64 : (64 : ℝ) ≤ (2 : ℝ) ^ f.emax := by
      rw [show (64 : ℝ) = 2 ^ (6 : ℤ) by norm_num]
      exact zpow_le_zpow_right₀ (by norm_num) (by omega)
    have hlx : |Real.log x| ≤ 5 := by rw [abs_of_pos (by linarith)]; linarith
    have hal : |-1 + u| ≤ 1 := by rw [abs_le]; constructor <;> linarith
    obtain ⟨m, e, -⟩ := slope_term hw h (α := -1 + u) hx (by linarith) (by
      have := mul_le_mul hal (by linarith : 2 * |Real.log x| + 1 ≤ 11) (by positivity) zero_le_one
      linarith)
    rw [logProb, hn, e]; rfl
  · rw [PowerLaw.logProbFn, PowerLaw.logProbX]
    have := PowerLaw.logNorm_eq (α := -1 + u) (by linarith : 0 < low) h2
    rw [PowerLaw.logNorm] at this
    rw [this, log_fin_pos hx]
    exact ⟨_, rfl⟩

/-- A slope so steep that the powers of both ends underflow does the same. -/
theorem C110_steep_violated (hw : Wide f) (h : Nearest f fl) {alpha low high x : ℝ} (hm : f.Mem (1 + alpha)) (hs : alpha < -1)
    (hl : 0 < low) (hlh : low < high) (hu : low ^ (1 + alpha) < (2 : ℝ) ^ (f.emin - 1)) (hx : 0 < x)
    (h1 : |Real.log x| ≤ (2 : ℝ) ^ f.emax) (h2 : |alpha| * (2 * |Real.log x| + 1) ≤ (2 : ℝ) ^ f.emax) :
    logNorm fl alpha low high = ninf ∧ logProb fl (fin x) alpha low high = pinf := by
  have hh := hl.trans hlh
  have hlt : high ^ (1 + alpha) ≤ low ^ (1 + alpha) := Real.rpow_le_rpow_of_nonpos hl hlh.le (by linarith)
  have hn : logNorm fl alpha low high = ninf :=
    same_powers hw.1 h (by linarith : alpha < -1).ne (by linarith : 1 + alpha < 0).ne (h.exact hm) hl hh
      (Nearest.tiny hw.1 h (by positivity) (lt_of_le_of_lt hlt hu)) (Nearest.tiny hw.1 h (by positivity) hu)
  refine ⟨hn, ?_⟩
  obtain ⟨m, e, -⟩ := slope_term hw h hx h1 h2
  rw [logProb, hn, e]; rfl

/-- A slope so large that the power of the upper end overflows makes the density vanish at every point. -/
theorem C110_overflow_violated (hw : Wide f) (h : Nearest f fl) {alpha low high x : ℝ} (hm : f.Mem (1 + alpha)) (hs : -1 < alpha)
    (hl : 0 < low) (hlh : low < high) (ho : f.limit ≤ high ^ (1 + alpha)) (hu : low ^ (1 + alpha) < f.limit) (hx : 0 < x)
    (h1 : |Real.log x| ≤ (2 : ℝ) ^ f.emax) (h2 : |alpha| * (2 * |Real.log x| + 1) ≤ (2 : ℝ) ^ f.emax) :
    logNorm fl alpha low high = pinf ∧ logProb fl (fin x) alpha low high = ninf := by
  have hh := hl.trans hlh
  have hβ : 0 < 1 + alpha := by linarith
  obtain ⟨h8, hmz⟩ := mask_ne hs.ne'
  obtain ⟨y, e2, -, -⟩ := h.inside (low ^ (1 + alpha)) (by rw [abs_of_pos (by positivity)]; exact hu)
  have hn : logNorm fl alpha low high = pinf := by
    have eb : add fl (fin 1) (fin (PowerLaw.safeAlpha alpha)) = fin (1 + alpha) := by rw [hmz]; exact h.exact hm
    have e1' : power fl (fin high) (fin (1 + alpha)) = pinf := by
      show rd fl (XR.pow (fin high) (1 + alpha)) = _; rw [pow_fin_pos hh]; exact h.above _ ho
    have e2' : power fl (fin low) (fin (1 + alpha)) = fin y := by
      show rd fl (XR.pow (fin low) (1 + alpha)) = _; rw [pow_fin_pos hl]; exact e2
    have e3 : sub fl pinf (fin y) = pinf := rfl
    have e4 : div fl pinf (fin (1 + alpha)) = pinf := by
      show rd fl (pinf / fin (1 + alpha)) = _
      rw [pinf_div_pos hβ]; rfl
    simp only [logNorm, h8, select_true, eb, e1', e2', e3, e4, log_pinf, rd]
  refine ⟨hn, ?_⟩
  obtain ⟨m, e, -⟩ := slope_term hw h hx h1 h2
  rw [logProb, hn, e]; rfl

/-! ## The hypotheses are met -/

theorem mass_inverse_square : mass (-2) 5 100 = 19 / 100 := by
  have := PowerLaw.J_closed (α := -2) (l := 5) (x := 100) (by norm_num) (by norm_num) (by norm_num)
  rw [mass_eq_J, this, show (1 + -2 : ℝ) = -1 by norm_num, Real.rpow_neg_one, Real.rpow_neg_one]
  norm_num

theorem logs_small {b : ℝ} (h1 : 1 / 100 ≤ b) (h2 : b ≤ 100) : |Real.log b| ≤ 5 := by
  have := (log_hundred (b := 100) (by norm_num) le_rfl).2
  have a1 := Real.log_le_log (by linarith) h2
  have a2 := Real.log_le_log (by norm_num) h1
  rw [one_div, Real.log_inv] at a2
  rw [abs_le]; constructor <;> linarith

theorem range_inverse_square : InRange single (-2) 5 100 := by
  have e : (1 + -2 : ℝ) = -1 := by norm_num
  have w1 : (2 : ℝ) ^ (single.emin + single.p) ≤ 1 / 128 := by
    rw [show (1 / 128 : ℝ) = 2 ^ (-7 : ℤ) by norm_num]; exact zpow_le_zpow_right₀ (by norm_num) (by decide)
  have w2 : (128 : ℝ) ≤ (2 : ℝ) ^ (single.emax - 1) := by
    rw [show (128 : ℝ) = 2 ^ (7 : ℤ) by norm_num]; exact zpow_le_zpow_right₀ (by norm_num) (by decide)
  have w3 : (128 : ℝ) ≤ (2 : ℝ) ^ single.emax := by
    rw [show (128 : ℝ) = 2 ^ (7 : ℤ) by norm_num]; exact zpow_le_zpow_right₀ (by norm_num) (by decide)
  refine ⟨?_, fun _ b hb => ?_, ?_, ?_, ?_, ?_⟩
  · rw [e, abs_neg, abs_one]; linarith
  · rw [e]
    rcases hb with rfl | rfl <;> rw [Real.rpow_neg_one] <;> constructor <;> linarith
  · rw [mass_inverse_square]; linarith
  · rw [mass_inverse_square]; linarith
  · linarith [logs_small (b := 100) (by norm_num) le_rfl, logs_small (b := 5) (by norm_num) (by norm_num)]
  · rw [mass_inverse_square]; linarith [logs_small (b := 19 / 100) (by norm_num) (by norm_num)]

theorem amplification_inverse_square : 64 * amplification (-2) 5 100 ≤ 2 ^ single.p := by
  have h1 := logs_small (b := 100) (by norm_num) le_rfl
  have h2 := logs_small (b := 5) (by norm_num) (by norm_num)
  have h3 : Max.max |Real.log 100| |Real.log 5| ≤ 5 := max_le h1 h2
  have e : amplification (-2) 5 100 = (1 + Max.max |Real.log 100| |Real.log 5|) * (21 / 19) := by
    rw [amplification, if_neg (by norm_num), show (1 + -2 : ℝ) = -1 by norm_num, Real.rpow_neg_one, Real.rpow_neg_one, abs_neg, abs_one]
    norm_num [abs_of_neg]
  rw [e, show single.p = 24 from rfl]
  norm_num only
  linarith

/-- An inverse square law between 5 and 100 in single precision meets the hypotheses of `C110_normalisation`. -/
example (fl : ℝ → XR) (h : Nearest single fl) : ∃ r, logNorm fl (-2) 5 100 = fin r ∧ |r - Real.log (19 / 100)| ≤ 1 / 50000 := by
  have hA := amplification_inverse_square
  obtain ⟨r, e, b⟩ := C110_normalisation wide_single h (alpha := -2) (by simpa using mem_single (-2) 0 (by norm_num) (by norm_num) (by norm_num))
    (by norm_num) (by norm_num) range_inverse_square hA
  refine ⟨r, e, ?_⟩
  change |r - Real.log (mass (-2) 5 100)| ≤ (11 * _ + |Real.log (mass (-2) 5 100)|) / 2 ^ single.p at b
  rw [mass_inverse_square] at b
  refine b.trans ?_
  have h1 := logs_small (b := 19 / 100) (by norm_num) (by norm_num)
  have h2 := logs_small (b := 100) (by norm_num) le_rfl
  have h3 := logs_small (b := 5) (by norm_num) (by norm_num)
  have h4 := amplification_le (alpha := -2) (low := 5) (high := 100) (by norm_num) (by norm_num) (by norm_num)
  have h5 : Real.log (100 / 5) ≥ 1 := by
    rw [ge_iff_le, Real.le_log_iff_exp_le (by norm_num)]
    have := Real.exp_one_lt_d9
    norm_num at this ⊢; linarith
  have h6 : |(1 + -2 : ℝ)| = 1 := by norm_num
  rw [h6, one_mul, one_mul] at h4
  have h7 : 2 / Real.log (100 / 5) ≤ 2 := by rw [div_le_iff₀ (by linarith)]; linarith
  have h8 : Max.max |Real.log 100| |Real.log 5| ≤ 5 := max_le h2 h3
  have h9 : amplification (-2) 5 100 ≤ 6 * 3 :=
    h4.trans (mul_le_mul (by linarith) (by linarith) (by positivity) (by norm_num))
  rw [show single.p = 24 from rfl, div_le_iff₀ (by positivity)]
  norm_num at h9 h1 ⊢
  linarith

/-- Also those of `C110_log_density`, at 30. -/
example (fl : ℝ → XR) (h : Nearest single fl) : ∃ r, logProb fl (fin 30) (-2) 5 100 = fin r := by
  obtain ⟨r, e, -⟩ := C110_log_density wide_single h (alpha := -2) (low := 5) (high := 100) (x := 30)
    (by simpa using mem_single (-2) 0 (by norm_num) (by norm_num) (by norm_num)) (by norm_num) (by norm_num) range_inverse_square
    amplification_inverse_square (by norm_num) (by norm_num) (by
      change 3 * (|(-2 : ℝ)| * (|Real.log 30| + 1)) + 2 * |Real.log (mass (-2) 5 100)| + 2 ≤ _
      rw [mass_inverse_square]
      have h1 := logs_small (b := 19 / 100) (by norm_num) (by norm_num)
      have h2 := logs_small (b := 30) (by norm_num) (by norm_num)
      have w3 : (128 : ℝ) ≤ (2 : ℝ) ^ single.emax := by
        rw [show (128 : ℝ) = 2 ^ (7 : ℤ) by norm_num]; exact zpow_le_zpow_right₀ (by norm_num) (by decide)
      rw [show |(-2 : ℝ)| = 2 by norm_num]
      linarith)
  exact ⟨r, e⟩

/-- The slope of `C110_flat_violated` in single precision is -0.99999994. -/
example (fl : ℝ → XR) (h : Nearest single fl) :
    single.Mem (-1 + 1 / 16777216) ∧ logProb fl (fin 40) (-1 + 1 / 16777216) 30 80 = pinf := by
  obtain ⟨h1, -, h3, -⟩ := C110_flat_violated wide_single h (by decide) (low := 30) (high := 80) (x := 40) (by norm_num) (by norm_num) (by norm_num)
    (by norm_num) (by norm_num)
  rw [show ((2 : ℝ) ^ (-(single.p : ℤ))) = 1 / 16777216 by rw [show (single.p : ℤ) = 24 from rfl]; norm_num] at h1 h3
  exact ⟨h1, h3⟩

/-- A slope of -70 above 5 underflows in single precision. -/
example (fl : ℝ → XR) (h : Nearest single fl) : logProb fl (fin 40) (-70) 5 100 = pinf := by
  have w3 : (2048 : ℝ) ≤ (2 : ℝ) ^ single.emax := by
    rw [show (2048 : ℝ) = 2 ^ (11 : ℤ) by norm_num]; exact zpow_le_zpow_right₀ (by norm_num) (by decide)
  have h2 := logs_small (b := 40) (by norm_num) (by norm_num)
  refine (C110_steep_violated wide_single h (alpha := -70) (low := 5) (high := 100) (x := 40) ?_ (by norm_num) (by norm_num) (by norm_num) ?_
    (by norm_num) (by linarith) (by rw [show |(-70 : ℝ)| = 70 by norm_num]; linarith)).2
  · have := mem_single (-69) 0 (by norm_num) (by norm_num) (by norm_num)
    norm_num at this ⊢; exact this
  · rw [show (1 + -70 : ℝ) = ((-69 : ℤ) : ℝ) by norm_num, Real.rpow_intCast, show single.emin - 1 = -150 from rfl]
    norm_num

/-- A slope of 20 up to 100 overflows in single precision. -/
example (fl : ℝ → XR) (h : Nearest single fl) : logProb fl (fin 40) 20 5 100 = ninf := by
  have w3 : (2048 : ℝ) ≤ (2 : ℝ) ^ single.emax := by
    rw [show (2048 : ℝ) = 2 ^ (11 : ℤ) by norm_num]; exact zpow_le_zpow_right₀ (by norm_num) (by decide)
  have h2 := logs_small (b := 40) (by norm_num) (by norm_num)
  have el : single.limit = (2 ^ 24 - 1 / 2) * 2 ^ (104 : ℤ) := rfl
  refine (C110_overflow_violated wide_single h (alpha := 20) (low := 5) (high := 100) (x := 40) ?_ (by norm_num) (by norm_num) (by norm_num) ?_ ?_
    (by norm_num) (by linarith) (by rw [show |(20 : ℝ)| = 20 by norm_num]; linarith)).2
  · have := mem_single 21 0 (by norm_num) (by norm_num) (by norm_num)
    norm_num at this ⊢; exact this
  · rw [show (1 + 20 : ℝ) = ((21 : ℤ) : ℝ) by norm_num, Real.rpow_intCast, el]; norm_num
  · rw [show (1 + 20 : ℝ) = ((21 : ℤ) : ℝ) by norm_num, Real.rpow_intCast, el]; norm_num

end GW.RoundedPowerLaw
