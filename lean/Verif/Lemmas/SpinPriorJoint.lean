import Verif.Lemmas.Dilog
import Mathlib.Analysis.SpecialFunctions.Integrals.Basic
import Mathlib.Analysis.SpecialFunctions.Trigonometric.ArctanDeriv
import Mathlib.Analysis.SpecialFunctions.Log.NegMulLog

/-!
# The antiderivative behind the joint prior of the effective and the precessing spin
-/

namespace GW.SpinPriorJoint
open GW MeasureTheory Set Filter Topology

noncomputable section

theorem slit_of {z : ℂ} (h : ∀ r : ℝ, r ≤ 0 → z ≠ r) : z ∈ Complex.slitPlane := by
  by_contra hz
  rw [Complex.mem_slitPlane_iff, not_or, not_lt, not_not] at hz
  exact h z.re hz.1 (Complex.ext (by simp) (by simp [hz.2]))

theorem log_div_of {p r : ℂ} (hp : p ≠ 0) (hr : r ≠ 0) (h1 : -Real.pi < p.arg - r.arg) (h2 : p.arg - r.arg ≤ Real.pi) :
    Complex.log (p / r) = Complex.log p - Complex.log r := by
  rw [← Complex.log_exp (x := Complex.log p - Complex.log r) (by simpa [Complex.log_im] using h1) (by simpa [Complex.log_im] using h2),
    Complex.exp_sub, Complex.exp_log hp, Complex.exp_log hr]

theorem log_div_upper {p r : ℂ} (hp : 0 < p.im) (hr : 0 < r.im) : Complex.log (p / r) = Complex.log p - Complex.log r := by
  have hp0 : p ≠ 0 := by rintro rfl; simp at hp
  have hr0 : r ≠ 0 := by rintro rfl; simp at hr
  have h1 := Complex.arg_nonneg_iff.2 hp.le
  have h2 := Complex.arg_nonneg_iff.2 hr.le
  have h3 := Complex.arg_le_pi p
  have h4 := Complex.arg_le_pi r
  have h5 : r.arg ≠ Real.pi := fun h => by have := (Complex.arg_eq_pi_iff.1 h).2; linarith
  have h6 : r.arg < Real.pi := lt_of_le_of_ne h4 h5
  exact log_div_of hp0 hr0 (by linarith) (by linarith)

theorem log_div_lower {p r : ℂ} (hp : p.im < 0) (hr : r.im ≤ 0) (hr0 : r ≠ 0) (hra : r.im = 0 → 0 < r.re) :
    Complex.log (p / r) = Complex.log p - Complex.log r := by
  have hp0 : p ≠ 0 := by rintro rfl; simp at hp
  have h1 := Complex.arg_neg_iff.2 hp
  have h3 := Complex.neg_pi_lt_arg p
  have h4 := Complex.neg_pi_lt_arg r
  have h5 : r.arg ≤ 0 := by
    rcases hr.lt_or_eq with h | h
    · exact (Complex.arg_neg_iff.2 h).le
    · exact (Complex.arg_eq_zero_iff.2 ⟨(hra h).le, h⟩).le
  exact log_div_of hp0 hr0 (by linarith) (by linarith)

/-- The denominator `alpha + 1j - beta * 1j`. -/
def den (alpha beta : ℝ) : ℂ := alpha + Complex.I - beta * Complex.I

@[simp] theorem den_re (a b : ℝ) : (den a b).re = a := by simp [den]
@[simp] theorem den_im (a b : ℝ) : (den a b).im = 1 - b := by simp [den]

/-- In the selected branch nothing is singular, so `np.nan_to_num` has nothing to replace. -/
theorem g_regular {x alpha beta : ℝ} (h : ¬ (x = 0 ∧ beta = 0)) :
    (|beta| < 1 → den alpha beta ≠ 0 ∧ (x - beta * Complex.I : ℂ) ≠ 0 ∧ (alpha - x + Complex.I : ℂ) ≠ 0) ∧
    (¬ |beta| < 1 → (beta = 1 ∧ alpha ≤ 0) → (x - alpha - Complex.I : ℂ) ≠ 0) ∧
    (¬ |beta| < 1 → ¬ (beta = 1 ∧ alpha ≤ 0) → den alpha beta ≠ 0 ∧ (alpha - x + Complex.I : ℂ) ≠ 0) := by
  have h1 : (alpha - x + Complex.I : ℂ) ≠ 0 := fun h => by have := congrArg Complex.im h; simp at this
  refine ⟨fun hb => ⟨fun hd => ?_, fun hx => ?_, h1⟩, fun _ _ hx => ?_, fun _ hn => ⟨fun hd => ?_, h1⟩⟩
  · have := congrArg Complex.im hd
    rw [den_im, Complex.zero_im] at this
    have := (abs_lt.1 hb).2
    linarith
  · have hr := congrArg Complex.re hx
    have hi := congrArg Complex.im hx
    simp at hr hi
    exact h ⟨hr, hi⟩
  · have := congrArg Complex.im hx
    simp at this
  · have hr := congrArg Complex.re hd
    have hi := congrArg Complex.im hd
    rw [den_re, Complex.zero_re] at hr
    rw [den_im, Complex.zero_im] at hi
    exact hn ⟨by linarith, hr.le⟩

/-! ### The three branches -/

/-- The first branch of `g`. -/
def gA (alpha beta x : ℝ) : ℂ :=
  Complex.log (x - beta * Complex.I) * Complex.log ((alpha - x + Complex.I) / den alpha beta) + li2C ((x - beta * Complex.I) / den alpha beta)

/-- The second branch of `g`. -/
def gB (alpha x : ℝ) : ℂ := 0.5 * Complex.log (x - alpha - Complex.I) ^ 2 + li2C (-alpha / (x - alpha - Complex.I))

/-- The third branch of `g`. -/
def gC (alpha beta x : ℝ) : ℂ :=
  Complex.log (den alpha beta) * Complex.log (alpha - x + Complex.I) - li2C ((alpha - x + Complex.I) / den alpha beta)

theorem hasDerivAt_real (t : ℝ) : HasDerivAt (fun x : ℝ => (x : ℂ)) 1 t := by
  simpa using (hasDerivAt_id t).ofReal_comp

theorem slit_ratio {alpha beta : ℝ} (hb : beta < 1) (t : ℝ) : (alpha - t + Complex.I) / den alpha beta ∈ Complex.slitPlane := by
  have hd : den alpha beta ≠ 0 := fun h => by have := congrArg Complex.im h; simp at this; linarith
  refine slit_of fun r hr h => ?_
  rw [div_eq_iff hd] at h
  have := congrArg Complex.im h
  simp at this
  nlinarith

theorem one_sub_ratio {alpha beta : ℝ} (hd : den alpha beta ≠ 0) (t : ℝ) :
    1 - (t - beta * Complex.I) / den alpha beta = (alpha - t + Complex.I) / den alpha beta := by
  rw [eq_div_iff hd, sub_mul, div_mul_cancel₀ _ hd, one_mul, den]
  ring

theorem gA_deriv {alpha beta t : ℝ} (hb : beta < 1) (ht : 0 < t ∨ beta ≠ 0) :
    HasDerivAt (gA alpha beta) (Complex.log (t - beta * Complex.I) / (t - alpha - Complex.I)) t := by
  have hd : den alpha beta ≠ 0 := fun h => by have := congrArg Complex.im h; simp at this; linarith
  have hs : (t - beta * Complex.I : ℂ) ∈ Complex.slitPlane := by
    rw [Complex.mem_slitPlane_iff]
    simpa using ht
  have hs0 := Complex.slitPlane_ne_zero hs
  have hr := slit_ratio (alpha := alpha) hb t
  have h1 : HasDerivAt (fun x : ℝ => (x - beta * Complex.I : ℂ)) 1 t := (hasDerivAt_real t).sub_const _
  have h2 : HasDerivAt (fun x : ℝ => ((alpha - x + Complex.I) / den alpha beta : ℂ)) (-1 / den alpha beta) t := by
    have := (((hasDerivAt_real t).const_sub (alpha : ℂ)).add_const Complex.I).div_const (den alpha beta)
    simpa using this
  have h3 : HasDerivAt (fun x : ℝ => ((x - beta * Complex.I) / den alpha beta : ℂ)) (1 / den alpha beta) t := h1.div_const _
  have hv : (t - beta * Complex.I) / den alpha beta ≠ 0 := div_ne_zero hs0 hd
  have h4 := (hasDerivAt_li2C (by rw [one_sub_ratio hd]; exact hr) hv).comp t h3
  have h5 := ((h1.clog_real hs).mul (h2.clog_real hr)).add h4
  refine h5.congr_deriv ?_
  rw [one_sub_ratio hd]
  have hn : (alpha - t + Complex.I : ℂ) ≠ 0 := fun h => by have := congrArg Complex.im h; simp at this
  have hn' : (t - alpha - Complex.I : ℂ) ≠ 0 := fun h => by have := congrArg Complex.im h; simp at this
  generalize Complex.log ((alpha - t + Complex.I) / den alpha beta) = L
  generalize Complex.log (t - beta * Complex.I) = M
  generalize hD : den alpha beta = D at *
  have e : (alpha - t + Complex.I : ℂ) = -(t - alpha - Complex.I) := by ring
  rw [e] at hn ⊢
  generalize (t - alpha - Complex.I : ℂ) = N at *
  generalize (t - beta * Complex.I : ℂ) = S at *
  field_simp
  ring

theorem gB_deriv {alpha t : ℝ} :
    HasDerivAt (gB alpha) (Complex.log (t - Complex.I) / (t - alpha - Complex.I)) t := by
  have hs : (t - alpha - Complex.I : ℂ) ∈ Complex.slitPlane := by
    rw [Complex.mem_slitPlane_iff]; simp
  have hs0 := Complex.slitPlane_ne_zero hs
  have h1 : HasDerivAt (fun x : ℝ => (x - alpha - Complex.I : ℂ)) 1 t := ((hasDerivAt_real t).sub_const _).sub_const _
  have e : (1 : ℂ) - -alpha / (t - alpha - Complex.I) = (t - Complex.I) / (t - alpha - Complex.I) := by
    field_simp
    ring
  have hr : (1 : ℂ) - -alpha / (t - alpha - Complex.I) ∈ Complex.slitPlane := by
    rw [e]
    refine slit_of fun r hr h => ?_
    rw [div_eq_iff hs0] at h
    have := congrArg Complex.im h
    simp at this
    linarith
  have hl : Complex.log ((t - Complex.I) / (t - alpha - Complex.I)) = Complex.log (t - Complex.I) - Complex.log (t - alpha - Complex.I) :=
    log_div_lower (by simp) (by simp) hs0 (by simp)
  have h2 : HasDerivAt (fun x : ℝ => (-alpha / (x - alpha - Complex.I) : ℂ)) (alpha / (t - alpha - Complex.I) ^ 2) t := by
    have := (h1.inv hs0).const_mul (-alpha : ℂ)
    refine (this.congr_deriv ?_).congr_of_eventuallyEq (Eventually.of_forall fun x => by simp [div_eq_mul_inv])
    field_simp
  have h3 := ((h1.clog_real hs).pow 2).const_mul (0.5 : ℂ)
  by_cases ha : alpha = 0
  · subst ha
    have : gB 0 = fun x : ℝ => (0.5 : ℂ) * Complex.log (x - (0 : ℝ) - Complex.I) ^ 2 := by
      funext x
      simp [gB, li2C_zero]
    rw [this]
    refine h3.congr_deriv ?_
    simp
    ring
  · have hv : (-alpha / (t - alpha - Complex.I) : ℂ) ≠ 0 := div_ne_zero (by simpa using ha) hs0
    have h4 := (hasDerivAt_li2C hr hv).comp t h2
    refine (h3.add h4).congr_deriv ?_
    rw [e, hl]
    have ha' : (alpha : ℂ) ≠ 0 := by exact_mod_cast ha
    generalize Complex.log (t - Complex.I) = L
    generalize Complex.log (t - alpha - Complex.I) = M
    generalize (t - alpha - Complex.I : ℂ) = N at *
    field_simp
    ring

theorem gC_deriv {alpha beta t : ℝ} (hb : 1 ≤ |beta|) (hn : ¬ (beta = 1 ∧ alpha ≤ 0)) :
    HasDerivAt (gC alpha beta) (Complex.log (t - beta * Complex.I) / (t - alpha - Complex.I)) t := by
  have hd : den alpha beta ≠ 0 := ((g_regular (x := 1) (by simp)).2.2 (not_lt.2 hb) hn).1
  have hN : (alpha - t + Complex.I : ℂ) ≠ 0 := fun h => by have := congrArg Complex.im h; simp at this
  have hs : (alpha - t + Complex.I : ℂ) ∈ Complex.slitPlane := by
    rw [Complex.mem_slitPlane_iff]; simp
  have e : (1 : ℂ) - (alpha - t + Complex.I) / den alpha beta = (t - beta * Complex.I) / den alpha beta := by
    rw [eq_div_iff hd, sub_mul, div_mul_cancel₀ _ hd, one_mul, den]
    ring
  have hb' : 1 ≤ beta ∨ beta ≤ -1 := by
    rcases le_abs.1 hb with h | h
    · exact .inl h
    · exact .inr (by linarith)
  have hr : (1 : ℂ) - (alpha - t + Complex.I) / den alpha beta ∈ Complex.slitPlane := by
    rw [e]
    refine slit_of fun r hr h => ?_
    rw [div_eq_iff hd] at h
    have := congrArg Complex.im h
    simp at this
    rcases hb' with h' | h'
    · nlinarith
    · nlinarith
  have hl : Complex.log ((t - beta * Complex.I) / den alpha beta) = Complex.log (t - beta * Complex.I) - Complex.log (den alpha beta) := by
    rcases hb' with h | h
    · refine log_div_lower (by simp; linarith) (by simp; linarith) hd fun h0 => ?_
      rw [den_im] at h0
      rw [den_re]
      have hb1 : beta = 1 := by linarith
      by_contra hc
      exact hn ⟨hb1, not_lt.1 hc⟩
    · exact log_div_upper (by simp; linarith) (by simp; linarith)
  have h1 : HasDerivAt (fun x : ℝ => (alpha - x + Complex.I : ℂ)) (-1) t := by
    simpa using ((hasDerivAt_real t).const_sub (alpha : ℂ)).add_const Complex.I
  have h2 := h1.div_const (den alpha beta)
  have h3 := (h1.clog_real hs).const_mul (Complex.log (den alpha beta))
  have h4 := (hasDerivAt_li2C hr (div_ne_zero hN hd)).comp t h2
  refine (h3.sub h4).congr_deriv ?_
  rw [e, hl]
  generalize Complex.log (t - beta * Complex.I) = L
  generalize Complex.log (den alpha beta) = M
  generalize den alpha beta = D at *
  have e' : (alpha - t + Complex.I : ℂ) = -(t - alpha - Complex.I) := by ring
  rw [e'] at hN ⊢
  generalize (t - alpha - Complex.I : ℂ) = N at *
  field_simp
  ring

theorem g_eq (x alpha beta : ℝ) : g x alpha beta
    = if x = 0 ∧ beta = 0 then 0 else if |beta| < 1 then gA alpha beta x else if beta = 1 ∧ alpha ≤ 0 then gB alpha x else gC alpha beta x := by
  unfold g gA gB gC den
  by_cases h : x = 0 ∧ beta = 0
  · simp only [if_pos h]
  · simp only [if_neg h]

/-- The derivative of `g`. -/
theorem g_deriv {alpha beta t : ℝ} (ht : 0 < t ∨ beta ≠ 0) :
    HasDerivAt (fun x => g x alpha beta) (Complex.log (t - beta * Complex.I) / (t - alpha - Complex.I)) t := by
  have hev : ∀ᶠ x in 𝓝 t, ¬ (x = 0 ∧ beta = 0) := by
    rcases ht with h | h
    · filter_upwards [lt_mem_nhds h] with x hx h0
      exact hx.ne' h0.1
    · exact Eventually.of_forall fun x h0 => h h0.2
  have hg : (fun x => g x alpha beta) =ᶠ[𝓝 t] fun x => if |beta| < 1 then gA alpha beta x else if beta = 1 ∧ alpha ≤ 0 then gB alpha x else gC alpha beta x := by
    filter_upwards [hev] with x hx
    rw [g_eq, if_neg hx]
  refine HasDerivAt.congr_of_eventuallyEq ?_ hg
  by_cases h1 : |beta| < 1
  · simp only [if_pos h1]
    exact gA_deriv (abs_lt.1 h1).2 ht
  · simp only [if_neg h1]
    by_cases h2 : beta = 1 ∧ alpha ≤ 0
    · simp only [if_pos h2]
      rw [h2.1]
      simpa using gB_deriv (alpha := alpha) (t := t)
    · simp only [if_neg h2]
      exact gC_deriv (not_lt.1 h1) h2

/-- At the origin with `beta = 0` the replaced value `0` is the limit. -/
theorem g_continuous_zero (alpha : ℝ) : ContinuousWithinAt (fun x => g x alpha 0) (Ici 0) 0 := by
  have hd : den alpha 0 ≠ 0 := fun h => by have := congrArg Complex.im h; simp at this
  let L : ℝ → ℂ := fun x => Complex.log ((alpha - x + Complex.I) / den alpha 0)
  have hL : DifferentiableAt ℝ L 0 := by
    have h2 : HasDerivAt (fun x : ℝ => ((alpha - x + Complex.I) / den alpha 0 : ℂ)) (-1 / den alpha 0) 0 := by
      have := (((hasDerivAt_real 0).const_sub (alpha : ℂ)).add_const Complex.I).div_const (den alpha 0)
      simpa using this
    exact (h2.clog_real (slit_ratio (alpha := alpha) (beta := 0) one_pos 0)).differentiableAt
  have hL0 : L 0 = 0 := by
    have : (alpha - (0 : ℝ) + Complex.I : ℂ) = den alpha 0 := by simp [den]
    simp only [L, this, div_self hd, Complex.log_one]
  have hc : ContinuousAt (dslope L 0) 0 := continuousAt_dslope_same.2 hL
  have hli : ContinuousAt (fun x : ℝ => li2C (x / den alpha 0)) 0 := by
    have h0 : HasDerivAt li2C _ (((0 : ℝ) : ℂ) / den alpha 0) := hasDerivAt_li2C' (by simp)
    exact ContinuousAt.comp (f := fun x : ℝ => (x / den alpha 0 : ℂ)) h0.continuousAt (by fun_prop)
  have hm : ContinuousAt (fun x : ℝ => ((x * Real.log x : ℝ) : ℂ) * dslope L 0 x + li2C (x / den alpha 0)) 0 := by
    refine ContinuousAt.add (ContinuousAt.mul ?_ hc) hli
    exact (Complex.continuous_ofReal.comp Real.continuous_mul_log).continuousAt
  have he : ∀ x ∈ Ici (0 : ℝ), g x alpha 0 = ((x * Real.log x : ℝ) : ℂ) * dslope L 0 x + li2C (x / den alpha 0) := by
    intro x hx
    rw [g_eq]
    by_cases h0 : x = 0
    · subst h0
      simp [li2C_zero]
    · rw [if_neg (by simp [h0]), if_pos (by simp), gA, dslope_of_ne _ h0, slope_def_module, hL0]
      simp only [Complex.ofReal_zero, zero_mul, sub_zero, Complex.real_smul, L, Complex.ofReal_inv, Complex.ofReal_mul]
      rw [Complex.ofReal_log hx]
      have : (x : ℂ) ≠ 0 := by exact_mod_cast h0
      field_simp
  exact hm.continuousWithinAt.congr he (he 0 (mem_Ici.2 le_rfl))

theorem g_continuousOn (alpha beta x : ℝ) : ContinuousOn (fun t => g t alpha beta) (Icc 0 x) := by
  intro t ht
  by_cases h : 0 < t ∨ beta ≠ 0
  · exact (g_deriv h).continuousAt.continuousWithinAt
  · push Not at h
    obtain ⟨h1, rfl⟩ := h
    obtain rfl : t = 0 := le_antisymm h1 ht.1
    exact (g_continuous_zero alpha).mono fun s hs => hs.1

theorem log_pair {t beta : ℝ} (ht : 0 < t) :
    Complex.log (t - beta * Complex.I) + Complex.log (t - (-beta : ℝ) * Complex.I) = (Real.log (t ^ 2 + beta ^ 2) : ℝ) := by
  have hc : (t - (-beta : ℝ) * Complex.I : ℂ) = (starRingEnd ℂ) (t - beta * Complex.I) := by
    apply Complex.ext <;> simp
  have ha : (t - beta * Complex.I : ℂ).arg ≠ Real.pi := by
    intro h
    have := (Complex.arg_eq_pi_iff.1 h).1
    simp at this
    linarith
  rw [hc, Complex.log_conj _ ha, Complex.add_conj, Complex.log_re]
  have hn : ‖(t - beta * Complex.I : ℂ)‖ = Real.sqrt (t ^ 2 + beta ^ 2) := by
    rw [Complex.norm_def, Complex.normSq_apply]
    simp [pow_two]
  rw [hn, Real.log_sqrt (by positivity)]
  push_cast
  ring

theorem integrable_log_sq_add (beta a b : ℝ) : IntervalIntegrable (fun t : ℝ => Real.log (t ^ 2 + beta ^ 2)) volume a b := by
  by_cases h : beta = 0
  · subst h
    have : (fun t : ℝ => Real.log (t ^ 2 + 0 ^ 2)) = fun t => 2 * Real.log t := by
      funext t
      simp [Real.log_pow]
    rw [this]
    exact intervalIntegral.intervalIntegrable_log'.const_mul 2
  · refine Continuous.intervalIntegrable ?_ a b
    refine Continuous.log (by fun_prop) fun t => ?_
    positivity

theorem integrable_G (alpha beta a b : ℝ) :
    IntervalIntegrable (fun t : ℝ => Real.log (t ^ 2 + beta ^ 2) / ((t - alpha) ^ 2 + 1)) volume a b := by
  have hc : Continuous fun t : ℝ => ((t - alpha) ^ 2 + 1)⁻¹ := Continuous.inv₀ (by fun_prop) fun t => by positivity
  simpa [div_eq_mul_inv] using (integrable_log_sq_add beta a b).mul_continuousOn hc.continuousOn

theorem G_nonneg {x : ℝ} (hx : 0 ≤ x) (alpha beta : ℝ) :
    G x alpha beta = ∫ t in (0 : ℝ)..x, Real.log (t ^ 2 + beta ^ 2) / ((t - alpha) ^ 2 + 1) := by
  have key := intervalIntegral.integral_eq_sub_of_hasDerivAt_of_le (a := (0 : ℝ)) (b := x)
    (f := fun t => (g t alpha beta + g t alpha (-beta)).im)
    (f' := fun t => Real.log (t ^ 2 + beta ^ 2) / ((t - alpha) ^ 2 + 1)) hx
    (Complex.continuous_im.comp_continuousOn ((g_continuousOn alpha beta x).add (g_continuousOn alpha (-beta) x)))
    (fun t ht => by
      have h := (g_deriv (alpha := alpha) (beta := beta) (t := t) (.inl ht.1)).add (g_deriv (alpha := alpha) (beta := -beta) (t := t) (.inl ht.1))
      have h' := Complex.imCLM.hasFDerivAt.comp_hasDerivAt t h
      refine h'.congr_deriv ?_
      rw [← add_div, log_pair ht.1]
      simp only [Complex.imCLM_apply, Complex.div_im, Complex.ofReal_re, Complex.ofReal_im, Complex.normSq_apply]
      simp
      rw [← pow_two]
      ring) (integrable_G alpha beta 0 x)
  rw [key]
  simp only [G, if_pos hx, one_mul, Complex.add_im, Complex.neg_im]
  ring

theorem G_integral (x alpha beta : ℝ) :
    G x alpha beta = ∫ t in (0 : ℝ)..x, Real.log (t ^ 2 + beta ^ 2) / ((t - alpha) ^ 2 + 1) := by
  by_cases hx : 0 ≤ x
  · exact G_nonneg hx alpha beta
  · have h1 : G x alpha beta = -G (-x) (-alpha) beta := by
      simp only [G, if_neg hx, if_pos (show (0 : ℝ) ≤ -x by linarith), one_mul, neg_mul]
    rw [h1, G_nonneg (by linarith)]
    have h2 := intervalIntegral.integral_comp_neg (a := (0 : ℝ)) (b := -x) fun t : ℝ => Real.log (t ^ 2 + beta ^ 2) / ((t - alpha) ^ 2 + 1)
    rw [neg_neg, neg_zero] at h2
    rw [intervalIntegral.integral_symm x 0, ← h2]
    congr 1
    refine intervalIntegral.integral_congr fun t _ => ?_
    show _ / _ = _ / _
    ring_nf

/-- `F` is the antiderivative of the product of a Cauchy kernel and a logarithm. -/
theorem FReal_integral {b d : ℝ} (hb : 0 < b) (hd : 0 < d) (x a c : ℝ) :
    FReal x a b c d = ∫ t in (0 : ℝ)..x, b / ((t - a) ^ 2 + b ^ 2) * Real.log ((t ^ 2 + c ^ 2) / d ^ 2) := by
  have h1 : G (x / b) (a / b) (c / b) = ∫ t in (0 : ℝ)..x, b / ((t - a) ^ 2 + b ^ 2) * (Real.log (t ^ 2 + c ^ 2) - Real.log (b ^ 2)) := by
    rw [G_integral]
    have h := intervalIntegral.integral_comp_div (a := (0 : ℝ)) (b := x)
      (fun t : ℝ => Real.log (t ^ 2 + (c / b) ^ 2) / ((t - a / b) ^ 2 + 1)) hb.ne'
    rw [zero_div] at h
    rw [← inv_smul_eq_iff₀ hb.ne'] at h
    rw [← h, smul_eq_mul, ← intervalIntegral.integral_const_mul]
    refine intervalIntegral.integral_congr_ae ?_
    have hz : ∀ᵐ t : ℝ, t ≠ 0 := by simp [ae_iff]
    filter_upwards [hz] with t ht _
    have e : (t / b) ^ 2 + (c / b) ^ 2 = (t ^ 2 + c ^ 2) / b ^ 2 := by field_simp
    have ht2 : 0 < t ^ 2 + c ^ 2 := by positivity
    rw [e, Real.log_div ht2.ne' (by positivity)]
    have e2 : (t / b - a / b) ^ 2 + 1 = ((t - a) ^ 2 + b ^ 2) / b ^ 2 := by field_simp
    rw [e2]
    have : 0 < (t - a) ^ 2 + b ^ 2 := by positivity
    field_simp
  have h2 : Real.arctan ((x - a) / b) + Real.arctan (a / b) = ∫ t in (0 : ℝ)..x, b / ((t - a) ^ 2 + b ^ 2) := by
    have hderiv : ∀ t ∈ uIcc 0 x, HasDerivAt (fun t => Real.arctan ((t - a) / b)) (b / ((t - a) ^ 2 + b ^ 2)) t := by
      intro t _
      have := (((hasDerivAt_id t).sub_const a).div_const b).arctan
      refine this.congr_deriv ?_
      have : 0 < (t - a) ^ 2 + b ^ 2 := by positivity
      simp only [id]
      have e2 : 1 + ((t - a) / b) ^ 2 = ((t - a) ^ 2 + b ^ 2) / b ^ 2 := by field_simp; ring
      rw [e2]
      field_simp
    have hcont : Continuous fun t : ℝ => b / ((t - a) ^ 2 + b ^ 2) := Continuous.div (by fun_prop) (by fun_prop) fun t => by positivity
    rw [intervalIntegral.integral_eq_sub_of_hasDerivAt hderiv (hcont.intervalIntegrable _ _)]
    rw [zero_sub, neg_div, Real.arctan_neg]
    ring
  have hcont : Continuous fun t : ℝ => b / ((t - a) ^ 2 + b ^ 2) := Continuous.div (by fun_prop) (by fun_prop) fun t => by positivity
  rw [FReal, h1, h2, ← intervalIntegral.integral_const_mul, ← intervalIntegral.integral_add]
  · refine intervalIntegral.integral_congr_ae ?_
    have hz : ∀ᵐ t : ℝ, t ≠ 0 := by simp [ae_iff]
    filter_upwards [hz] with t ht _
    have ht2 : 0 < t ^ 2 + c ^ 2 := by positivity
    rw [Real.log_div ht2.ne' (by positivity), Real.log_div (by positivity) (by positivity)]
    ring
  · exact ((integrable_log_sq_add c 0 x).sub intervalIntegrable_const).continuousOn_mul hcont.continuousOn
  · exact (hcont.intervalIntegrable _ _).const_mul _

end

end GW.SpinPriorJoint
