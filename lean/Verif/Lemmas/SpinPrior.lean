import Verif.Model.SpinPrior
import Verif.Lemmas.XRMath
import Verif.Spec.SpinPrior
import Mathlib.Analysis.SpecialFunctions.Log.NegMulLog
import Mathlib.Analysis.SpecialFunctions.Integrals.Basic
import Mathlib.MeasureTheory.Integral.DivergenceTheorem
import Mathlib.Analysis.Calculus.DSlope
import Mathlib.MeasureTheory.Group.Integral
import Mathlib.MeasureTheory.Measure.Haar.Unique

namespace GW.SpinPrior
open GW XR MeasureTheory Set SpinPriorSpec Filter Topology

noncomputable section

theorem integrable_log_one_sub (a b : ℝ) : IntervalIntegrable (fun t : ℝ => Real.log |1 - t|) volume a b := by
  have h : IntervalIntegrable Real.log volume (1 - a) (1 - b) := intervalIntegral.intervalIntegrable_log'
  have h2 := h.comp_sub_left 1
  simpa [Real.log_abs] using h2

theorem integrable_log_abs (a b : ℝ) : IntervalIntegrable (fun t : ℝ => Real.log |t|) volume a b := by
  simp [Real.log_abs]

theorem abs_log_one_sub_le {t : ℝ} (h : |t| ≤ 1 / 2) : |Real.log (|1 - t|)| ≤ 2 * |t| := by
  have ⟨h1, h2⟩ := abs_le.1 h
  have hy : (0 : ℝ) < 1 - t := by linarith
  rw [abs_of_pos hy]
  have ha := Real.log_le_sub_one_of_pos hy
  have hb := Real.one_sub_inv_le_log_of_pos hy
  have hc : t / (1 - t) ≤ 2 * |t| := by
    rw [div_le_iff₀ hy]
    have := le_abs_self t
    have := abs_nonneg t
    nlinarith
  have hd : 1 - (1 - t)⁻¹ = -(t / (1 - t)) := by field_simp; ring
  rw [abs_le]
  constructor
  · rw [hd] at hb; linarith
  · have := neg_abs_le t
    have := abs_nonneg t
    linarith

/-- `log|1 - t| / t` is integrable on bounded intervals. -/
theorem integrable_dilog (a b : ℝ) : IntervalIntegrable (fun t => Real.log |1 - t| / t) volume a b := by
  have hg : IntervalIntegrable (fun t : ℝ => 2 * |Real.log (|1 - t|)| + 2) volume a b :=
    ((integrable_log_one_sub a b).abs.const_mul 2).add intervalIntegrable_const
  refine hg.mono_fun (Measurable.aestronglyMeasurable (by fun_prop)) (Filter.Eventually.of_forall fun t => ?_)
  simp only [Real.norm_eq_abs]
  rw [abs_of_nonneg (a := 2 * |Real.log (|1 - t|)| + 2) (by positivity), abs_div]
  by_cases h0 : t = 0
  · simp [h0]
  have hp : 0 < |t| := abs_pos.2 h0
  rw [div_le_iff₀ hp]
  have hL := abs_nonneg (Real.log |1 - t|)
  by_cases h : |t| ≤ 1 / 2
  · have := abs_log_one_sub_le h
    nlinarith
  · push Not at h
    nlinarith

theorem continuous_dilog : Continuous dilog := by
  have := intervalIntegral.continuous_primitive (fun a b => integrable_dilog a b) 0
  exact this.neg

theorem hasDerivAt_dilog {x : ℝ} (h0 : x ≠ 0) (h1 : x ≠ 1) : HasDerivAt dilog (-(Real.log |1 - x| / x)) x := by
  have hc : ∀ y : ℝ, y ≠ 0 → y ≠ 1 → ContinuousAt (fun t => Real.log |1 - t| / t) y := by
    intro y hy0 hy1
    have h : |1 - y| ≠ 0 := abs_ne_zero.2 (sub_ne_zero.2 (Ne.symm hy1))
    exact ContinuousAt.div (ContinuousAt.log (by fun_prop) h) continuousAt_id hy0
  have hm : StronglyMeasurableAtFilter (fun t => Real.log |1 - t| / t) (𝓝 x) := by
    refine ⟨Set.univ, Filter.univ_mem, ?_⟩
    exact (Measurable.stronglyMeasurable (by fun_prop)).aestronglyMeasurable
  exact (intervalIntegral.integral_hasDerivAt_right (integrable_dilog 0 x) hm (hc x h0 h1)).neg

/-- `log|t| log|1 - t|` is continuous. -/
theorem continuous_loglog : Continuous fun t : ℝ => Real.log |t| * Real.log |1 - t| := by
  have hz : ContinuousAt (fun t : ℝ => Real.log |t| * Real.log |1 - t|) 0 := by
    have hd : DifferentiableAt ℝ (fun t : ℝ => Real.log (1 - t)) 0 := by
      refine DifferentiableAt.log (by fun_prop) (by norm_num)
    have he : (fun t : ℝ => Real.log |t| * Real.log |1 - t|) = fun t => (t * Real.log t) * dslope (fun t : ℝ => Real.log (1 - t)) 0 t := by
      funext t
      have := sub_smul_dslope (fun t : ℝ => Real.log (1 - t)) 0 t
      simp only [sub_zero, Real.log_one, smul_eq_mul] at this
      rw [Real.log_abs, Real.log_abs, ← this]
      ring
    rw [he]
    exact Real.continuous_mul_log.continuousAt.mul (continuousAt_dslope_same.2 hd)
  rw [continuous_iff_continuousAt]
  intro x
  by_cases h0 : x = 0
  · rw [h0]; exact hz
  by_cases h1 : x = 1
  · have hs : (fun t : ℝ => Real.log |t| * Real.log |1 - t|) = (fun t : ℝ => Real.log |t| * Real.log |1 - t|) ∘ fun t => 1 - t := by
      funext t
      simp only [Function.comp, sub_sub_cancel]
      ring
    rw [hs, h1]
    refine ContinuousAt.comp ?_ (by fun_prop)
    simpa using hz
  · exact (ContinuousAt.log (by fun_prop) (abs_ne_zero.2 h0)).mul
      (ContinuousAt.log (by fun_prop) (abs_ne_zero.2 (sub_ne_zero.2 (Ne.symm h1))))

/-- An antiderivative of `log|t| log|1 - t|`. -/
def A (t : ℝ) : ℝ := (t - 1) * Real.log |1 - t| * (Real.log |t| - 1) - t * Real.log |t| + 2 * t - dilog t

theorem continuous_A : Continuous A := by
  have h1 : Continuous fun t : ℝ => (1 - t) * Real.log (1 - t) := Real.continuous_mul_log.comp (by fun_prop)
  have he : A = fun t => (t - 1) * (Real.log |t| * Real.log |1 - t|) + (1 - t) * Real.log (1 - t) - t * Real.log t + 2 * t - dilog t := by
    funext t
    simp only [A, Real.log_abs]
    ring
  rw [he]
  exact (((((by fun_prop : Continuous fun t : ℝ => t - 1).mul continuous_loglog).add h1).sub Real.continuous_mul_log).add (by fun_prop)).sub continuous_dilog

theorem integral_loglog (a b : ℝ) : ∫ t in a..b, Real.log |t| * Real.log |1 - t| = A b - A a := by
  refine integral_eq_of_hasDerivAt_off_countable A _ (s := {0, 1}) (by simp) continuous_A.continuousOn ?_ (continuous_loglog.intervalIntegrable _ _)
  rintro x ⟨-, hx⟩
  simp only [mem_insert_iff, mem_singleton_iff, not_or] at hx
  obtain ⟨h0, h1⟩ := hx
  have hl0 : HasDerivAt (fun t : ℝ => Real.log |t|) (1 / x) x := by
    simpa [Real.log_abs] using Real.hasDerivAt_log h0
  have hl1 : HasDerivAt (fun t : ℝ => Real.log |1 - t|) (-1 / (1 - x)) x := by
    have := (((hasDerivAt_id x).const_sub 1).log (sub_ne_zero.2 (Ne.symm h1)))
    simpa [Real.log_abs] using this
  have h := (((((hasDerivAt_id x).sub_const 1).mul hl1).mul (hl0.sub_const 1)).sub ((hasDerivAt_id x).mul hl0)).add ((hasDerivAt_id x).const_mul 2)
  have h := h.sub (hasDerivAt_dilog h0 h1)
  refine h.congr_deriv ?_
  have h1' : 1 - x ≠ 0 := sub_ne_zero.2 (Ne.symm h1)
  simp only [id, Pi.mul_apply]
  field_simp
  ring

/-- An antiderivative of `log|1 - t|`. -/
def B (t : ℝ) : ℝ := (t - 1) * Real.log |1 - t| - t

theorem integral_log_one_sub (a b : ℝ) : ∫ t in a..b, Real.log |1 - t| = B b - B a := by
  have hc : Continuous B := by
    have h1 : Continuous fun t : ℝ => (1 - t) * Real.log (1 - t) := Real.continuous_mul_log.comp (by fun_prop)
    have he : B = fun t => -((1 - t) * Real.log (1 - t)) - t := by
      funext t
      simp only [B, Real.log_abs]
      ring
    rw [he]
    exact h1.neg.sub continuous_id
  refine integral_eq_of_hasDerivAt_off_countable B _ (s := {1}) (by simp) hc.continuousOn ?_ (integrable_log_one_sub _ _)
  rintro x ⟨-, hx⟩
  have h1 : 1 - x ≠ 0 := sub_ne_zero.2 (Ne.symm hx)
  have hl1 : HasDerivAt (fun t : ℝ => Real.log |1 - t|) (-1 / (1 - x)) x := by
    have := (((hasDerivAt_id x).const_sub 1).log h1)
    simpa [Real.log_abs] using this
  have h := (((hasDerivAt_id x).sub_const 1).mul hl1).sub (hasDerivAt_id x)
  refine h.congr_deriv ?_
  simp only [id]
  field_simp
  ring

/-- An antiderivative of `log|t|`. -/
def T (t : ℝ) : ℝ := t * Real.log |t| - t

theorem integral_log_abs (a b : ℝ) : ∫ t in a..b, Real.log |t| = T b - T a := by
  simp only [Real.log_abs, T, integral_log]
  ring

/-- An antiderivative of `(log|t| - l) (log|1 - t| - k)`. -/
def F (l k t : ℝ) : ℝ := A t - l * B t - k * T t + l * k * t

theorem integrable_kernel (l k a b : ℝ) : IntervalIntegrable (fun t => (Real.log |t| - l) * (Real.log |1 - t| - k)) volume a b := by
  have h := (((continuous_loglog.intervalIntegrable a b).sub ((integrable_log_one_sub a b).const_mul l)).sub
    ((integrable_log_abs a b).const_mul k)).add (intervalIntegrable_const (c := l * k))
  refine h.congr (fun t _ => ?_)
  ring

theorem integral_kernel (l k a b : ℝ) : ∫ t in a..b, (Real.log |t| - l) * (Real.log |1 - t| - k) = F l k b - F l k a := by
  have he : (fun t : ℝ => (Real.log |t| - l) * (Real.log |1 - t| - k))
      = fun t => ((Real.log |t| * Real.log |1 - t| - l * Real.log |1 - t|) - k * Real.log |t|) + l * k := by
    funext t; ring
  have i1 := continuous_loglog.intervalIntegrable (μ := volume) a b
  have i2 := (integrable_log_one_sub a b).const_mul l
  have i3 := (integrable_log_abs a b).const_mul k
  rw [he, intervalIntegral.integral_add ((i1.sub i2).sub i3) intervalIntegrable_const, intervalIntegral.integral_sub (i1.sub i2) i3,
    intervalIntegral.integral_sub i1 i2, intervalIntegral.integral_const_mul, intervalIntegral.integral_const_mul, integral_loglog,
    integral_log_one_sub, integral_log_abs, intervalIntegral.integral_const, smul_eq_mul]
  simp only [F]
  ring

/-- The product of the two component densities on a common interval. -/
theorem aligned_mul {m n x lo hi : ℝ} (hset : ∀ y, (|y| ≤ m ∧ |x - y| ≤ n) ↔ y ∈ Icc lo hi) :
    (fun y => aligned m y * aligned n (x - y))
      = (Icc lo hi).indicator fun y => Real.log (|y| / m) * Real.log (|x - y| / n) / (4 * m * n) := by
  funext y
  simp only [indicator]
  by_cases h : y ∈ Icc lo hi
  · obtain ⟨h1, h2⟩ := (hset y).2 h
    rw [if_pos h, aligned, aligned, if_pos h1, if_pos h2]
    by_cases hm : m = 0
    · simp [hm]
    by_cases hn : n = 0
    · simp [hn]
    field_simp
    ring
  · rw [if_neg h]
    simp only [aligned]
    by_cases h1 : |y| ≤ m
    · rw [if_neg (fun h2 => h ((hset y).1 ⟨h1, h2⟩)), mul_zero]
    · rw [if_neg h1, zero_mul]

theorem kernel_ae {m n x : ℝ} (hm : 0 < m) (hn : 0 < n) (hx : 0 < x) :
    ∀ᵐ t : ℝ, Real.log (|x * t| / m) * Real.log (|x - x * t| / n) / (4 * m * n)
      = (Real.log |t| - Real.log (m / x)) * (Real.log |1 - t| - Real.log (n / x)) / (4 * m * n) := by
  have h0 : ∀ᵐ t : ℝ, t ≠ 0 := by simp [ae_iff]
  have h1 : ∀ᵐ t : ℝ, t ≠ 1 := by simp [ae_iff]
  filter_upwards [h0, h1] with t ht0 ht1
  have ha : |t| ≠ 0 := abs_ne_zero.2 ht0
  have hb : |1 - t| ≠ 0 := abs_ne_zero.2 (sub_ne_zero.2 (Ne.symm ht1))
  have e1 : x - x * t = x * (1 - t) := by ring
  rw [e1, abs_mul, abs_mul, abs_of_pos hx, Real.log_div (mul_ne_zero hx.ne' ha) hm.ne', Real.log_div (mul_ne_zero hx.ne' hb) hn.ne',
    Real.log_mul hx.ne' ha, Real.log_mul hx.ne' hb, Real.log_div hm.ne' hx.ne', Real.log_div hn.ne' hx.ne']
  ring

theorem aligned_integral {m n x a b : ℝ} (hm : 0 < m) (hn : 0 < n) (hx : 0 < x) (hab : a ≤ b)
    (hset : ∀ y, (|y| ≤ m ∧ |x - y| ≤ n) ↔ y ∈ Icc (x * a) (x * b)) :
    ∫ y, aligned m y * aligned n (x - y)
      = x * (F (Real.log (m / x)) (Real.log (n / x)) b - F (Real.log (m / x)) (Real.log (n / x)) a) / (4 * m * n) := by
  have hle : x * a ≤ x * b := mul_le_mul_of_nonneg_left hab hx.le
  rw [aligned_mul hset, integral_indicator measurableSet_Icc, integral_Icc_eq_integral_Ioc, ← intervalIntegral.integral_of_le hle,
    ← intervalIntegral.mul_integral_comp_mul_left, intervalIntegral.integral_congr_ae
      (g := fun t => (Real.log |t| - Real.log (m / x)) * (Real.log |1 - t| - Real.log (n / x)) / (4 * m * n))
      ((kernel_ae hm hn hx).mono fun t h _ => h),
    intervalIntegral.integral_div, integral_kernel]
  ring

theorem aligned_integrable {m n x a b : ℝ} (hm : 0 < m) (hn : 0 < n) (hx : 0 < x) (hab : a ≤ b)
    (hset : ∀ y, (|y| ≤ m ∧ |x - y| ≤ n) ↔ y ∈ Icc (x * a) (x * b)) :
    Integrable (fun y => aligned m y * aligned n (x - y)) := by
  have hle : x * a ≤ x * b := mul_le_mul_of_nonneg_left hab hx.le
  rw [aligned_mul hset, integrable_indicator_iff measurableSet_Icc, integrableOn_Icc_iff_integrableOn_Ioc,
    ← intervalIntegrable_iff_integrableOn_Ioc_of_le hle]
  have h := (integrable_kernel (Real.log (m / x)) (Real.log (n / x)) a b).div_const (4 * m * n)
  have h2 : IntervalIntegrable (fun t => Real.log (|x * t| / m) * Real.log (|x - x * t| / n) / (4 * m * n)) volume a b :=
    h.congr_ae (ae_restrict_of_ae ((kernel_ae hm hn hx).mono fun t h => h.symm))
  have h3 := h2.comp_mul_left (c := x⁻¹)
  have e : ∀ c : ℝ, c / x⁻¹ = x * c := fun c => by rw [div_inv_eq_mul, mul_comm]
  rw [e, e] at h3
  simpa [mul_inv_cancel_left₀ hx.ne'] using h3

theorem continuous_mul_log_sq : Continuous fun t : ℝ => t * Real.log t ^ 2 := by
  rw [continuous_iff_continuousAt]
  intro x
  by_cases h : x = 0
  · subst h
    have hg : Continuous fun t : ℝ => 4 * (Real.sqrt |t| * Real.log (Real.sqrt |t|)) ^ 2 := by
      have : Continuous fun t : ℝ => Real.sqrt |t| * Real.log (Real.sqrt |t|) := Real.continuous_mul_log.comp (by fun_prop)
      fun_prop
    have h0 : Tendsto (fun t : ℝ => 4 * (Real.sqrt |t| * Real.log (Real.sqrt |t|)) ^ 2) (𝓝 0) (𝓝 0) := by
      simpa using hg.tendsto 0
    rw [ContinuousAt]
    simp only [zero_mul]
    refine squeeze_zero_norm (fun t => ?_) h0
    rw [Real.norm_eq_abs, abs_mul, abs_of_nonneg (sq_nonneg (Real.log t)), mul_pow, Real.sq_sqrt (abs_nonneg t), Real.log_sqrt (abs_nonneg t), Real.log_abs]
    apply le_of_eq
    ring
  · exact continuousAt_id.mul ((ContinuousAt.log continuousAt_id h).pow 2)

theorem integral_log_sq : (IntervalIntegrable (fun t : ℝ => Real.log t ^ 2) volume (-1) 1) ∧ ∫ t in (-1 : ℝ)..1, Real.log t ^ 2 = 4 := by
  have hc : Continuous fun t : ℝ => t * Real.log t ^ 2 - 2 * (t * Real.log t) + 2 * t :=
    (continuous_mul_log_sq.sub (Real.continuous_mul_log.const_mul 2)).add (by fun_prop)
  have hd : ∀ x ∈ Ioo (0 : ℝ) 1, HasDerivAt (fun t : ℝ => t * Real.log t ^ 2 - 2 * (t * Real.log t) + 2 * t) (Real.log x ^ 2) x := by
    intro x hx
    have hl := Real.hasDerivAt_log hx.1.ne'
    have h := (((hasDerivAt_id x).mul (hl.pow 2)).sub (((hasDerivAt_id x).mul hl).const_mul 2)).add ((hasDerivAt_id x).const_mul 2)
    refine h.congr_deriv ?_
    have := hx.1.ne'
    simp only [id, Pi.pow_apply]
    field_simp
    ring
  have hi : IntervalIntegrable (fun t : ℝ => Real.log t ^ 2) volume 0 1 :=
    intervalIntegral.intervalIntegrable_deriv_of_nonneg hc.continuousOn (by simpa using hd) fun x _ => sq_nonneg _
  have hv : ∫ t in (0 : ℝ)..1, Real.log t ^ 2 = 2 := by
    rw [intervalIntegral.integral_eq_sub_of_hasDerivAt_of_le zero_le_one hc.continuousOn hd hi]
    simp
  have hi' : IntervalIntegrable (fun t : ℝ => Real.log t ^ 2) volume (-1) 0 := by
    have := hi.comp_sub_left 0
    simpa using this.symm
  refine ⟨hi'.trans hi, ?_⟩
  have hv' : ∫ t in (-1 : ℝ)..0, Real.log t ^ 2 = 2 := by
    have := intervalIntegral.integral_comp_neg (fun t : ℝ => Real.log t ^ 2) (a := 0) (b := 1)
    simp only [Real.log_neg_eq_log, neg_zero] at this
    rw [← this, hv]
  rw [← intervalIntegral.integral_add_adjacent_intervals hi' hi, hv, hv']
  norm_num

/-- The convolution does not depend on the sign of its argument. -/
theorem aligned_even (m u : ℝ) : aligned m (-u) = aligned m u := by simp [aligned]

theorem chiEffDensity_even (q amax x : ℝ) : chiEffDensity q amax (-x) = chiEffDensity q amax x := by
  unfold chiEffDensity
  rw [← integral_neg_eq_self]
  congr 1
  funext y
  rw [aligned_even, show -x - -y = -(x - y) by ring, aligned_even]

theorem chiEffDensity_abs (q amax x : ℝ) : chiEffDensity q amax |x| = chiEffDensity q amax x := by
  rcases abs_choice x with h | h <;> rw [h]
  exact chiEffDensity_even q amax x

/-- Opposite signs allowed: the whole range of the secondary component contributes. -/
theorem set_lower {m n x : ℝ} (hx : 0 < x) (h : x ≤ n - m) (y : ℝ) :
    (|y| ≤ m ∧ |x - y| ≤ n) ↔ y ∈ Icc (x * -(m / x)) (x * (m / x)) := by
  rw [mul_neg, mul_div_cancel₀ m hx.ne', mem_Icc, ← abs_le]
  constructor
  · exact fun h => h.1
  · intro hy
    refine ⟨hy, ?_⟩
    rw [abs_le] at hy ⊢
    constructor <;> linarith [hy.1, hy.2]

/-- Otherwise the secondary component starts at `x - n`. -/
theorem set_upper {m n x : ℝ} (hx : 0 < x) (hmn : m ≤ n) (h : n - m ≤ x) (y : ℝ) :
    (|y| ≤ m ∧ |x - y| ≤ n) ↔ y ∈ Icc (x * (1 - n / x)) (x * (m / x)) := by
  rw [mul_sub, mul_div_cancel₀ m hx.ne', mul_div_cancel₀ n hx.ne', mem_Icc, abs_le, abs_le]
  constructor
  · rintro ⟨⟨h1, h2⟩, h3, h4⟩
    constructor <;> linarith
  · rintro ⟨h1, h2⟩
    refine ⟨⟨?_, ?_⟩, ?_, ?_⟩ <;> linarith

theorem F_lower {s l k : ℝ} (hs : 0 < s) (hl : l = Real.log s) :
    F l k s - F l k (-s) = 4 * s + 2 * s * k + (1 - s) * Real.log |1 - s| - (1 + s) * Real.log (1 + s) + dilog (-s) - dilog s := by
  have h1 : |1 - -s| = 1 + s := by rw [sub_neg_eq_add, abs_of_pos (by linarith)]
  simp only [F, A, B, T, h1, abs_neg, abs_of_pos hs, ← hl]
  ring

theorem aligned_support {m n x : ℝ} (h : m + n ≤ |x|) : ∫ y, aligned m y * aligned n (x - y) = 0 := by
  by_cases h' : m + n < |x|
  · have : (fun y => aligned m y * aligned n (x - y)) = fun _ => 0 := by
      funext y
      simp only [aligned]
      by_cases h1 : |y| ≤ m
      · rw [if_pos h1, if_neg, mul_zero]
        intro h2
        have := abs_add_le y (x - y)
        rw [add_sub_cancel] at this
        linarith
      · rw [if_neg h1, zero_mul]
    rw [this, integral_zero]
  · have he : |x| = m + n := le_antisymm (not_lt.1 h') h
    have hs : ∀ y, y ≠ m → y ≠ -m → aligned m y * aligned n (x - y) = 0 := by
      intro y hy1 hy2
      simp only [aligned]
      by_cases h1 : |y| ≤ m
      · rw [if_pos h1, if_neg, mul_zero]
        intro h2
        have h3 := abs_add_le y (x - y)
        rw [add_sub_cancel] at h3
        have h4 : |y| = m := by linarith
        rcases abs_choice y with h5 | h5
        · exact hy1 (by rw [← h4, h5])
        · exact hy2 (by rw [← h4, h5, neg_neg])
      · rw [if_neg h1, zero_mul]
    refine integral_eq_zero_of_ae ?_
    have h0 : ∀ᵐ t : ℝ, t ≠ m := by simp [ae_iff]
    have h1 : ∀ᵐ t : ℝ, t ≠ -m := by simp [ae_iff]
    filter_upwards [h0, h1] with t ht0 ht1 using hs t ht0 ht1

/-- The density at zero. -/
theorem aligned_zero {m n : ℝ} (hm : 0 < m) (hmn : m ≤ n) :
    ∫ y, aligned m y * aligned n (0 - y) = (4 - 2 * Real.log (m / n)) / (4 * n) := by
  have hn : 0 < n := hm.trans_le hmn
  have hset : ∀ y, (|y| ≤ m ∧ |0 - y| ≤ n) ↔ y ∈ Icc (m * -1) (m * 1) := by
    intro y
    rw [zero_sub, abs_neg, mem_Icc, mul_neg, mul_one, ← abs_le]
    exact ⟨fun h => h.1, fun h => ⟨h, h.trans hmn⟩⟩
  have hle : m * -1 ≤ m * 1 := by linarith
  have hae : ∀ᵐ t : ℝ, t ∈ uIoc (-1 : ℝ) 1 → Real.log (|m * t| / m) * Real.log (|0 - m * t| / n) / (4 * m * n)
      = (Real.log t ^ 2 + Real.log (m / n) * Real.log t) / (4 * m * n) := by
    have h0 : ∀ᵐ t : ℝ, t ≠ 0 := by simp [ae_iff]
    filter_upwards [h0] with t ht0 _
    have ha : |t| ≠ 0 := abs_ne_zero.2 ht0
    rw [zero_sub, abs_neg, abs_mul, abs_of_pos hm, mul_div_cancel_left₀ _ hm.ne', mul_div_right_comm m |t| n,
      Real.log_mul (div_ne_zero hm.ne' hn.ne') ha, Real.log_abs]
    ring
  rw [aligned_mul hset, integral_indicator measurableSet_Icc, integral_Icc_eq_integral_Ioc, ← intervalIntegral.integral_of_le hle,
    ← intervalIntegral.mul_integral_comp_mul_left, intervalIntegral.integral_congr_ae hae, intervalIntegral.integral_div,
    intervalIntegral.integral_add integral_log_sq.1 (intervalIntegral.intervalIntegrable_log'.const_mul _),
    intervalIntegral.integral_const_mul, integral_log_sq.2, integral_log]
  simp only [Real.log_one, Real.log_neg_eq_log]
  field_simp
  ring

theorem log_mul_self' (q : ℝ) : Real.log (q * q) = 2 * Real.log q := by
  rw [← sq, Real.log_pow]
  norm_num

theorem ratios {q amax : ℝ} (hq : 0 < q) (ha : 0 < amax) :
    0 < amax / (1 + q) ∧ 0 < q * amax / (1 + q) ∧ q * amax / (1 + q) = q * (amax / (1 + q))
      ∧ amax * (1 - q) / (1 + q) = amax / (1 + q) - q * amax / (1 + q) ∧ amax = amax / (1 + q) + q * amax / (1 + q) := by
  have h : (0 : ℝ) < 1 + q := by linarith
  refine ⟨by positivity, by positivity, by ring, by ring, ?_⟩
  field_simp

/-- The lower branch of the code away from its singular points. -/
theorem lower_fin (big : ℝ) {q n m x : ℝ} (hq : 0 < q) (hn : 0 < n) (hm : m = q * n) (hx : 0 < x) (hs : x ≠ m) :
    lower big (fin q) (fin n) (fin m / fin x)
      = fin (x * (F (Real.log (m / x)) (Real.log (n / x)) (m / x) - F (Real.log (m / x)) (Real.log (n / x)) (-(m / x))) / (4 * m * n)) := by
  have hm0 : 0 < m := hm ▸ mul_pos hq hn
  have hs0 : 0 < m / x := div_pos hm0 hx
  have hs1 : 1 - m / x ≠ 0 := by
    intro h
    have : m / x = 1 := by linarith
    rw [div_eq_one_iff_eq hx.ne'] at this
    exact hs this.symm
  obtain ⟨s, rfl⟩ : ∃ s, m = s * x := ⟨m / x, by field_simp⟩
  rw [mul_div_cancel_right₀ _ hx.ne'] at hs0 hs1
  have hpos : 0 < |1 - s| / (1 + s) := div_pos (abs_pos.2 hs1) (by linarith)
  have hsq : 0 < s * s := mul_pos hs0 hs0
  have hfac : 1 / (s * s) - 1 = (1 - s) * (1 + s) / (s * s) := by field_simp; ring
  have habs : 0 < |1 / (s * s) - 1| := by
    rw [hfac]
    exact abs_pos.2 (div_ne_zero (mul_ne_zero hs1 (by linarith)) hsq.ne')
  have hlog : Real.log |1 / (s * s) - 1| = Real.log |1 - s| + Real.log (1 + s) - 2 * Real.log s := by
    rw [hfac, abs_div, abs_mul, abs_of_pos hsq, abs_of_pos (a := 1 + s) (by linarith),
      Real.log_div (mul_ne_zero (abs_ne_zero.2 hs1) (by linarith)) hsq.ne', Real.log_mul (abs_ne_zero.2 hs1) (by linarith),
      Real.log_mul hs0.ne' hs0.ne']
    ring
  have hlq : Real.log (q * q) = 2 * (Real.log s - Real.log (n / x)) := by
    have : q = s / (n / x) := by
      rw [eq_div_iff (div_ne_zero hn.ne' hx.ne')]
      field_simp
      rw [mul_comm x s]
      exact hm.symm
    rw [this, log_mul_self', Real.log_div hs0.ne' (div_ne_zero hn.ne' hx.ne')]
  rw [div_fin_of_ne _ hx.ne', mul_div_cancel_right₀ _ hx.ne', F_lower hs0 rfl]
  simp only [lower, square_fin, log_fin_pos (mul_pos hq hq), sub_fin_fin, add_fin_fin, neg_fin, abs_fin, div_fin_of_ne _ hsq.ne',
    log_fin_pos habs, div_fin_of_ne _ (show 1 + s ≠ 0 by linarith), log_fin_pos hpos, li2, nanToNum, div_fin_of_ne _ hs0.ne', mul_fin_fin,
    div_fin_of_ne _ (show 4 * n ≠ 0 by linarith)]
  rw [hlog, hlq, Real.log_div (abs_ne_zero.2 hs1) (by linarith)]
  congr 1
  field_simp
  ring

/-- The lower branch at zero, where the secondary ratio is infinite. -/
theorem lower_zero (big : ℝ) {q n m : ℝ} (hq : 0 < q) (hn : 0 < n) (hm : 0 < m) :
    lower big (fin q) (fin n) (fin m / fin 0) = fin ((4 - 2 * Real.log q) / (4 * n)) := by
  have h0 : fin m / fin 0 = pinf := by simp [div_fin_fin, mulInf, hm]
  have h1 : square pinf = pinf := rfl
  have h2 : fin 1 / pinf = fin 0 := rfl
  have h3 : fin 0 / pinf = fin 0 := rfl
  have h4 : abs ninf / (fin 1 + pinf) = nan := rfl
  have h5 : ((fin 0) - (fin 1 : XR)) = fin (-1) := by simp
  simp only [lower, h0, h1, h2, fin_sub_pinf, h4, log_nan, nan_add, nanToNum, h3, h5, square_fin, log_fin_pos (mul_pos hq hq), abs_fin, abs_neg, abs_one,
    log_fin_pos one_pos, Real.log_one, sub_fin_fin, add_fin_fin, mul_fin_fin, div_fin_of_ne _ (show 4 * n ≠ 0 by linarith), log_mul_self']
  congr 1
  ring

/-- The regularised logarithm of the upper branch, as it enters the sum. -/
theorem term_fin {r : ℝ} (hr : 0 < r) : ∃ v, log (abs (fin 1 / fin r - fin 1) + isOne (fin r)) = fin v
    ∧ (1 - r) * v = (1 - r) * (Real.log |1 - r| - Real.log r) ∧ Real.log r * v = Real.log r * (Real.log |1 - r| - Real.log r) := by
  by_cases h : r = 1
  · subst h
    refine ⟨0, ?_, by simp, by simp⟩
    simp [isOne]
  · have hne : 1 - r ≠ 0 := sub_ne_zero.2 (Ne.symm h)
    have hf : 1 / r - 1 = (1 - r) / r := by field_simp
    have hp : 0 < |1 / r - 1| := by rw [hf]; exact abs_pos.2 (div_ne_zero hne hr.ne')
    have hv : Real.log |1 / r - 1| = Real.log |1 - r| - Real.log r := by
      rw [hf, abs_div, abs_of_pos hr, Real.log_div (abs_ne_zero.2 hne) hr.ne']
    refine ⟨Real.log |1 / r - 1|, ?_, by rw [hv], by rw [hv]⟩
    rw [div_fin_of_ne _ hr.ne', sub_fin_fin, abs_fin, isOne, eqc_fin_of_ne h]
    simp only [Bool.false_eq_true, if_false, add_fin_fin, add_zero]
    exact log_fin_pos hp

/-- The upper branch of the code. -/
theorem upper_fin {q n m x : ℝ} (hq : 0 < q) (hn : 0 < n) (hm : m = q * n) (hx : 0 < x) :
    upper (fin (n + m)) (fin x) (fin q) (fin n) (fin m) (fin (n - m)) (fin n / fin x) (fin m / fin x)
      = fin (x * (F (Real.log (m / x)) (Real.log (n / x)) (m / x) - F (Real.log (m / x)) (Real.log (n / x)) (1 - n / x)) / (4 * m * n)) := by
  have hm0 : 0 < m := hm ▸ mul_pos hq hn
  obtain ⟨s, rfl⟩ : ∃ s, m = s * x := ⟨m / x, by field_simp⟩
  obtain ⟨p, rfl⟩ : ∃ p, n = p * x := ⟨n / x, by field_simp⟩
  have hs0 : 0 < s := pos_of_mul_pos_left hm0 hx.le
  have hp0 : 0 < p := pos_of_mul_pos_left hn hx.le
  have hlq : Real.log q = Real.log s - Real.log p := by
    have : q = s / p := by
      rw [eq_div_iff hp0.ne']
      have : x * (q * p) = x * s := by rw [mul_comm x s, hm]; ring
      exact mul_left_cancel₀ hx.ne' this
    rw [this, Real.log_div hs0.ne' hp0.ne']
  obtain ⟨vp, hvp, hp1, hp2⟩ := term_fin hp0
  obtain ⟨vs, hvs, hs1, -⟩ := term_fin hs0
  have h4 : 4 * (p * x) * (s * x) ≠ 0 := by positivity
  rw [div_fin_of_ne _ hx.ne', div_fin_of_ne _ hx.ne', mul_div_cancel_right₀ _ hx.ne', mul_div_cancel_right₀ _ hx.ne']
  simp only [upper, hvp, hvs, sub_fin_fin, mul_fin_fin, log_fin_pos hq, log_fin_pos hp0, add_fin_fin, li2, div_fin_of_ne _ h4]
  congr 1
  rw [mul_right_comm 4 (p * x), ]
  congr 1
  rw [hlq]
  have e : |1 - (1 - p)| = p := by rw [sub_sub_cancel, abs_of_pos hp0]
  simp only [F, A, B, T, e, abs_of_pos hs0]
  linear_combination x * hs1 + x * hp1 + x * hp2

end

end GW.SpinPrior
