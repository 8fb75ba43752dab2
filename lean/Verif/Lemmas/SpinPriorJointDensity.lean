import Verif.Lemmas.SpinPriorJoint
import Verif.Spec.SpinPriorJoint
import Verif.Lemmas.XRMath
import Mathlib.MeasureTheory.Measure.Haar.NormedSpace

/-!
# The four integrals of the joint spin prior
-/

namespace GW.SpinPriorJoint
open GW XR MeasureTheory Set Filter Topology SpinPriorSpec

noncomputable section
open Classical

theorem below_eq {m z R : ℝ} (hm : 0 < m) (hR : 0 < R) (hz : z ≠ 0) :
    below m z R = if |z| ≤ m then 1 / (4 * m) * Real.log (Min.min (z ^ 2 + R ^ 2) (m ^ 2) / z ^ 2) else 0 := by
  have hz2 : 0 < z ^ 2 := by positivity
  by_cases h : |z| ≤ m
  · rw [if_pos h]
    have hzm : z ^ 2 ≤ m ^ 2 := sq_le_sq' (by linarith [abs_nonneg z, neg_abs_le z]) ((le_abs_self z).trans h)
    set ρ := √(m ^ 2 - z ^ 2) with hρ
    have hρ0 : 0 ≤ ρ := Real.sqrt_nonneg _
    have hρ2 : ρ ^ 2 = m ^ 2 - z ^ 2 := Real.sq_sqrt (by linarith)
    have hiff : ∀ r : ℝ, 0 < r → (z ^ 2 + r ^ 2 ≤ m ^ 2 ↔ r ≤ ρ) := fun r hr => by
      rw [hρ, Real.le_sqrt' hr]
      constructor <;> intro h <;> linarith
    set T := Min.min R ρ with hT
    have hT0 : 0 ≤ T := le_min hR.le hρ0
    have hT2 : z ^ 2 + T ^ 2 = Min.min (z ^ 2 + R ^ 2) (m ^ 2) := by
      rcases le_total R ρ with hle | hle
      · rw [hT, min_eq_left hle, min_eq_left]
        nlinarith
      · rw [hT, min_eq_right hle, min_eq_right] <;> nlinarith
    have e : below m z R = ∫ r in Ioc 0 T, r / (2 * m * (z ^ 2 + r ^ 2)) := by
      rw [below, integral_Ioc_eq_integral_Ioo.symm, ← integral_indicator measurableSet_Ioc, ← integral_indicator measurableSet_Ioc]
      congr 1
      funext r
      by_cases hr : r ∈ Ioc 0 R
      · rw [indicator_of_mem hr, halfPlane]
        by_cases h2 : r ≤ ρ
        · rw [indicator_of_mem (show r ∈ Ioc 0 T from ⟨hr.1, le_min hr.2 h2⟩), if_pos ⟨hr.1, (hiff r hr.1).2 h2⟩]
        · rw [indicator_of_notMem fun h3 => h2 (h3.2.trans (min_le_right _ _)), if_neg fun h3 => h2 ((hiff r hr.1).1 h3.2)]
      · rw [indicator_of_notMem hr, indicator_of_notMem fun h3 => hr ⟨h3.1, h3.2.trans (min_le_left _ _)⟩]
    rw [e, ← intervalIntegral.integral_of_le hT0]
    have hderiv : ∀ r ∈ uIcc 0 T, HasDerivAt (fun r => 1 / (4 * m) * Real.log (z ^ 2 + r ^ 2)) (r / (2 * m * (z ^ 2 + r ^ 2))) r := by
      intro r _
      have h1 : HasDerivAt (fun r : ℝ => z ^ 2 + r ^ 2) (2 * r) r := by simpa using (hasDerivAt_pow 2 r).const_add (z ^ 2)
      have h0 : 0 < z ^ 2 + r ^ 2 := by positivity
      refine ((h1.log h0.ne').const_mul (1 / (4 * m))).congr_deriv ?_
      field_simp
      ring
    have hcont : Continuous fun r : ℝ => r / (2 * m * (z ^ 2 + r ^ 2)) := Continuous.div (by fun_prop) (by fun_prop) fun r => by positivity
    rw [intervalIntegral.integral_eq_sub_of_hasDerivAt hderiv (hcont.intervalIntegrable _ _), ← mul_sub, hT2, Real.log_div _ hz2.ne']
    · simp
    · rw [← hT2]; positivity
  · rw [if_neg h, below]
    have : ∀ r, halfPlane m z r = 0 := by
      intro r
      rw [halfPlane, if_neg]
      rintro ⟨-, h2⟩
      apply h
      have : |z| ^ 2 ≤ m ^ 2 := by rw [sq_abs]; nlinarith [sq_nonneg r]
      exact abs_le_of_sq_le_sq' this hm.le |>.2
    simp [this]

/-- The difference of two values of the antiderivative between the clipped limits, zero when they are out of order. -/
def cut (a s k b c d : ℝ) : ℝ :=
  if Max.max (-k) (a - s) ≤ Min.min k (a + s) then FReal (Min.min k (a + s)) a b c d - FReal (Max.max (-k) (a - s)) a b c d else 0

/-- The kernel times the logarithm. -/
def kern (a b c d y : ℝ) : ℝ := b / ((y - a) ^ 2 + b ^ 2) * Real.log ((y ^ 2 + c ^ 2) / d ^ 2)

theorem kern_integrable {b : ℝ} (hb : 0 < b) (a c : ℝ) {d : ℝ} (hd : 0 < d) (u v : ℝ) : IntervalIntegrable (kern a b c d) volume u v := by
  have hcont : Continuous fun t : ℝ => b / ((t - a) ^ 2 + b ^ 2) := Continuous.div (by fun_prop) (by fun_prop) fun t => by positivity
  have h := ((integrable_log_sq_add c u v).sub (intervalIntegrable_const (c := Real.log (d ^ 2)))).continuousOn_mul hcont.continuousOn
  refine h.congr_ae ?_
  refine ae_restrict_of_ae ?_
  have hz : ∀ᵐ t : ℝ, t ≠ 0 := by simp [ae_iff]
  filter_upwards [hz] with t ht
  have ht2 : 0 < t ^ 2 + c ^ 2 := by positivity
  rw [kern, Real.log_div ht2.ne' (by positivity)]

theorem cut_integral' {b d : ℝ} (hb : 0 < b) (hd : 0 < d) (a s k c : ℝ) :
    Integrable (indicator (Icc (Max.max (-k) (a - s)) (Min.min k (a + s))) (kern a b c d)) ∧
      ∫ y, indicator (Icc (Max.max (-k) (a - s)) (Min.min k (a + s))) (kern a b c d) y = cut a s k b c d := by
  rw [integrable_indicator_iff measurableSet_Icc, integral_indicator measurableSet_Icc, cut]
  by_cases h : Max.max (-k) (a - s) ≤ Min.min k (a + s)
  · rw [if_pos h, integrableOn_Icc_iff_integrableOn_Ioc, integral_Icc_eq_integral_Ioc, ← intervalIntegral.integral_of_le h,
      FReal_integral hb hd, FReal_integral hb hd]
    refine ⟨(kern_integrable hb a c hd _ _).1, ?_⟩
    exact (intervalIntegral.integral_interval_sub_left (kern_integrable hb a c hd _ _) (kern_integrable hb a c hd _ _)).symm
  · rw [if_neg h, Icc_eq_empty h]
    simp

theorem cut_width_zero (a k b c d : ℝ) : cut a 0 k b c d = 0 := by
  unfold cut
  split_ifs with h
  · have h1 : Max.max (-k) (a - 0) = Min.min k (a + 0) := by
      refine le_antisymm h ?_
      rw [sub_zero, add_zero]
      exact (min_le_right _ _).trans (le_max_right _ _)
    rw [h1, sub_self]
  · rfl

/-- The convolution of the two kinds of term. -/
theorem conv_eq {M b d c : ℝ} (hM : 0 < M) (hb : 0 < b) (hd : 0 < d) (hc : 0 < c) (a : ℝ) :
    Integrable (fun y => halfPlane M (a - y) b * below d y c) ∧
      ∫ y, halfPlane M (a - y) b * below d y c = 1 / (8 * M * d) *
        ((if c ≤ d ∧ b ≤ M then cut a √(M ^ 2 - b ^ 2) √(d ^ 2 - c ^ 2) b c d else 0) - if b ≤ M then cut a √(M ^ 2 - b ^ 2) d b 0 d else 0) := by
  have hz : ∀ᵐ y : ℝ, y ≠ 0 := by simp [ae_iff]
  by_cases hbM : b ≤ M
  swap
  · have : (fun y => halfPlane M (a - y) b * below d y c) = fun _ => 0 := by
      funext y
      rw [halfPlane, if_neg, zero_mul]
      rintro ⟨-, h⟩
      apply hbM
      have : b ^ 2 ≤ M ^ 2 := by nlinarith [sq_nonneg (a - y)]
      exact abs_le_of_sq_le_sq' this hM.le |>.2
    rw [this, if_neg fun h => hbM h.2, if_neg hbM]
    simp
  set s := √(M ^ 2 - b ^ 2) with hs
  have hs0 : 0 ≤ s := Real.sqrt_nonneg _
  have hs2 : s ^ 2 = M ^ 2 - b ^ 2 := Real.sq_sqrt (by nlinarith)
  have hset : ∀ y, ((a - y) ^ 2 + b ^ 2 ≤ M ^ 2) ↔ (a - s ≤ y ∧ y ≤ a + s) := by
    intro y
    constructor
    · intro h
      have := abs_le_of_sq_le_sq' (show (a - y) ^ 2 ≤ s ^ 2 by linarith) hs0
      constructor <;> linarith [this.1, this.2]
    · rintro ⟨h1, h2⟩
      nlinarith
  obtain ⟨i2, v2⟩ := cut_integral' hb hd a s d 0
  obtain ⟨i1, v1⟩ := cut_integral' hb hd a s √(d ^ 2 - c ^ 2) c
  by_cases hcd : c ≤ d
  · set k := √(d ^ 2 - c ^ 2) with hk
    have hk0 : 0 ≤ k := Real.sqrt_nonneg _
    have hk2 : k ^ 2 = d ^ 2 - c ^ 2 := Real.sq_sqrt (by nlinarith)
    have hkd : k ≤ d := by nlinarith
    have hae : (fun y => halfPlane M (a - y) b * below d y c) =ᵐ[volume] fun y => 1 / (8 * M * d) *
        (indicator (Icc (Max.max (-k) (a - s)) (Min.min k (a + s))) (kern a b c d) y - indicator (Icc (Max.max (-d) (a - s)) (Min.min d (a + s))) (kern a b 0 d) y) := by
      filter_upwards [hz] with y hy
      have hy2 : 0 < y ^ 2 := by positivity
      rw [below_eq hd hc hy, halfPlane]
      simp only [hset, hb, true_and]
      by_cases h1 : a - s ≤ y ∧ y ≤ a + s
      · rw [if_pos h1]
        by_cases h2 : |y| ≤ d
        · have h2' := abs_le.1 h2
          rw [if_pos h2, indicator_of_mem (s := Icc (Max.max (-d) (a - s)) (Min.min d (a + s))) ⟨max_le h2'.1 h1.1, le_min h2'.2 h1.2⟩]
          by_cases h3 : |y| ≤ k
          · have h3' := abs_le.1 h3
            rw [indicator_of_mem (show y ∈ Icc (Max.max (-k) (a - s)) (Min.min k (a + s)) from ⟨max_le h3'.1 h1.1, le_min h3'.2 h1.2⟩), min_eq_left (by nlinarith), kern, kern]
            have hyc : 0 < y ^ 2 + c ^ 2 := by positivity
            rw [Real.log_div hyc.ne' hy2.ne', Real.log_div hyc.ne' (by positivity), Real.log_div (by simp [hy]) (by positivity)]
            have h5 : 0 < (y - a) ^ 2 + b ^ 2 := by positivity
            have h6 : (a - y) ^ 2 + b ^ 2 = (y - a) ^ 2 + b ^ 2 := by ring
            rw [h6, show y ^ 2 + (0 : ℝ) ^ 2 = y ^ 2 by ring]
            field_simp
            ring
          · rw [indicator_of_notMem fun h => h3 (abs_le.2 ⟨(max_le_iff.1 h.1).1, (le_min_iff.1 h.2).1⟩), min_eq_right, kern]
            · rw [Real.log_div (by positivity) hy2.ne', Real.log_div (by simp [hy]) (by positivity)]
              have h5 : 0 < (y - a) ^ 2 + b ^ 2 := by positivity
              have h6 : (a - y) ^ 2 + b ^ 2 = (y - a) ^ 2 + b ^ 2 := by ring
              rw [h6, show y ^ 2 + (0 : ℝ) ^ 2 = y ^ 2 by ring]
              field_simp
              ring
            · push Not at h3
              have : k ^ 2 < |y| ^ 2 := by nlinarith
              rw [sq_abs] at this
              linarith
        · rw [if_neg h2, indicator_of_notMem fun h => h2 ((abs_le.2 ⟨(max_le_iff.1 h.1).1, (le_min_iff.1 h.2).1⟩).trans hkd),
            indicator_of_notMem fun h => h2 (abs_le.2 ⟨(max_le_iff.1 h.1).1, (le_min_iff.1 h.2).1⟩), sub_zero, mul_zero, mul_zero]
      · rw [if_neg h1, indicator_of_notMem fun h => h1 ⟨(max_le_iff.1 h.1).2, (le_min_iff.1 h.2).2⟩,
          indicator_of_notMem fun h => h1 ⟨(max_le_iff.1 h.1).2, (le_min_iff.1 h.2).2⟩]
        simp
    refine ⟨((i1.sub i2).const_mul _).congr hae.symm, ?_⟩
    rw [integral_congr_ae hae, integral_const_mul, integral_sub i1 i2, v1, v2, if_pos ⟨hcd, hbM⟩, if_pos hbM]
  · have hae : (fun y => halfPlane M (a - y) b * below d y c) =ᵐ[volume] fun y => 1 / (8 * M * d) *
        (-indicator (Icc (Max.max (-d) (a - s)) (Min.min d (a + s))) (kern a b 0 d) y) := by
      filter_upwards [hz] with y hy
      have hy2 : 0 < y ^ 2 := by positivity
      rw [below_eq hd hc hy, halfPlane]
      simp only [hset, hb, true_and]
      by_cases h1 : a - s ≤ y ∧ y ≤ a + s
      · rw [if_pos h1]
        by_cases h2 : |y| ≤ d
        · have h2' := abs_le.1 h2
          rw [if_pos h2, indicator_of_mem (show y ∈ Icc (Max.max (-d) (a - s)) (Min.min d (a + s)) from ⟨max_le h2'.1 h1.1, le_min h2'.2 h1.2⟩), min_eq_right (by nlinarith), kern]
          rw [Real.log_div (by positivity) hy2.ne', Real.log_div (by simp [hy]) (by positivity)]
          have h5 : 0 < (y - a) ^ 2 + b ^ 2 := by positivity
          have h6 : (a - y) ^ 2 + b ^ 2 = (y - a) ^ 2 + b ^ 2 := by ring
          rw [h6, show y ^ 2 + (0 : ℝ) ^ 2 = y ^ 2 by ring]
          field_simp
          ring
        · rw [if_neg h2, indicator_of_notMem fun h => h2 (abs_le.2 ⟨(max_le_iff.1 h.1).1, (le_min_iff.1 h.2).1⟩)]
          simp
      · rw [if_neg h1, indicator_of_notMem fun h => h1 ⟨(max_le_iff.1 h.1).2, (le_min_iff.1 h.2).2⟩]
        simp
    refine ⟨(i2.neg.const_mul _).congr hae.symm, ?_⟩
    rw [integral_congr_ae hae, integral_const_mul, integral_neg, v2, if_neg fun h => hcd h.1, if_pos hbM, zero_sub]

/-! ### Scaling -/

theorem halfPlane_scale {k : ℝ} (hk : 0 < k) (m z r : ℝ) : halfPlane (k * m) (k * z) (k * r) = halfPlane m z r / k ^ 2 := by
  unfold halfPlane
  have h1 : 0 < k * r ↔ 0 < r := by constructor <;> intro h <;> [exact pos_of_mul_pos_right h hk.le; positivity]
  have h2 : (k * z) ^ 2 + (k * r) ^ 2 ≤ (k * m) ^ 2 ↔ z ^ 2 + r ^ 2 ≤ m ^ 2 := by
    rw [mul_pow, mul_pow, mul_pow, ← mul_add]
    exact mul_le_mul_iff_right₀ (by positivity)
  simp only [h1, h2]
  split_ifs with h
  · have : (k * z) ^ 2 + (k * r) ^ 2 = k ^ 2 * (z ^ 2 + r ^ 2) := by ring
    rw [this]
    by_cases hm : m = 0
    · simp [hm]
    have : 0 < z ^ 2 + r ^ 2 := by have := h.1; positivity
    field_simp
  · simp

theorem below_scale {k : ℝ} (hk : 0 < k) (m z R : ℝ) : below (k * m) (k * z) (k * R) = below m z R / k := by
  unfold below
  rw [← integral_indicator measurableSet_Ioo, ← integral_indicator measurableSet_Ioo]
  have h := Measure.integral_comp_mul_left (indicator (Ioo 0 (k * R)) (halfPlane (k * m) (k * z))) k
  have e : (fun x => indicator (Ioo 0 (k * R)) (halfPlane (k * m) (k * z)) (k * x)) = fun x => (k ^ 2)⁻¹ * indicator (Ioo 0 R) (halfPlane m z) x := by
    funext x
    have hiff : k * x ∈ Ioo 0 (k * R) ↔ x ∈ Ioo 0 R := by
      rw [mem_Ioo, mem_Ioo]
      constructor
      · rintro ⟨h1, h2⟩; exact ⟨pos_of_mul_pos_right h1 hk.le, lt_of_mul_lt_mul_left h2 hk.le⟩
      · rintro ⟨h1, h2⟩; exact ⟨by positivity, mul_lt_mul_of_pos_left h2 hk⟩
    by_cases hx : x ∈ Ioo 0 R
    · rw [indicator_of_mem (hiff.2 hx), indicator_of_mem hx, halfPlane_scale hk]
      ring
    · rw [indicator_of_notMem fun h => hx (hiff.1 h), indicator_of_notMem hx, mul_zero]
  rw [e, integral_const_mul, abs_of_pos (inv_pos.2 hk), smul_eq_mul] at h
  field_simp at h ⊢
  linarith

theorem jointDensity_scale {amax : ℝ} (ha : 0 < amax) (q x p : ℝ) :
    jointDensity q amax x p = jointDensity q 1 (x / amax) (p / amax) / amax ^ 2 := by
  unfold jointDensity
  simp only
  set k := (4 + 3 * q) / (3 + 4 * q)
  have h := Measure.integral_comp_mul_left (fun y => halfPlane amax ((1 + q) * x - y) p * below (q * amax) y (k * p)
    + k * (below amax ((1 + q) * x - y) p * halfPlane (q * amax) y (k * p))) amax
  rw [abs_of_pos (inv_pos.2 ha), smul_eq_mul] at h
  have e : (fun y => halfPlane amax ((1 + q) * x - amax * y) p * below (q * amax) (amax * y) (k * p)
      + k * (below amax ((1 + q) * x - amax * y) p * halfPlane (q * amax) (amax * y) (k * p)))
      = fun y => (amax ^ 3)⁻¹ * (halfPlane 1 ((1 + q) * (x / amax) - y) (p / amax) * below (q * 1) y (k * (p / amax))
      + k * (below 1 ((1 + q) * (x / amax) - y) (p / amax) * halfPlane (q * 1) y (k * (p / amax)))) := by
    funext y
    have e1 : (1 + q) * x - amax * y = amax * ((1 + q) * (x / amax) - y) := by field_simp
    have e2 : k * p = amax * (k * (p / amax)) := by field_simp
    have e3 := halfPlane_scale ha 1 ((1 + q) * (x / amax) - y) (p / amax)
    have e4 := below_scale ha 1 ((1 + q) * (x / amax) - y) (p / amax)
    have e5 := halfPlane_scale ha q y (k * (p / amax))
    have e6 := below_scale ha q y (k * (p / amax))
    have e7 : amax * (p / amax) = p := by field_simp
    rw [e7, mul_one] at e3 e4
    rw [e1, e2, mul_comm q amax, e3, e4, e5, e6, mul_one]
    field_simp
  rw [e, integral_const_mul] at h
  generalize (∫ y, halfPlane amax ((1 + q) * x - y) p * below (q * amax) y (k * p)
    + k * (below amax ((1 + q) * x - y) p * halfPlane (q * amax) y (k * p))) = A at h ⊢
  generalize (∫ y, halfPlane 1 ((1 + q) * (x / amax) - y) (p / amax) * below (q * 1) y (k * (p / amax))
    + k * (below 1 ((1 + q) * (x / amax) - y) (p / amax) * halfPlane (q * 1) y (k * (p / amax)))) = B at h ⊢
  have hA : A = B / amax ^ 2 := by
    field_simp at h ⊢
    linarith
  rw [hA]
  ring

end

end GW.SpinPriorJoint
