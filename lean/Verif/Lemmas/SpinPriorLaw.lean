import Verif.Lemmas.SpinPrior
import Mathlib.MeasureTheory.Measure.Haar.OfBasis
import Mathlib.MeasureTheory.Group.Convolution

namespace GW.SpinPrior
open GW XR MeasureTheory Set SpinPriorSpec Filter Topology
open scoped ENNReal

noncomputable section

theorem measurable_aligned (m : ℝ) : Measurable (aligned m) := by
  unfold aligned
  exact Measurable.ite (measurableSet_le (by fun_prop) (by fun_prop)) (by fun_prop) measurable_const

theorem aligned_nonneg {m : ℝ} (hm : 0 < m) (u : ℝ) : 0 ≤ aligned m u := by
  unfold aligned
  split_ifs with h
  · have h1 : |u| / m ≤ 1 := (div_le_one hm).2 h
    have := Real.log_nonpos (div_nonneg (abs_nonneg u) hm.le) h1
    exact div_nonneg (by linarith) (by linarith)
  · exact le_rfl

/-- Scaling the variable of an integral over the symmetric unit interval. -/
theorem lintegral_scale {r : ℝ} (hr : 0 < r) (f : ℝ → ℝ≥0∞) (hf : Measurable f) :
    ∫⁻ c in Icc (-1 : ℝ) 1, f (r * c) = ∫⁻ u, (if |u| ≤ r then ENNReal.ofReal r⁻¹ * f u else 0) := by
  have hS : MeasurableSet {u : ℝ | |u| ≤ r} := measurableSet_le (by fun_prop) measurable_const
  have hg : Measurable (indicator {u : ℝ | |u| ≤ r} f) := hf.indicator hS
  have e1 : ∫⁻ c in Icc (-1 : ℝ) 1, f (r * c) = ∫⁻ c, indicator {u : ℝ | |u| ≤ r} f (r * c) := by
    rw [← lintegral_indicator measurableSet_Icc]
    congr 1
    funext c
    have hiff : c ∈ Icc (-1 : ℝ) 1 ↔ r * c ∈ {u : ℝ | |u| ≤ r} := by
      rw [mem_Icc, ← abs_le, mem_ofPred_eq, abs_mul, abs_of_pos hr]
      constructor
      · intro h; nlinarith
      · intro h; nlinarith
    by_cases h : c ∈ Icc (-1 : ℝ) 1
    · rw [indicator_of_mem h, indicator_of_mem (hiff.1 h)]
    · rw [indicator_of_notMem h, indicator_of_notMem (fun h' => h (hiff.2 h'))]
  have e2 : ∫⁻ c, indicator {u : ℝ | |u| ≤ r} f (r * c) = ∫⁻ u, indicator {u : ℝ | |u| ≤ r} f u ∂(Measure.map (r * ·) volume) :=
    (lintegral_map hg (by fun_prop)).symm
  rw [e1, e2, Real.map_volume_mul_left hr.ne', lintegral_smul_measure, smul_eq_mul, ← lintegral_const_mul _ hg]
  congr 1
  funext u
  simp only [indicator, mem_ofPred_eq, abs_of_pos (inv_pos.2 hr)]
  split_ifs <;> simp

/-- The inner integral over the magnitude. -/
theorem lintegral_inv {k M v : ℝ} (hk : 0 < k) (hv : 0 < v) :
    ∫⁻ a in Icc 0 M, (if v ≤ k * a then ENNReal.ofReal (k * a)⁻¹ else 0)
      = if v ≤ k * M then ENNReal.ofReal (-Real.log (v / (k * M)) / k) else 0 := by
  have hsub : ∀ a : ℝ, (a ∈ Icc 0 M ∧ v ≤ k * a) ↔ a ∈ Icc (v / k) M := by
    intro a
    rw [mem_Icc, mem_Icc, div_le_iff₀' hk]
    constructor
    · rintro ⟨⟨-, h⟩, h'⟩; exact ⟨h', h⟩
    · rintro ⟨h', h⟩
      refine ⟨⟨?_, h⟩, h'⟩
      by_contra hn
      push Not at hn
      nlinarith
  rw [← lintegral_indicator measurableSet_Icc]
  have e : (indicator (Icc 0 M) fun a => if v ≤ k * a then ENNReal.ofReal (k * a)⁻¹ else 0)
      = indicator (Icc (v / k) M) fun a => ENNReal.ofReal (k * a)⁻¹ := by
    funext a
    by_cases h : a ∈ Icc (v / k) M
    · obtain ⟨h1, h2⟩ := (hsub a).2 h
      rw [indicator_of_mem h1, indicator_of_mem h, if_pos h2]
    · rw [indicator_of_notMem h]
      by_cases h1 : a ∈ Icc 0 M
      · rw [indicator_of_mem h1, if_neg fun h2 => h ((hsub a).1 ⟨h1, h2⟩)]
      · rw [indicator_of_notMem h1]
  rw [e, lintegral_indicator measurableSet_Icc]
  by_cases hM : v ≤ k * M
  · rw [if_pos hM]
    have hle : v / k ≤ M := by rwa [div_le_iff₀' hk]
    have h0 : 0 < v / k := div_pos hv hk
    have hM0 : 0 < M := h0.trans_le hle
    have hc : ContinuousOn (fun a : ℝ => (k * a)⁻¹) (Icc (v / k) M) := by
      refine ContinuousOn.inv₀ (by fun_prop) fun a ha => ?_
      exact (mul_pos hk (h0.trans_le ha.1)).ne'
    rw [← ofReal_integral_eq_lintegral_ofReal hc.integrableOn_Icc]
    · congr 1
      rw [integral_Icc_eq_integral_Ioc, ← intervalIntegral.integral_of_le hle]
      have : (fun a : ℝ => (k * a)⁻¹) = fun a => k⁻¹ * a⁻¹ := by funext a; rw [mul_inv]
      rw [this, intervalIntegral.integral_const_mul, integral_inv_of_pos h0 hM0]
      have h2 : v / (k * M) = (M / (v / k))⁻¹ := by
        rw [inv_div, div_div]
      rw [h2, Real.log_inv, neg_neg]
      ring
    · exact (ae_restrict_iff' measurableSet_Icc).2 (Eventually.of_forall fun a ha => by
        have : 0 < k * a := mul_pos hk (h0.trans_le ha.1)
        exact (inv_pos.2 this).le)
  · rw [if_neg hM, Icc_eq_empty (by rw [div_le_iff₀' hk]; exact hM)]
    simp

instance (a b : ℝ) : SFinite (uniform a b) := by unfold uniform; infer_instance

theorem lintegral_uniform (a b : ℝ) (f : ℝ → ℝ≥0∞) : ∫⁻ x, f x ∂(uniform a b) = (ENNReal.ofReal (b - a))⁻¹ * ∫⁻ x in Icc a b, f x := by
  rw [uniform, lintegral_smul_measure, smul_eq_mul]

/-- The law of one aligned spin component. -/
theorem component_law {k M : ℝ} (hk : 0 < k) (hM : 0 < M) :
    Measure.map (fun w : ℝ × ℝ => k * (w.1 * w.2)) ((uniform 0 M).prod (uniform (-1) 1))
      = volume.withDensity fun u => ENNReal.ofReal (aligned (k * M) u) := by
  refine Measure.ext_of_lintegral _ fun f hf => ?_
  rw [lintegral_map hf (by fun_prop), lintegral_prod _ (by fun_prop), lintegral_uniform,
    lintegral_withDensity_eq_lintegral_mul _ (measurable_aligned _).ennreal_ofReal hf]
  have h1 : ∀ a ∈ Ioc 0 M, (∫⁻ c, f (k * (a * c)) ∂(uniform (-1) 1))
      = (ENNReal.ofReal 2)⁻¹ * ∫⁻ u, (if |u| ≤ k * a then ENNReal.ofReal (k * a)⁻¹ * f u else 0) := by
    intro a ha
    rw [lintegral_uniform, show (1 : ℝ) - -1 = 2 by norm_num, ← lintegral_scale (mul_pos hk ha.1) f hf]
    simp only [mul_assoc]
  have hmeas : Measurable (Function.uncurry fun (a u : ℝ) => if |u| ≤ k * a then ENNReal.ofReal (k * a)⁻¹ * f u else 0) := by
    unfold Function.uncurry
    exact Measurable.ite (measurableSet_le (by fun_prop) (by fun_prop)) (by fun_prop) measurable_const
  have h2 : ∫⁻ a in Icc 0 M, (∫⁻ c, f (k * (a * c)) ∂(uniform (-1) 1))
      = (ENNReal.ofReal 2)⁻¹ * ∫⁻ a in Icc 0 M, ∫⁻ u, (if |u| ≤ k * a then ENNReal.ofReal (k * a)⁻¹ * f u else 0) := by
    have hm2 : Measurable fun a => ∫⁻ u, (if |u| ≤ k * a then ENNReal.ofReal (k * a)⁻¹ * f u else 0) := hmeas.lintegral_prod_right'
    rw [← lintegral_const_mul _ hm2, ← restrict_Ioc_eq_restrict_Icc]
    exact setLIntegral_congr_fun measurableSet_Ioc h1
  rw [h2, lintegral_lintegral_swap hmeas.aemeasurable]
  have h3 : ∀ u : ℝ, u ≠ 0 → (∫⁻ a in Icc 0 M, (if |u| ≤ k * a then ENNReal.ofReal (k * a)⁻¹ * f u else 0))
      = (if |u| ≤ k * M then ENNReal.ofReal (-Real.log (|u| / (k * M)) / k) else 0) * f u := by
    intro u hu
    rw [← lintegral_inv hk (abs_pos.2 hu), ← lintegral_mul_const]
    · congr 1
      funext a
      split_ifs <;> simp
    · exact Measurable.ite (measurableSet_le (by fun_prop) (by fun_prop)) (by fun_prop) measurable_const
  have h0 : ∀ᵐ u : ℝ, u ≠ 0 := by simp [ae_iff]
  rw [lintegral_congr_ae (h0.mono fun u hu => h3 u hu), ← lintegral_const_mul, ← lintegral_const_mul]
  · congr 1
    funext u
    simp only [Pi.mul_apply, aligned, sub_zero]
    rw [← mul_assoc, ← mul_assoc]
    congr 1
    split_ifs with h
    · rw [← ENNReal.ofReal_inv_of_pos hM, ← ENNReal.ofReal_inv_of_pos two_pos, ← ENNReal.ofReal_mul (by positivity),
        ← ENNReal.ofReal_mul (by positivity)]
      congr 1
      field_simp
    · simp
  · refine Measurable.const_mul (Measurable.mul (Measurable.ite (measurableSet_le (by fun_prop) (by fun_prop)) (by fun_prop) measurable_const) hf) _
  · refine Measurable.mul (Measurable.ite (measurableSet_le (by fun_prop) (by fun_prop)) (by fun_prop) measurable_const) hf

/-- The law of the effective spin is a convolution. -/
theorem chiEff_law {q amax : ℝ} (hq : 0 < q) (ha : 0 < amax) :
    Measure.map (chiEff q) (spins amax) = volume.withDensity fun x =>
      ∫⁻ y, ENNReal.ofReal (aligned (q * amax / (1 + q)) y) * ENNReal.ofReal (aligned (amax / (1 + q)) (x - y)) := by
  have h1 : (0 : ℝ) < 1 + q := by linarith
  have e : chiEff q = (fun x : ℝ × ℝ => x.1 + x.2) ∘ Prod.map (fun w : ℝ × ℝ => 1 / (1 + q) * (w.1 * w.2)) fun w : ℝ × ℝ => q / (1 + q) * (w.1 * w.2) := by
    funext w
    simp only [chiEff, Function.comp, Prod.map]
    ring
  rw [e, ← Measure.map_map (by fun_prop) (by fun_prop), spins, ← Measure.map_prod_map _ _ (by fun_prop) (by fun_prop),
    component_law (by positivity) ha, component_law (by positivity) ha]
  have hc := Measure.conv_comm (volume.withDensity fun u => ENNReal.ofReal (aligned (1 / (1 + q) * amax) u))
    (volume.withDensity fun u => ENNReal.ofReal (aligned (q / (1 + q) * amax) u))
  have hd := conv_withDensity_eq_lconvolution (μ := volume) (measurable_aligned (q / (1 + q) * amax)).ennreal_ofReal
    (measurable_aligned (1 / (1 + q) * amax)).ennreal_ofReal
  rw [← hc] at hd
  refine Eq.trans hd ?_
  congr 1
  funext x
  rw [lconvolution_def]
  refine lintegral_congr fun y => ?_
  rw [show -y + x = x - y by ring, show q / (1 + q) * amax = q * amax / (1 + q) by ring, show 1 / (1 + q) * amax = amax / (1 + q) by ring]

end

end GW.SpinPrior
