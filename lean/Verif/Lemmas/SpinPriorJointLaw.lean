import Verif.Lemmas.SpinPriorJointValue
import Verif.Lemmas.SpinPriorLaw
import Mathlib.Analysis.SpecialFunctions.PolarCoord
import Mathlib.MeasureTheory.Function.JacobianOneDim

/-!
# The law of the effective and the precessing spin
-/

namespace GW.SpinPriorJoint
open GW XR MeasureTheory Set Filter Topology SpinPriorSpec
open scoped ENNReal

noncomputable section
open Classical

theorem measurable_halfPlane (m : ℝ) : Measurable fun p : ℝ × ℝ => halfPlane m p.1 p.2 := by
  unfold halfPlane
  have h1 : MeasurableSet {p : ℝ × ℝ | 0 < p.2} := measurableSet_lt measurable_const (by fun_prop)
  have h2 : MeasurableSet {p : ℝ × ℝ | p.1 ^ 2 + p.2 ^ 2 ≤ m ^ 2} := measurableSet_le (by fun_prop) (by fun_prop)
  exact Measurable.ite (h1.inter h2) (by fun_prop) measurable_const

theorem halfPlane_nonneg {m : ℝ} (hm : 0 ≤ m) (z r : ℝ) : 0 ≤ halfPlane m z r := by
  unfold halfPlane
  split_ifs with h
  · have := h.1
    positivity
  · exact le_rfl

/-- The half circle in place of the tilt cosine. -/
theorem lintegral_cos (f : ℝ → ℝ → ℝ≥0∞) : ∫⁻ c in Icc (-1 : ℝ) 1, f c √(1 - c ^ 2)
    = ∫⁻ θ in Ioo 0 Real.pi, ENNReal.ofReal (Real.sin θ) * f (Real.cos θ) (Real.sin θ) := by
  have himg : Real.cos '' Ioo 0 Real.pi = Ioo (-1) 1 := by
    have hI : Ioo 0 Real.pi = Ioo (Real.arccos 1) (Real.arccos (-1)) := by simp
    ext c
    constructor
    · rintro ⟨θ, hθ, rfl⟩
      have h1 := Real.cos_lt_cos_of_nonneg_of_le_pi le_rfl hθ.2.le hθ.1
      have h2 := Real.cos_lt_cos_of_nonneg_of_le_pi hθ.1.le le_rfl hθ.2
      rw [Real.cos_zero] at h1
      rw [Real.cos_pi] at h2
      exact ⟨h2, h1⟩
    · rintro ⟨h1, h2⟩
      refine ⟨Real.arccos c, ⟨Real.arccos_pos.2 h2, ?_⟩, Real.cos_arccos h1.le h2.le⟩
      refine lt_of_le_of_ne (Real.arccos_le_pi c) fun h => ?_
      rw [Real.arccos_eq_pi] at h
      linarith
  have h := lintegral_image_eq_lintegral_abs_deriv_mul (s := Ioo 0 Real.pi) measurableSet_Ioo (f := Real.cos) (f' := fun θ => -Real.sin θ)
    (fun θ _ => (Real.hasDerivAt_cos θ).hasDerivWithinAt) (Real.injOn_cos.mono Ioo_subset_Icc_self) (fun c => f c √(1 - c ^ 2))
  rw [himg] at h
  rw [← restrict_Ioo_eq_restrict_Icc, h]
  refine setLIntegral_congr_fun measurableSet_Ioo fun θ hθ => ?_
  have hs := Real.sin_pos_of_mem_Ioo hθ
  show ENNReal.ofReal |-Real.sin θ| * f (Real.cos θ) √(1 - Real.cos θ ^ 2) = _
  rw [abs_neg, abs_of_pos hs, show 1 - Real.cos θ ^ 2 = Real.sin θ ^ 2 by nlinarith [Real.sin_sq_add_cos_sq θ], Real.sqrt_sq hs.le]

theorem lintegral_mul_pos {k : ℝ} (hk : 0 < k) (h : ℝ → ℝ≥0∞) : ∫⁻ x, h x = ENNReal.ofReal k * ∫⁻ x, h (k * x) := by
  have e := Real.smul_map_volume_mul_left hk.ne'
  conv_lhs => rw [← e]
  rw [lintegral_smul_measure, abs_of_pos hk, smul_eq_mul]
  congr 1
  exact (Homeomorph.mulLeft₀ k hk.ne').measurableEmbedding.lintegral_map h

theorem lintegral_affine {k : ℝ} (hk : 0 < k) (y : ℝ) (h : ℝ → ℝ≥0∞) : ∫⁻ x, h x = ENNReal.ofReal k * ∫⁻ x, h (k * x - y) := by
  rw [← lintegral_mul_pos hk fun x => h (x - y)]
  exact (lintegral_sub_right_eq_self h y).symm

/-- The law of the aligned and the in-plane part of one isotropic spin. -/
theorem spin_law {k M : ℝ} (hk : 0 < k) (hM : 0 < M) :
    Measure.map (fun w : ℝ × ℝ => (k * (w.1 * w.2), k * (w.1 * √(1 - w.2 ^ 2)))) ((uniform 0 M).prod (uniform (-1) 1))
      = (volume : Measure (ℝ × ℝ)).withDensity fun p => ENNReal.ofReal (halfPlane (k * M) p.1 p.2) := by
  have hm : 0 < k * M := mul_pos hk hM
  refine Measure.ext_of_lintegral _ fun f hf => ?_
  rw [lintegral_map hf (by fun_prop), lintegral_prod _ (by fun_prop), SpinPrior.lintegral_uniform,
    lintegral_withDensity_eq_lintegral_mul _ (measurable_halfPlane _).ennreal_ofReal hf]
  let H : ℝ → ℝ≥0∞ := fun ρ => ∫⁻ θ in Ioo 0 Real.pi, ENNReal.ofReal (Real.sin θ) * f (ρ * Real.cos θ, ρ * Real.sin θ)
  have hL : ∀ a, (∫⁻ c, f (k * (a * c), k * (a * √(1 - c ^ 2))) ∂(uniform (-1) 1)) = (ENNReal.ofReal 2)⁻¹ * H (k * a) := by
    intro a
    rw [SpinPrior.lintegral_uniform, show (1 : ℝ) - -1 = 2 by norm_num, lintegral_cos fun c s => f (k * (a * c), k * (a * s))]
    simp only [H, mul_assoc]
  have hHm : Measurable H := by
    refine Measurable.lintegral_prod_right' (f := fun p : ℝ × ℝ => ENNReal.ofReal (Real.sin p.2) * f (p.1 * Real.cos p.2, p.1 * Real.sin p.2)) ?_
    fun_prop
  have hLtot : (ENNReal.ofReal (M - 0))⁻¹ * ∫⁻ a in Icc 0 M, ∫⁻ c, f (k * (a * c), k * (a * √(1 - c ^ 2))) ∂(uniform (-1) 1)
      = ENNReal.ofReal (1 / (2 * (k * M))) * ∫⁻ ρ in Ioc 0 (k * M), H ρ := by
    simp only [hL]
    rw [lintegral_const_mul _ (by fun_prop), ← restrict_Ioc_eq_restrict_Icc, ← lintegral_indicator measurableSet_Ioc, ← lintegral_indicator measurableSet_Ioc,
      lintegral_mul_pos hk (indicator (Ioc 0 (k * M)) H), ← mul_assoc, ← mul_assoc]
    congr 1
    · rw [sub_zero, ← ENNReal.ofReal_inv_of_pos hM, ← ENNReal.ofReal_inv_of_pos two_pos, ← ENNReal.ofReal_mul (by positivity), ← ENNReal.ofReal_mul (by positivity)]
      congr 1
      field_simp
    · congr 1
      funext a
      have hiff : a ∈ Ioc 0 M ↔ k * a ∈ Ioc 0 (k * M) := by
        rw [mem_Ioc, mem_Ioc, mul_le_mul_iff_right₀ hk, mul_pos_iff_of_pos_left hk]
      by_cases h : a ∈ Ioc 0 M
      · rw [indicator_of_mem h, indicator_of_mem (hiff.1 h)]
      · rw [indicator_of_notMem h, indicator_of_notMem fun h' => h (hiff.2 h')]
  rw [hLtot, ← lintegral_comp_polarCoord_symm]
  have hT : polarCoord.target = Ioi (0 : ℝ) ×ˢ Ioo (-Real.pi) Real.pi := rfl
  rw [hT]
  have hv : (volume : Measure (ℝ × ℝ)) = (volume : Measure ℝ).prod volume := rfl
  rw [hv, ← Measure.prod_restrict]
  have hmeas : Measurable fun p : ℝ × ℝ => ENNReal.ofReal p.1 • ((fun p : ℝ × ℝ => ENNReal.ofReal (halfPlane (k * M) p.1 p.2)) * f) (polarCoord.symm p) := by
    have h1 : Measurable fun p : ℝ × ℝ => polarCoord.symm p := by
      show Measurable fun p : ℝ × ℝ => (p.1 * Real.cos p.2, p.1 * Real.sin p.2)
      fun_prop
    have h2 := ((measurable_halfPlane (k * M)).ennreal_ofReal.mul hf).comp h1
    exact (measurable_fst.ennreal_ofReal).mul h2
  rw [lintegral_prod _ hmeas.aemeasurable, ← lintegral_const_mul _ hHm, ← lintegral_indicator measurableSet_Ioc, ← lintegral_indicator measurableSet_Ioi]
  congr 1
  funext ρ
  by_cases hρ : 0 < ρ
  · rw [indicator_of_mem (mem_Ioi.2 hρ)]
    have hpt : ∀ θ ∈ Ioo (-Real.pi) Real.pi, ENNReal.ofReal ρ • ((fun p : ℝ × ℝ => ENNReal.ofReal (halfPlane (k * M) p.1 p.2)) * f) (polarCoord.symm (ρ, θ))
        = indicator (Ioo 0 Real.pi) (fun θ => if ρ ≤ k * M then ENNReal.ofReal (1 / (2 * (k * M))) * (ENNReal.ofReal (Real.sin θ) * f (ρ * Real.cos θ, ρ * Real.sin θ)) else 0) θ := by
      intro θ hθ
      have hsymm : polarCoord.symm (ρ, θ) = (ρ * Real.cos θ, ρ * Real.sin θ) := rfl
      rw [hsymm, Pi.mul_apply, smul_eq_mul]
      have hsq : (ρ * Real.cos θ) ^ 2 + (ρ * Real.sin θ) ^ 2 = ρ ^ 2 := by
        have := Real.sin_sq_add_cos_sq θ
        nlinarith [this]
      have hle : ρ ^ 2 ≤ (k * M) ^ 2 ↔ ρ ≤ k * M := pow_le_pow_iff_left₀ hρ.le hm.le two_ne_zero
      simp only [halfPlane, hsq, hle]
      by_cases hp : θ ∈ Ioo 0 Real.pi
      · have hs := Real.sin_pos_of_mem_Ioo hp
        rw [indicator_of_mem hp]
        by_cases h2 : ρ ≤ k * M
        · rw [if_pos ⟨mul_pos hρ hs, h2⟩, if_pos h2, ← mul_assoc (ENNReal.ofReal ρ), ← mul_assoc (ENNReal.ofReal (1 / (2 * (k * M)))), ← ENNReal.ofReal_mul hρ.le,
            ← ENNReal.ofReal_mul (by positivity)]
          congr 2
          field_simp
        · rw [if_neg fun h => h2 h.2, if_neg h2]
          simp
      · rw [indicator_of_notMem hp, if_neg]
        · simp
        · rintro ⟨h1, -⟩
          apply hp
          refine ⟨?_, hθ.2⟩
          by_contra hn
          push Not at hn
          have := Real.sin_nonpos_of_nonpos_of_neg_pi_le hn hθ.1.le
          nlinarith
    rw [setLIntegral_congr_fun measurableSet_Ioo hpt, setLIntegral_indicator measurableSet_Ioo,
      inter_eq_left.2 (Ioo_subset_Ioo_left (by linarith [Real.pi_pos]))]
    by_cases h2 : ρ ≤ k * M
    · rw [indicator_of_mem (show ρ ∈ Ioc 0 (k * M) from ⟨hρ, h2⟩)]
      simp only [if_pos h2, H]
      rw [lintegral_const_mul]
      fun_prop
    · rw [indicator_of_notMem fun h => h2 h.2]
      simp only [if_neg h2, lintegral_zero]
  · rw [indicator_of_notMem fun h => hρ h.1, indicator_of_notMem (show ρ ∉ Ioi (0 : ℝ) from hρ)]

/-! ### The sum of the aligned parts and the larger in-plane part -/

/-- The mass below `R` along the second coordinate. -/
def mass (f : ℝ × ℝ → ℝ≥0∞) (z R : ℝ) : ℝ≥0∞ := ∫⁻ r in Iio R, f (z, r)

theorem measurable_mass {f : ℝ × ℝ → ℝ≥0∞} (hf : Measurable f) : Measurable fun p : ℝ × ℝ => mass f p.1 p.2 := by
  have h : (fun p : ℝ × ℝ => mass f p.1 p.2) = fun p : ℝ × ℝ => ∫⁻ r, (if r < p.2 then f (p.1, r) else 0) := by
    funext p
    rw [mass, ← lintegral_indicator measurableSet_Iio]
    rfl
  rw [h]
  refine Measurable.lintegral_prod_right' (f := fun w : (ℝ × ℝ) × ℝ => if w.2 < w.1.2 then f (w.1.1, w.2) else 0) ?_
  exact Measurable.ite (measurableSet_lt (by fun_prop) (by fun_prop)) (by fun_prop) measurable_const

/-- The density of `((z₁ + z₂) / c, max r₁ (r₂ / k))`. -/
def maxDensity (c k : ℝ) (f₁ f₂ : ℝ × ℝ → ℝ≥0∞) (x p : ℝ) : ℝ≥0∞ :=
  ENNReal.ofReal c * ∫⁻ y, (f₁ (c * x - y, p) * mass f₂ y (k * p) + ENNReal.ofReal k * (mass f₁ (c * x - y) p * f₂ (y, k * p)))

theorem max_first {c k : ℝ} (hc : 0 < c) {f₁ f₂ : ℝ × ℝ → ℝ≥0∞} (h₁ : Measurable f₁) (h₂ : Measurable f₂)
    {h : ℝ × ℝ → ℝ≥0∞} (hh : Measurable h) :
    ∫⁻ z₁, ∫⁻ r₁, ∫⁻ z₂, f₁ (z₁, r₁) * (mass f₂ z₂ (k * r₁) * h ((z₁ + z₂) / c, r₁))
      = ∫⁻ x, ∫⁻ p, ENNReal.ofReal c * (∫⁻ y, f₁ (c * x - y, p) * mass f₂ y (k * p)) * h (x, p) := by
  have hm2 := measurable_mass h₂
  have hK : Measurable fun w : ℝ × ℝ × ℝ => f₁ (w.1, w.2.1) * (mass f₂ w.2.2 (k * w.2.1) * h ((w.1 + w.2.2) / c, w.2.1)) := by
    have := hm2.comp (f := fun w : ℝ × ℝ × ℝ => (w.2.2, k * w.2.1)) (by fun_prop)
    exact (by fun_prop : Measurable fun w : ℝ × ℝ × ℝ => f₁ (w.1, w.2.1)).mul (this.mul (by fun_prop))
  have s1 : ∫⁻ z₁, ∫⁻ r₁, ∫⁻ z₂, f₁ (z₁, r₁) * (mass f₂ z₂ (k * r₁) * h ((z₁ + z₂) / c, r₁))
      = ∫⁻ r₁, ∫⁻ z₁, ∫⁻ z₂, f₁ (z₁, r₁) * (mass f₂ z₂ (k * r₁) * h ((z₁ + z₂) / c, r₁)) := by
    refine lintegral_lintegral_swap (Measurable.aemeasurable ?_)
    exact Measurable.lintegral_prod_right' (f := fun w : (ℝ × ℝ) × ℝ => f₁ (w.1.1, w.1.2) * (mass f₂ w.2 (k * w.1.2) * h ((w.1.1 + w.2) / c, w.1.2)))
      (hK.comp (f := fun w : (ℝ × ℝ) × ℝ => (w.1.1, w.1.2, w.2)) (by fun_prop))
  have s2 : ∀ r₁, ∫⁻ z₁, ∫⁻ z₂, f₁ (z₁, r₁) * (mass f₂ z₂ (k * r₁) * h ((z₁ + z₂) / c, r₁))
      = ∫⁻ x, ENNReal.ofReal c * (∫⁻ y, f₁ (c * x - y, r₁) * mass f₂ y (k * r₁)) * h (x, r₁) := by
    intro r₁
    rw [lintegral_lintegral_swap]
    · have e : ∀ z₂, (∫⁻ z₁, f₁ (z₁, r₁) * (mass f₂ z₂ (k * r₁) * h ((z₁ + z₂) / c, r₁)))
          = ENNReal.ofReal c * ∫⁻ x, f₁ (c * x - z₂, r₁) * (mass f₂ z₂ (k * r₁) * h (x, r₁)) := by
        intro z₂
        rw [lintegral_affine hc z₂]
        congr 1
        refine lintegral_congr fun x => ?_
        rw [show (c * x - z₂ + z₂) / c = x by field_simp; ring]
      simp only [e]
      have hmz : Measurable fun w : ℝ × ℝ => f₁ (c * w.2 - w.1, r₁) * (mass f₂ w.1 (k * r₁) * h (w.2, r₁)) := by
        have := hm2.comp (f := fun w : ℝ × ℝ => (w.1, k * r₁)) (by fun_prop)
        exact (by fun_prop : Measurable fun w : ℝ × ℝ => f₁ (c * w.2 - w.1, r₁)).mul (this.mul (by fun_prop))
      rw [lintegral_const_mul _ hmz.lintegral_prod_right', lintegral_lintegral_swap hmz.aemeasurable, ← lintegral_const_mul]
      · refine lintegral_congr fun x => ?_
        rw [mul_assoc]
        congr 1
        rw [← lintegral_mul_const]
        · refine lintegral_congr fun y => ?_
          rw [mul_assoc]
        · have := hm2.comp (f := fun y : ℝ => (y, k * r₁)) (by fun_prop)
          exact (by fun_prop : Measurable fun y : ℝ => f₁ (c * x - y, r₁)).mul this
      · exact (hmz.comp (measurable_swap)).lintegral_prod_right'
    · exact (hK.comp (f := fun w : ℝ × ℝ => (w.1, r₁, w.2)) (by fun_prop)).aemeasurable
  rw [s1]
  simp only [s2]
  refine lintegral_lintegral_swap (Measurable.aemeasurable ?_)
  have hin : Measurable fun w : ℝ × ℝ => ∫⁻ y, f₁ (c * w.2 - y, w.1) * mass f₂ y (k * w.1) := by
    refine Measurable.lintegral_prod_right' (f := fun w : (ℝ × ℝ) × ℝ => f₁ (c * w.1.2 - w.2, w.1.1) * mass f₂ w.2 (k * w.1.1)) ?_
    have := hm2.comp (f := fun w : (ℝ × ℝ) × ℝ => (w.2, k * w.1.1)) (by fun_prop)
    exact (by fun_prop : Measurable fun w : (ℝ × ℝ) × ℝ => f₁ (c * w.1.2 - w.2, w.1.1)).mul this
  exact (hin.const_mul _).mul (by fun_prop)

theorem mass_Iic (f : ℝ × ℝ → ℝ≥0∞) (z R : ℝ) : ∫⁻ r in Iic R, f (z, r) = mass f z R := by
  rw [mass, restrict_Iio_eq_restrict_Iic]

theorem max_second {c k : ℝ} (hc : 0 < c) (hk : 0 < k) {f₁ f₂ : ℝ × ℝ → ℝ≥0∞} (h₁ : Measurable f₁) (h₂ : Measurable f₂)
    {h : ℝ × ℝ → ℝ≥0∞} (hh : Measurable h) :
    ∫⁻ z₂, ∫⁻ r₂, ∫⁻ z₁, f₂ (z₂, r₂) * (mass f₁ z₁ (r₂ / k) * h ((z₁ + z₂) / c, r₂ / k))
      = ∫⁻ x, ∫⁻ p, ENNReal.ofReal c * (∫⁻ y, ENNReal.ofReal k * (mass f₁ (c * x - y) p * f₂ (y, k * p))) * h (x, p) := by
  have hm1 := measurable_mass h₁
  have key := max_first (k := 1 / k) hc h₂ h₁ (h := fun w => h (w.1, w.2 / k)) (by fun_prop)
  have e1 : ∀ z₂ r₂ z₁ : ℝ, f₂ (z₂, r₂) * (mass f₁ z₁ (r₂ / k) * h ((z₁ + z₂) / c, r₂ / k))
      = f₂ (z₂, r₂) * (mass f₁ z₁ (1 / k * r₂) * h ((z₂ + z₁) / c, r₂ / k)) := by
    intro z₂ r₂ z₁
    rw [add_comm z₁ z₂, show 1 / k * r₂ = r₂ / k by ring]
  simp only [e1]
  refine key.trans (lintegral_congr fun x => ?_)
  rw [lintegral_mul_pos hk, ← lintegral_const_mul]
  · refine lintegral_congr fun p => ?_
    have e2 : k * p / k = p := by field_simp
    have e3 : 1 / k * (k * p) = p := by field_simp
    show ENNReal.ofReal k * (ENNReal.ofReal c * (∫⁻ y, f₂ (c * x - y, k * p) * mass f₁ y (1 / k * (k * p))) * h (x, k * p / k)) = _
    rw [e2, e3, ← mul_assoc]
    congr 1
    rw [← mul_assoc, mul_comm (ENNReal.ofReal k), mul_assoc]
    congr 1
    rw [lintegral_const_mul]
    · congr 1
      rw [← lintegral_sub_left_eq_self _ (c * x)]
      refine lintegral_congr fun y => ?_
      rw [sub_sub_cancel, mul_comm]
    · have := hm1.comp (f := fun y : ℝ => (c * x - y, p)) (by fun_prop)
      exact this.mul (by fun_prop)
  · have hin : Measurable fun p : ℝ => ∫⁻ y, f₂ (c * x - y, k * p) * mass f₁ y (1 / k * (k * p)) := by
      refine Measurable.lintegral_prod_right' (f := fun w : ℝ × ℝ => f₂ (c * x - w.2, k * w.1) * mass f₁ w.2 (1 / k * (k * w.1))) ?_
      have := hm1.comp (f := fun w : ℝ × ℝ => (w.2, 1 / k * (k * w.1))) (by fun_prop)
      exact (by fun_prop : Measurable fun w : ℝ × ℝ => f₂ (c * x - w.2, k * w.1)).mul this
    exact (hin.const_mul _).mul (by fun_prop)

theorem measurable_maxDensity {c k : ℝ} {f₁ f₂ : ℝ × ℝ → ℝ≥0∞} (h₁ : Measurable f₁) (h₂ : Measurable f₂) :
    Measurable fun w : ℝ × ℝ => maxDensity c k f₁ f₂ w.1 w.2 := by
  have hm1 := measurable_mass h₁
  have hm2 := measurable_mass h₂
  unfold maxDensity
  refine Measurable.const_mul (Measurable.lintegral_prod_right' (f := fun w : (ℝ × ℝ) × ℝ =>
    f₁ (c * w.1.1 - w.2, w.1.2) * mass f₂ w.2 (k * w.1.2) + ENNReal.ofReal k * (mass f₁ (c * w.1.1 - w.2) w.1.2 * f₂ (w.2, k * w.1.2))) ?_) _
  have a1 := hm1.comp (f := fun w : (ℝ × ℝ) × ℝ => (c * w.1.1 - w.2, w.1.2)) (by fun_prop)
  have a2 := hm2.comp (f := fun w : (ℝ × ℝ) × ℝ => (w.2, k * w.1.2)) (by fun_prop)
  exact ((by fun_prop : Measurable fun w : (ℝ × ℝ) × ℝ => f₁ (c * w.1.1 - w.2, w.1.2)).mul a2).add ((a1.mul (by fun_prop)).const_mul _)

/-- Two independent pairs: the law of the scaled sum of the first coordinates and the larger of the scaled second coordinates. -/
theorem max_law {c k : ℝ} (hc : 0 < c) (hk : 0 < k) {f₁ f₂ : ℝ × ℝ → ℝ≥0∞} (h₁ : Measurable f₁) (h₂ : Measurable f₂)
    [SFinite ((volume : Measure (ℝ × ℝ)).withDensity f₁)] [SFinite ((volume : Measure (ℝ × ℝ)).withDensity f₂)] :
    Measure.map (fun w : (ℝ × ℝ) × ℝ × ℝ => ((w.1.1 + w.2.1) / c, Max.max w.1.2 (w.2.2 / k)))
        (((volume : Measure (ℝ × ℝ)).withDensity f₁).prod ((volume : Measure (ℝ × ℝ)).withDensity f₂))
      = (volume : Measure (ℝ × ℝ)).withDensity fun w => maxDensity c k f₁ f₂ w.1 w.2 := by
  have hm1 := measurable_mass h₁
  have hm2 := measurable_mass h₂
  have hv : (volume : Measure (ℝ × ℝ)) = (volume : Measure ℝ).prod volume := rfl
  refine Measure.ext_of_lintegral _ fun h hh => ?_
  rw [lintegral_map hh (by fun_prop), lintegral_prod _ (by fun_prop), lintegral_withDensity_eq_lintegral_mul _ (measurable_maxDensity h₁ h₂) hh]
  have hin : ∀ u₁ : ℝ × ℝ, (∫⁻ u₂, h ((u₁.1 + u₂.1) / c, Max.max u₁.2 (u₂.2 / k)) ∂((volume : Measure (ℝ × ℝ)).withDensity f₂))
      = (∫⁻ z₂, mass f₂ z₂ (k * u₁.2) * h ((u₁.1 + z₂) / c, u₁.2))
        + ∫⁻ z₂, ∫⁻ r₂, (if u₁.2 ≤ r₂ / k then f₂ (z₂, r₂) * h ((u₁.1 + z₂) / c, r₂ / k) else 0) := by
    intro u₁
    rw [lintegral_withDensity_eq_lintegral_mul _ h₂ (by fun_prop), hv, lintegral_prod _ (by fun_prop), ← lintegral_add_left]
    · refine lintegral_congr fun z₂ => ?_
      rw [mass, ← lintegral_mul_const _ (by fun_prop), ← lintegral_indicator measurableSet_Iio, ← lintegral_add_left]
      · refine lintegral_congr fun r₂ => ?_
        show f₂ (z₂, r₂) * h ((u₁.1 + z₂) / c, Max.max u₁.2 (r₂ / k)) = _
        by_cases hr : r₂ < k * u₁.2
        · have h1 : r₂ / k < u₁.2 := by rwa [div_lt_iff₀' hk]
          rw [indicator_of_mem (mem_Iio.2 hr), if_neg (not_le.2 h1), max_eq_left h1.le, add_zero]
        · have h1 : u₁.2 ≤ r₂ / k := by rw [le_div_iff₀' hk]; exact not_lt.1 hr
          rw [indicator_of_notMem (show r₂ ∉ Iio (k * u₁.2) from fun h => hr h), if_pos h1, max_eq_right h1, zero_add]
      · exact Measurable.indicator (by fun_prop) measurableSet_Iio
    · exact (hm2.comp (f := fun z₂ : ℝ => (z₂, k * u₁.2)) (by fun_prop)).mul (by fun_prop)
  simp only [hin]
  have hA : Measurable fun u₁ : ℝ × ℝ => ∫⁻ z₂, mass f₂ z₂ (k * u₁.2) * h ((u₁.1 + z₂) / c, u₁.2) := by
    refine Measurable.lintegral_prod_right' (f := fun w : (ℝ × ℝ) × ℝ => mass f₂ w.2 (k * w.1.2) * h ((w.1.1 + w.2) / c, w.1.2)) ?_
    exact (hm2.comp (f := fun w : (ℝ × ℝ) × ℝ => (w.2, k * w.1.2)) (by fun_prop)).mul (by fun_prop)
  have hBin : Measurable fun w : ((ℝ × ℝ) × ℝ) × ℝ => if w.1.1.2 ≤ w.2 / k then f₂ (w.1.2, w.2) * h ((w.1.1.1 + w.1.2) / c, w.2 / k) else 0 :=
    Measurable.ite (measurableSet_le (by fun_prop) (by fun_prop)) (by fun_prop) measurable_const
  have hB : Measurable fun u₁ : ℝ × ℝ => ∫⁻ z₂, ∫⁻ r₂, (if u₁.2 ≤ r₂ / k then f₂ (z₂, r₂) * h ((u₁.1 + z₂) / c, r₂ / k) else 0) :=
    Measurable.lintegral_prod_right' (f := fun w : (ℝ × ℝ) × ℝ => ∫⁻ r₂, (if w.1.2 ≤ r₂ / k then f₂ (w.2, r₂) * h ((w.1.1 + w.2) / c, r₂ / k) else 0))
      hBin.lintegral_prod_right'
  have hAB : Measurable fun u₁ : ℝ × ℝ => (∫⁻ z₂, mass f₂ z₂ (k * u₁.2) * h ((u₁.1 + z₂) / c, u₁.2))
      + ∫⁻ z₂, ∫⁻ r₂, (if u₁.2 ≤ r₂ / k then f₂ (z₂, r₂) * h ((u₁.1 + z₂) / c, r₂ / k) else 0) := hA.add hB
  rw [lintegral_withDensity_eq_lintegral_mul _ h₁ hAB]
  have hfA : Measurable fun u₁ : ℝ × ℝ => f₁ u₁ * ∫⁻ z₂, mass f₂ z₂ (k * u₁.2) * h ((u₁.1 + z₂) / c, u₁.2) := h₁.mul hA
  have hsplit : ∫⁻ u₁, (f₁ * fun u₁ : ℝ × ℝ => (∫⁻ z₂, mass f₂ z₂ (k * u₁.2) * h ((u₁.1 + z₂) / c, u₁.2))
      + ∫⁻ z₂, ∫⁻ r₂, (if u₁.2 ≤ r₂ / k then f₂ (z₂, r₂) * h ((u₁.1 + z₂) / c, r₂ / k) else 0)) u₁
      = (∫⁻ u₁, f₁ u₁ * ∫⁻ z₂, mass f₂ z₂ (k * u₁.2) * h ((u₁.1 + z₂) / c, u₁.2))
        + ∫⁻ u₁, f₁ u₁ * ∫⁻ z₂, ∫⁻ r₂, (if u₁.2 ≤ r₂ / k then f₂ (z₂, r₂) * h ((u₁.1 + z₂) / c, r₂ / k) else 0) := by
    rw [← lintegral_add_left hfA]
    refine lintegral_congr fun u => ?_
    rw [Pi.mul_apply, mul_add]
  have hfst : ∫⁻ u₁, f₁ u₁ * ∫⁻ z₂, mass f₂ z₂ (k * u₁.2) * h ((u₁.1 + z₂) / c, u₁.2)
      = ∫⁻ x, ∫⁻ p, ENNReal.ofReal c * (∫⁻ y, f₁ (c * x - y, p) * mass f₂ y (k * p)) * h (x, p) := by
    rw [← max_first hc h₁ h₂ hh, hv, lintegral_prod _ hfA.aemeasurable]
    refine lintegral_congr fun z₁ => lintegral_congr fun r₁ => ?_
    rw [← lintegral_const_mul]
    exact (hm2.comp (f := fun z₂ : ℝ => (z₂, k * r₁)) (by fun_prop)).mul (by fun_prop)
  have hsnd : ∫⁻ u₁, f₁ u₁ * ∫⁻ z₂, ∫⁻ r₂, (if u₁.2 ≤ r₂ / k then f₂ (z₂, r₂) * h ((u₁.1 + z₂) / c, r₂ / k) else 0)
      = ∫⁻ x, ∫⁻ p, ENNReal.ofReal c * (∫⁻ y, ENNReal.ofReal k * (mass f₁ (c * x - y) p * f₂ (y, k * p))) * h (x, p) := by
    rw [← max_second hc hk h₁ h₂ hh]
    have e1 : ∀ u₁ : ℝ × ℝ, f₁ u₁ * ∫⁻ z₂, ∫⁻ r₂, (if u₁.2 ≤ r₂ / k then f₂ (z₂, r₂) * h ((u₁.1 + z₂) / c, r₂ / k) else 0)
        = ∫⁻ u₂ : ℝ × ℝ, (if u₁.2 ≤ u₂.2 / k then f₁ u₁ * (f₂ u₂ * h ((u₁.1 + u₂.1) / c, u₂.2 / k)) else 0) := by
      intro u₁
      have hm : Measurable fun u₂ : ℝ × ℝ => if u₁.2 ≤ u₂.2 / k then f₂ u₂ * h ((u₁.1 + u₂.1) / c, u₂.2 / k) else 0 :=
        Measurable.ite (measurableSet_le (by fun_prop) (by fun_prop)) (by fun_prop) measurable_const
      have : ∫⁻ z₂, ∫⁻ r₂, (if u₁.2 ≤ r₂ / k then f₂ (z₂, r₂) * h ((u₁.1 + z₂) / c, r₂ / k) else 0)
          = ∫⁻ u₂ : ℝ × ℝ, (if u₁.2 ≤ u₂.2 / k then f₂ u₂ * h ((u₁.1 + u₂.1) / c, u₂.2 / k) else 0) := by
        rw [hv, lintegral_prod _ hm.aemeasurable]
      rw [this, ← lintegral_const_mul _ hm]
      refine lintegral_congr fun u₂ => ?_
      split_ifs <;> simp
    simp only [e1]
    have hm4 : Measurable fun w : (ℝ × ℝ) × ℝ × ℝ => if w.1.2 ≤ w.2.2 / k then f₁ w.1 * (f₂ w.2 * h ((w.1.1 + w.2.1) / c, w.2.2 / k)) else 0 :=
      Measurable.ite (measurableSet_le (by fun_prop) (by fun_prop)) (by fun_prop) measurable_const
    rw [lintegral_lintegral_swap hm4.aemeasurable]
    have hout : Measurable fun u₂ : ℝ × ℝ => ∫⁻ u₁ : ℝ × ℝ, (if u₁.2 ≤ u₂.2 / k then f₁ u₁ * (f₂ u₂ * h ((u₁.1 + u₂.1) / c, u₂.2 / k)) else 0) :=
      (hm4.comp measurable_swap).lintegral_prod_right'
    have e2 : ∀ u₂ : ℝ × ℝ, ∫⁻ u₁ : ℝ × ℝ, (if u₁.2 ≤ u₂.2 / k then f₁ u₁ * (f₂ u₂ * h ((u₁.1 + u₂.1) / c, u₂.2 / k)) else 0)
        = ∫⁻ z₁, f₂ u₂ * (mass f₁ z₁ (u₂.2 / k) * h ((z₁ + u₂.1) / c, u₂.2 / k)) := by
      intro u₂
      have hm : Measurable fun u₁ : ℝ × ℝ => if u₁.2 ≤ u₂.2 / k then f₁ u₁ * (f₂ u₂ * h ((u₁.1 + u₂.1) / c, u₂.2 / k)) else 0 :=
        Measurable.ite (measurableSet_le (by fun_prop) (by fun_prop)) (by fun_prop) measurable_const
      rw [hv, lintegral_prod _ hm.aemeasurable]
      refine lintegral_congr fun z₁ => ?_
      rw [← mass_Iic, mul_left_comm, ← lintegral_mul_const _ (by fun_prop), ← lintegral_indicator measurableSet_Iic]
      refine lintegral_congr fun r₁ => ?_
      by_cases hr : r₁ ≤ u₂.2 / k
      · rw [if_pos hr, indicator_of_mem (mem_Iic.2 hr)]
      · rw [if_neg hr, indicator_of_notMem (show r₁ ∉ Iic (u₂.2 / k) from fun h => hr h)]
    simp only [e2] at hout ⊢
    rw [hv, lintegral_prod _ hout.aemeasurable]
  rw [hsplit, hfst, hsnd]
  have hM1 : Measurable fun w : ℝ × ℝ => ∫⁻ y, f₁ (c * w.1 - y, w.2) * mass f₂ y (k * w.2) := by
    refine Measurable.lintegral_prod_right' (f := fun w : (ℝ × ℝ) × ℝ => f₁ (c * w.1.1 - w.2, w.1.2) * mass f₂ w.2 (k * w.1.2)) ?_
    exact (by fun_prop : Measurable fun w : (ℝ × ℝ) × ℝ => f₁ (c * w.1.1 - w.2, w.1.2)).mul
      (hm2.comp (f := fun w : (ℝ × ℝ) × ℝ => (w.2, k * w.1.2)) (by fun_prop))
  have hP : Measurable fun w : ℝ × ℝ => ENNReal.ofReal c * (∫⁻ y, f₁ (c * w.1 - y, w.2) * mass f₂ y (k * w.2)) * h (w.1, w.2) :=
    (hM1.const_mul _).mul (by fun_prop)
  rw [← lintegral_add_left hP.lintegral_prod_right', hv, lintegral_prod _ ((measurable_maxDensity h₁ h₂).mul hh).aemeasurable]
  refine lintegral_congr fun x => ?_
  have hPx : Measurable fun p : ℝ => ENNReal.ofReal c * (∫⁻ y, f₁ (c * x - y, p) * mass f₂ y (k * p)) * h (x, p) :=
    hP.comp (f := fun p : ℝ => (x, p)) (by fun_prop)
  refine (lintegral_add_left hPx _).symm.trans ?_
  refine lintegral_congr fun p => ?_
  rw [Pi.mul_apply, ← add_mul, ← mul_add, maxDensity, lintegral_add_left]
  exact (by fun_prop : Measurable fun y : ℝ => f₁ (c * x - y, p)).mul (hm2.comp (f := fun y : ℝ => (y, k * p)) (by fun_prop))

/-- The mass below `R` of the half-plane density is the integral the specification names. -/
theorem mass_halfPlane {m : ℝ} (hm : 0 < m) {z : ℝ} (hz : z ≠ 0) (R : ℝ) :
    mass (fun w => ENNReal.ofReal (halfPlane m w.1 w.2)) z R = ENNReal.ofReal (below m z R) := by
  have hint : Integrable (halfPlane m z) := by
    have hz2 : 0 < z ^ 2 := by positivity
    have hcont : Continuous fun r : ℝ => r / (2 * m * (z ^ 2 + r ^ 2)) := Continuous.div (by fun_prop) (by fun_prop) fun t => by positivity
    have hi := hcont.integrableOn_Icc (μ := volume) (a := 0) (b := m)
    have hm' : Measurable (halfPlane m z) := (measurable_halfPlane m).comp (f := fun r : ℝ => (z, r)) (by fun_prop)
    refine ((integrable_indicator_iff measurableSet_Icc).2 hi).mono' hm'.aestronglyMeasurable (Eventually.of_forall fun r => ?_)
    rw [Real.norm_of_nonneg (halfPlane_nonneg hm.le _ _)]
    unfold halfPlane
    split_ifs with h
    · have : r ∈ Icc 0 m := ⟨h.1.le, by
        have := h.2
        by_contra h'
        nlinarith [h.1, not_le.1 h']⟩
      rw [indicator_of_mem this]
    · refine indicator_nonneg (fun r hr => ?_) r
      have := hr.1
      positivity
  rw [below, ofReal_integral_eq_lintegral_ofReal hint.integrableOn (ae_of_all _ fun r => halfPlane_nonneg hm.le _ _), mass,
    ← lintegral_indicator measurableSet_Iio, ← lintegral_indicator measurableSet_Ioo]
  refine lintegral_congr fun r => ?_
  by_cases h : r < R
  · rw [indicator_of_mem (show r ∈ Iio R from h)]
    by_cases h0 : 0 < r
    · rw [indicator_of_mem (show r ∈ Ioo 0 R from ⟨h0, h⟩)]
    · rw [indicator_of_notMem (show r ∉ Ioo 0 R from fun h => h0 h.1), halfPlane_nonpos (not_lt.1 h0), ENNReal.ofReal_zero]
  · rw [indicator_of_notMem (show r ∉ Iio R from h), indicator_of_notMem (show r ∉ Ioo 0 R from fun h' => h h'.2)]

theorem below_nonneg {m : ℝ} (hm : 0 < m) (z R : ℝ) : 0 ≤ below m z R := integral_nonneg fun r => halfPlane_nonneg hm.le z r

theorem maxDensity_eq {q amax : ℝ} (hq : 0 < q) (ha : 0 < amax) (x p : ℝ) :
    maxDensity (1 + q) ((4 + 3 * q) / (3 + 4 * q)) (fun w => ENNReal.ofReal (halfPlane amax w.1 w.2))
      (fun w => ENNReal.ofReal (halfPlane (q * amax) w.1 w.2)) x p = ENNReal.ofReal (jointDensity q amax x p) := by
  have hqa : 0 < q * amax := mul_pos hq ha
  have hk : 0 < (4 + 3 * q) / (3 + 4 * q) := by positivity
  have h1q : 0 < 1 + q := by linarith
  set k := (4 + 3 * q) / (3 + 4 * q) with hkdef
  have hae : ∀ᵐ y : ℝ, y ≠ 0 ∧ (1 + q) * x - y ≠ 0 := by
    have e0 : ∀ᵐ y : ℝ, y ≠ 0 := by simp [ae_iff]
    have e1 : ∀ᵐ y : ℝ, y ≠ (1 + q) * x := by simp [ae_iff]
    filter_upwards [e0, e1] with y h0 h1
    exact ⟨h0, sub_ne_zero.2 h1.symm⟩
  by_cases hp : 0 < p
  · have hkp := mul_pos hk hp
    have i1 := (conv_eq ha hp hqa hkp ((1 + q) * x)).1
    have i2 := ((swap_eq ((1 + q) * x) hqa hkp ha hp).1).const_mul k
    have hi : Integrable fun y => halfPlane amax ((1 + q) * x - y) p * below (q * amax) y (k * p)
        + k * (below amax ((1 + q) * x - y) p * halfPlane (q * amax) y (k * p)) := i1.add i2
    rw [maxDensity, jointDensity]
    simp only
    rw [← hkdef, ENNReal.ofReal_mul h1q.le, ofReal_integral_eq_lintegral_ofReal hi]
    · congr 1
      refine lintegral_congr_ae ?_
      filter_upwards [hae] with y hy
      have n1 := halfPlane_nonneg ha.le ((1 + q) * x - y) p
      have n2 := halfPlane_nonneg hqa.le y (k * p)
      have n3 := below_nonneg ha ((1 + q) * x - y) p
      have n4 := below_nonneg hqa y (k * p)
      rw [mass_halfPlane hqa hy.1, mass_halfPlane ha hy.2, ENNReal.ofReal_add (mul_nonneg n1 n4) (by positivity), ENNReal.ofReal_mul n1,
        ENNReal.ofReal_mul hk.le, ENNReal.ofReal_mul n3]
    · refine Eventually.of_forall fun y => ?_
      have n1 := halfPlane_nonneg ha.le ((1 + q) * x - y) p
      have n2 := halfPlane_nonneg hqa.le y (k * p)
      have n3 := below_nonneg ha ((1 + q) * x - y) p
      have n4 := below_nonneg hqa y (k * p)
      show 0 ≤ _ + _
      positivity
  · have hp' := not_lt.1 hp
    have hkp : k * p ≤ 0 := mul_nonpos_of_nonneg_of_nonpos hk.le hp'
    rw [jointDensity_nonpos hq hp', maxDensity]
    simp [halfPlane_nonpos hp', halfPlane_nonpos hkp]

instance sfinite_uniform (a b : ℝ) : SFinite (uniform a b) := by unfold uniform; infer_instance

theorem joint_law {q amax : ℝ} (hq : 0 < q) (ha : 0 < amax) :
    Measure.map (fun w => (chiEff q w, chiP q w)) (spins amax)
      = (volume : Measure (ℝ × ℝ)).withDensity fun w => ENNReal.ofReal (jointDensity q amax w.1 w.2) := by
  have hk : 0 < (4 + 3 * q) / (3 + 4 * q) := by positivity
  have l1 := spin_law (k := 1) one_pos ha
  have l2 := spin_law hq ha
  rw [one_mul] at l1
  have : SFinite ((volume : Measure (ℝ × ℝ)).withDensity fun p => ENNReal.ofReal (halfPlane amax p.1 p.2)) := by rw [← l1]; infer_instance
  have : SFinite ((volume : Measure (ℝ × ℝ)).withDensity fun p => ENNReal.ofReal (halfPlane (q * amax) p.1 p.2)) := by rw [← l2]; infer_instance
  have key := max_law (show 0 < 1 + q by linarith) hk (f₁ := fun w => ENNReal.ofReal (halfPlane amax w.1 w.2))
    (f₂ := fun w => ENNReal.ofReal (halfPlane (q * amax) w.1 w.2)) (measurable_halfPlane _).ennreal_ofReal (measurable_halfPlane _).ennreal_ofReal
  simp only [maxDensity_eq hq ha] at key
  rw [← key, ← l1, ← l2, Measure.map_prod_map _ _ (by fun_prop) (by fun_prop), Measure.map_map (by fun_prop) (by fun_prop), spins]
  congr 1
  funext w
  simp only [Function.comp, Prod.map, chiEff, chiP]
  refine Prod.ext ?_ ?_
  · simp only
    ring
  · simp only
    congr 1
    · ring
    · have h1 : (4 + 3 * q) ≠ 0 := by positivity
      have h2 : (3 + 4 * q) ≠ 0 := by positivity
      field_simp

end

end GW.SpinPriorJoint
