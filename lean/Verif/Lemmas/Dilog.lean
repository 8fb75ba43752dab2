import Verif.Model.SpinPriorJoint
import Mathlib.Analysis.Calculus.ParametricIntervalIntegral
import Mathlib.Analysis.SpecialFunctions.Complex.LogDeriv
import Mathlib.Analysis.Calculus.DSlope
import Mathlib.Analysis.Complex.Convex
import Mathlib.MeasureTheory.Integral.IntervalIntegral.FundThmCalculus

/-!
# The complex dilogarithm: derivative on the slit plane
-/

namespace GW.SpinPriorJoint
open GW MeasureTheory Set Filter Topology

noncomputable section

theorem slit_segment {z : ℂ} (h : 1 - z ∈ Complex.slitPlane) {t : ℝ} (h0 : 0 ≤ t) (h1 : t ≤ 1) : 1 - t * z ∈ Complex.slitPlane := by
  have := Complex.starConvex_one_slitPlane h (show 0 ≤ 1 - t by linarith) h0 (by ring)
  convert this using 1
  simp only [Complex.real_smul]
  push_cast
  ring

theorem hasDerivAt_log_segment {z : ℂ} (h : 1 - z ∈ Complex.slitPlane) {t : ℝ} (h0 : 0 ≤ t) (h1 : t ≤ 1) :
    HasDerivAt (fun s : ℝ => Complex.log (1 - s * z)) (-z / (1 - t * z)) t := by
  have h2 : HasDerivAt (fun s : ℝ => 1 - (s : ℂ) * z) (-z) t := by
    have := ((Complex.ofRealCLM.hasDerivAt (x := t)).mul_const z).const_sub 1
    simpa using this
  exact h2.clog_real (slit_segment h h0 h1)

theorem integrable_li2C {z : ℂ} (h : 1 - z ∈ Complex.slitPlane) :
    IntervalIntegrable (fun t : ℝ => Complex.log (1 - t * z) / t) volume 0 1 := by
  have hd : ∀ t ∈ Icc (0 : ℝ) 1, DifferentiableAt ℝ (fun s : ℝ => Complex.log (1 - s * z)) t :=
    fun t ht => (hasDerivAt_log_segment h ht.1 ht.2).differentiableAt
  have hc : ContinuousOn (dslope (fun s : ℝ => Complex.log (1 - s * z)) 0) (Icc 0 1) := by
    intro t ht
    by_cases h0 : t = 0
    · subst h0
      exact (continuousAt_dslope_same.2 (hd 0 ⟨le_rfl, zero_le_one⟩)).continuousWithinAt
    · exact ((continuousAt_dslope_of_ne h0).2 (hd t ht).continuousAt).continuousWithinAt
  have hi : IntervalIntegrable (dslope (fun s : ℝ => Complex.log (1 - s * z)) 0) volume 0 1 :=
    ContinuousOn.intervalIntegrable (by rwa [uIcc_of_le zero_le_one])
  refine hi.congr fun t ht => ?_
  rw [uIoc_of_le zero_le_one] at ht
  show dslope _ 0 t = _
  rw [dslope_of_ne _ ht.1.ne', slope_def_module]
  simp only [sub_zero, Complex.ofReal_zero, zero_mul, Complex.log_one, Complex.real_smul, Complex.ofReal_inv]
  rw [div_eq_inv_mul]

theorem hasDerivAt_li2C' {z : ℂ} (h : 1 - z ∈ Complex.slitPlane) :
    HasDerivAt li2C (∫ t in (0 : ℝ)..1, 1 / (1 - t * z)) z := by
  have hU : IsOpen {w : ℂ | 1 - w ∈ Complex.slitPlane} := Complex.isOpen_slitPlane.preimage (by fun_prop)
  obtain ⟨r, hr, hball⟩ := Metric.nhds_basis_closedBall.mem_iff.1 (hU.mem_nhds h)
  have hcont : ContinuousOn (fun p : ℂ × ℝ => -1 / (1 - (p.2 : ℂ) * p.1)) (Metric.closedBall z r ×ˢ Icc (0 : ℝ) 1) := by
    refine ContinuousOn.div continuousOn_const (by fun_prop) ?_
    rintro ⟨w, t⟩ ⟨hw, ht⟩
    exact Complex.slitPlane_ne_zero (slit_segment (hball hw) ht.1 ht.2)
  obtain ⟨C, hC⟩ := ((isCompact_closedBall z r).prod isCompact_Icc).exists_bound_of_continuousOn hcont
  have key := (intervalIntegral.hasDerivAt_integral_of_dominated_loc_of_deriv_le (𝕜 := ℂ) (μ := volume) (a := (0 : ℝ)) (b := 1)
    (F := fun w (t : ℝ) => Complex.log (1 - t * w) / t) (F' := fun w (t : ℝ) => -1 / (1 - t * w)) (x₀ := z) (s := Metric.closedBall z r)
    (bound := fun _ => C) (Metric.closedBall_mem_nhds z hr) ?_ (integrable_li2C h) ?_ ?_ ?_ ?_).2
  · have := key.neg
    refine this.congr_deriv ?_
    rw [← intervalIntegral.integral_neg]
    refine intervalIntegral.integral_congr fun t _ => ?_
    show -(-1 / (1 - (t : ℂ) * z)) = _
    ring
  · filter_upwards [Metric.closedBall_mem_nhds z hr] with w hw
    exact (uIoc_of_le (zero_le_one (α := ℝ)) ▸ (integrable_li2C (hball hw)).1.aestronglyMeasurable)
  · refine ContinuousOn.aestronglyMeasurable ?_ measurableSet_uIoc
    refine ContinuousOn.div continuousOn_const (by fun_prop) fun t ht => ?_
    rw [uIoc_of_le zero_le_one] at ht
    exact Complex.slitPlane_ne_zero (slit_segment h ht.1.le ht.2)
  · refine Eventually.of_forall fun t ht w hw => ?_
    rw [uIoc_of_le zero_le_one] at ht
    exact hC (w, t) ⟨hw, ht.1.le, ht.2⟩
  · exact intervalIntegrable_const
  · refine Eventually.of_forall fun t ht w hw => ?_
    rw [uIoc_of_le zero_le_one] at ht
    have h1 : HasDerivAt (fun w : ℂ => 1 - (t : ℂ) * w) (-(t : ℂ)) w := by
      simpa using ((hasDerivAt_id w).const_mul (t : ℂ)).const_sub 1
    have h2 := (h1.clog (slit_segment (hball hw) ht.1.le ht.2)).div_const (t : ℂ)
    refine h2.congr_deriv ?_
    have : (t : ℂ) ≠ 0 := by exact_mod_cast ht.1.ne'
    field_simp

theorem segment_integral {z : ℂ} (h : 1 - z ∈ Complex.slitPlane) : ∫ t in (0 : ℝ)..1, -z / (1 - t * z) = Complex.log (1 - z) := by
  have hint : IntervalIntegrable (fun t : ℝ => -z / (1 - t * z)) volume 0 1 := by
    refine ContinuousOn.intervalIntegrable ?_
    rw [uIcc_of_le zero_le_one]
    refine ContinuousOn.div continuousOn_const (by fun_prop) fun t ht => ?_
    exact Complex.slitPlane_ne_zero (slit_segment h ht.1 ht.2)
  have := intervalIntegral.integral_eq_sub_of_hasDerivAt (a := (0 : ℝ)) (b := 1) (f := fun s : ℝ => Complex.log (1 - s * z))
    (f' := fun t : ℝ => -z / (1 - t * z)) (fun t ht => by
      rw [uIcc_of_le zero_le_one] at ht
      exact hasDerivAt_log_segment h ht.1 ht.2) hint
  rw [this]
  simp

theorem hasDerivAt_li2C {z : ℂ} (h : 1 - z ∈ Complex.slitPlane) (h0 : z ≠ 0) :
    HasDerivAt li2C (-Complex.log (1 - z) / z) z := by
  refine (hasDerivAt_li2C' h).congr_deriv ?_
  rw [← segment_integral h]
  have : (fun t : ℝ => -z / (1 - (t : ℂ) * z)) = fun t : ℝ => -z * (1 / (1 - (t : ℂ) * z)) := by funext t; ring
  rw [this, intervalIntegral.integral_const_mul, eq_div_iff h0]
  ring

theorem li2C_zero : li2C 0 = 0 := by simp [li2C]

end

end GW.SpinPriorJoint
