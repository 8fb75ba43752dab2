import Verif.Spec.EccSage
import Verif.Props.Validation
import Verif.Lemmas.LawMeasurable

/-! Helper lemmas for the `ecc_matters` analysis as a whole. -/

namespace GW.EndToEnd
open GW XR MeasureTheory ProbabilityTheory GW.PyDict GW.Full
open GW.Likelihood (FRow)

noncomputable section
open Classical

variable {E : Eccentric}

/-- The events whose primary mass is not the lowest mass. -/
def Eccentric.usual (E : Eccentric) : Set (Event eccentricQuantities) := {x | quantity x "mass_1_source" ≠ E.mmin}

theorem ecc_measurable_quantity (name : String) : Measurable fun x : Event eccentricQuantities => quantity x name := by
  unfold quantity
  split_ifs with h
  · exact measurable_pi_apply _
  · exact measurable_const

theorem usual_measurable : MeasurableSet E.usual := (measurableSet_eq_fun (ecc_measurable_quantity _) measurable_const).compl

theorem usual_ae : ∀ᵐ x : Event eccentricQuantities, x ∈ E.usual := by
  have h : ∀ᵐ t : ℝ, t ≠ E.mmin := by
    rw [ae_iff]
    simp
  exact (Measure.quasiMeasurePreserving_eval (fun _ : Fin eccentricQuantities.length => (volume : Measure ℝ)) ⟨0, by decide⟩).ae h

/-! ## The value of the model -/

theorem numberOf_meant {params : Dict String (Guru.PVal XR)} {value : String → ℝ} (h : E.Meant params value) :
    let kw := Sage.meaning params [] fun n => fin (value n)
    numberOf kw "log_rate" = some E.logRate ∧ numberOf kw "alpha_m" = some E.slope ∧ numberOf kw "mmin" = some E.mmin ∧ numberOf kw "mmax" = some E.mmax ∧
    numberOf kw "loc" = some E.loc ∧ numberOf kw "scale" = some E.scale ∧ numberOf kw "low" = some E.low ∧ numberOf kw "high" = some E.high := by
  simp only [Eccentric.Meant, List.mem_cons, List.not_mem_nil, or_false, forall_eq_or_imp, forall_eq] at h
  obtain ⟨h1, h2, h3, h4, h5, h6, h7, h8⟩ := h
  simp only [numberOf, h1, h2, h3, h4, h5, h6, h7, h8, and_self]

theorem ecc_value {params : Dict String (Guru.PVal XR)} {value : String → ℝ} {validation : Bool} {feasible : List FRow → Nat → FRow} (hE : E.Proper) (h : E.Meant params value)
    (v : Option Bool) {x : Event eccentricQuantities} (hx : x ∈ E.usual) :
    let lp := (eccSageModel validation feasible v (Sage.meaning params [] fun n => fin (value n))).logProb (row x)
    IsLog lp ∧ expR lp = E.rate x := by
  obtain ⟨h1, h2, h3, h4, h5, h6, h7, h8⟩ := numberOf_meant h
  obtain ⟨p1, p2, p3, p4⟩ := hE
  obtain ⟨M, e1, e2⟩ := C63_eccentricity_matters_partial validation v (rate := E.logRate) (alphaM := E.slope) (loc := E.loc) p1 p2 p3 p4 (quantity x "mass_1_source")
    (quantity x "mass_2_source") (quantity x "eccentricity") hx
  have hrow : row x = [fin (quantity x "mass_1_source"), fin (quantity x "mass_2_source"), fin (quantity x "eccentricity")] := rfl
  simp only [eccSageModel, h1, h2, h3, h4, h5, h6, h7, h8, Option.bind_eq_bind, Option.bind_some, e1, hrow]
  exact e2

/-! ## The population -/

theorem measurable_wysocki (a lo hi : ℝ) : Measurable fun p : ℝ × ℝ => wysockiDensity a lo hi p.1 p.2 := by
  unfold wysockiDensity
  refine Measurable.ite ?_ ?_ measurable_const
  · exact ((measurableSet_le measurable_const measurable_snd).inter ((measurableSet_le measurable_snd measurable_fst).inter (measurableSet_le measurable_fst measurable_const)))
  · exact ((measurable_fst.pow_const _).div_const _).mul (measurable_const.div (measurable_fst.sub_const _))

theorem wysocki_nonneg {a lo hi : ℝ} (h0 : 0 < lo) (h : lo < hi) (m1 m2 : ℝ) : 0 ≤ wysockiDensity a lo hi m1 m2 := by
  unfold wysockiDensity
  split_ifs with hc
  · have hm : lo ≤ m1 := hc.1.trans hc.2.1
    have h1 : 0 ≤ m1 - lo := by linarith
    have hJ : 0 ≤ ∫ t in lo..hi, t ^ (-a) := intervalIntegral.integral_nonneg h.le fun t ht => Real.rpow_nonneg (by linarith [ht.1]) _
    have : 0 ≤ m1 ^ (-a) := Real.rpow_nonneg (by linarith) _
    positivity
  · exact le_rfl

theorem lintegral_wysocki {a lo hi : ℝ} (h0 : 0 < lo) (h : lo < hi) : ∫⁻ m1 : ℝ, ∫⁻ m2 : ℝ, ENNReal.ofReal (wysockiDensity a lo hi m1 m2) = 1 := by
  rw [← (Mass.C24_wysocki ⟨a, lo, hi, true⟩ h0 h rfl).1]
  have hne : ∀ᵐ m : ℝ, m ≠ lo := by
    rw [ae_iff]
    simp
  refine lintegral_congr_ae ?_
  filter_upwards [hne] with m1 hm1
  refine lintegral_congr fun m2 => ?_
  congr 1
  obtain ⟨-, hin, hout⟩ := wysocki_good (alphaM := a) h0 h true (m2 := m2) hm1
  cases hs : (Mass.Wysocki.mk a lo hi true).support (fin m1) (fin m2) with
  | true => exact (hin hs).2.symm
  | false =>
    have e : (Mass.Wysocki.mk a lo hi true).logProb (fin m1) (fin m2) = ninf := by
      simp only [Mass.Wysocki.logProb, Mass.validated, hs, if_true, select_false]
    rw [e, expR_ninf]
    exact hout hs

theorem Eccentric.rate_measurable : Measurable E.rate := by
  have h := (measurable_wysocki E.slope E.mmin E.mmax).comp ((ecc_measurable_quantity "mass_1_source").prodMk (ecc_measurable_quantity "mass_2_source"))
  exact (h.mul (Hybrids.measurable_restrictedNormal measurableSet_Icc (ecc_measurable_quantity "eccentricity"))).const_mul _

theorem Eccentric.rate_nonneg (hE : E.Proper) (x : Event eccentricQuantities) : 0 ≤ E.rate x :=
  mul_nonneg (Real.exp_pos _).le (mul_nonneg (wysocki_nonneg hE.1 hE.2.1 _ _) (Spin.restrictedNormal_nonneg _ _ _ _))

theorem lintegral_restricted (hE : E.Proper) : ∫⁻ e, ENNReal.ofReal (Spin.restrictedNormal E.loc E.scale (Set.Icc E.low E.high) e) = 1 := by
  have hi := (Spin.has_truncatedNormal (loc := E.loc) (low := some E.low) (high := some E.high) hE.2.2.1 (by simp [Spin.loX, Spin.hiX, hE.2.2.2]) true).integral
  have hi : ∫ e, Spin.restrictedNormal E.loc E.scale (Set.Icc E.low E.high) e = 1 := hi
  rw [← ofReal_integral_eq_lintegral_ofReal ?_ (Filter.Eventually.of_forall fun e => Spin.restrictedNormal_nonneg _ _ _ _), hi, ENNReal.ofReal_one]
  refine Integrable.of_integral_ne_zero ?_
  rw [hi]
  exact one_ne_zero

theorem Eccentric.lintegral_rate (hE : E.Proper) : ∫⁻ x, ENNReal.ofReal (E.rate x) = ENNReal.ofReal (Real.exp E.logRate) := by
  have e1 := (volume_preserving_piFinSuccAbove (fun _ : Fin 3 => ℝ) 2).symm.lintegral_comp_emb (MeasurableEquiv.measurableEmbedding _) fun x => ENNReal.ofReal (E.rate x)
  have e2 : ∀ p : ℝ × (Fin 2 → ℝ), ENNReal.ofReal (E.rate ((MeasurableEquiv.piFinSuccAbove (fun _ : Fin 3 => ℝ) 2).symm p)) =
      ENNReal.ofReal (Real.exp E.logRate) * (ENNReal.ofReal (Spin.restrictedNormal E.loc E.scale (Set.Icc E.low E.high) p.1) *
        ENNReal.ofReal (wysockiDensity E.slope E.mmin E.mmax (p.2 0) (p.2 1))) := by
    intro p
    rw [← ENNReal.ofReal_mul (Spin.restrictedNormal_nonneg _ _ _ _), ← ENNReal.ofReal_mul (Real.exp_pos _).le, mul_comm (Spin.restrictedNormal _ _ _ _)]
    rfl
  have m1 := (measurable_wysocki E.slope E.mmin E.mmax).ennreal_ofReal
  have m2 : Measurable fun e => ENNReal.ofReal (Spin.restrictedNormal E.loc E.scale (Set.Icc E.low E.high) e) :=
    (Hybrids.measurable_restrictedNormal measurableSet_Icc measurable_id).ennreal_ofReal
  have e3 := (volume_preserving_finTwoArrow ℝ).lintegral_comp_emb (MeasurableEquiv.measurableEmbedding _)
    fun p : ℝ × ℝ => ENNReal.ofReal (wysockiDensity E.slope E.mmin E.mmax p.1 p.2)
  rw [Measure.volume_eq_prod, lintegral_prod _ m1.aemeasurable, lintegral_wysocki hE.1 hE.2.1] at e3
  have e3 : ∫⁻ f : Fin 2 → ℝ, ENNReal.ofReal (wysockiDensity E.slope E.mmin E.mmax (f 0) (f 1)) = 1 := e3
  have m3 : Measurable fun f : Fin 2 → ℝ => ENNReal.ofReal (wysockiDensity E.slope E.mmin E.mmax (f 0) (f 1)) :=
    m1.comp (g := fun p : ℝ × ℝ => ENNReal.ofReal (wysockiDensity E.slope E.mmin E.mmax p.1 p.2)) (f := fun f : Fin 2 → ℝ => (f 0, f 1))
      ((measurable_pi_apply 0).prodMk (measurable_pi_apply 1))
  have m4 : Measurable fun p : ℝ × (Fin 2 → ℝ) => ENNReal.ofReal (Spin.restrictedNormal E.loc E.scale (Set.Icc E.low E.high) p.1) *
      ENNReal.ofReal (wysockiDensity E.slope E.mmin E.mmax (p.2 0) (p.2 1)) := (m2.comp measurable_fst).mul (m3.comp measurable_snd)
  refine e1.symm.trans ?_
  simp only [e2]
  rw [lintegral_const_mul _ m4, Measure.volume_eq_prod,
    lintegral_prod_mul m2.aemeasurable m3.aemeasurable, e3, lintegral_restricted hE, mul_one, mul_one]

theorem Eccentric.rate_integrable (hE : E.Proper) : Integrable E.rate := by
  refine ⟨E.rate_measurable.aestronglyMeasurable, ?_⟩
  rw [hasFiniteIntegral_iff_ofReal (Filter.Eventually.of_forall (E.rate_nonneg hE)), E.lintegral_rate hE]
  exact ENNReal.ofReal_lt_top

theorem Eccentric.integral_rate (hE : E.Proper) : ∫ x, E.rate x = Real.exp E.logRate := by
  rw [integral_eq_lintegral_of_nonneg_ae (Filter.Eventually.of_forall (E.rate_nonneg hE)) E.rate_measurable.aestronglyMeasurable, E.lintegral_rate hE,
    ENNReal.toReal_ofReal (Real.exp_pos _).le]

end
end GW.EndToEnd
