import Verif.Lemmas.SpinPriorJointLaw
import Verif.Props.SpinPrior

/-!
# C76: the joint prior of effective and precessing spin is the joint density for two isotropic spins
-/

namespace GW.SpinPriorJoint
open GW XR MeasureTheory Set SpinPriorSpec Filter
open GW.SpinPrior (Physical toDensity)
open scoped ENNReal

noncomputable section

/-- **C76** At every effective spin `x` and every precessing spin `p`, inside or outside the support, the value returned is the joint density: one in-plane
part equals `p`, the other is below it, and the aligned parts add up. -/
theorem C76_density {q amax : ℝ} (h : Physical q amax) (x p : ℝ) :
    jointPrior (fin x) (fin p) (fin q) (fin amax) = fin (jointDensity q amax x p) :=
  jointPrior_value h.q_pos h.q_le h.amax_pos x p

/-- Inside, on the boundary and outside the support, and at equal masses. -/
example : jointPrior (fin (1 / 10)) (fin (1 / 5)) (fin (1 / 2)) (fin 1) = fin (jointDensity (1 / 2) 1 (1 / 10) (1 / 5)) :=
  C76_density ⟨by norm_num, by norm_num, by norm_num⟩ _ _
example : jointPrior (fin 0) (fin 0) (fin 1) (fin (4 / 5)) = fin (jointDensity 1 (4 / 5) 0 0) :=
  C76_density ⟨by norm_num, by norm_num, by norm_num⟩ _ _
example : jointPrior (fin 0) (fin (3 / 10)) (fin 1) (fin 1) = fin (jointDensity 1 1 0 (3 / 10)) :=
  C76_density ⟨by norm_num, by norm_num, by norm_num⟩ _ _

/-- **C76** The value returned is a density of the joint law of the effective and the precessing spin of two independent spins with uniform magnitudes up to
`amax` and isotropic directions. -/
theorem C76_law {q amax : ℝ} (h : Physical q amax) :
    Measure.map (fun w => (chiEff q w, chiP q w)) (spins amax)
      = (volume : Measure (ℝ × ℝ)).withDensity fun w => toDensity (jointPrior (fin w.1) (fin w.2) (fin q) (fin amax)) := by
  rw [joint_law h.q_pos h.amax_pos]
  congr 1
  funext w
  rw [C76_density h, toDensity]

example : Measure.map (fun w => (chiEff (1 / 2) w, chiP (1 / 2) w)) (spins 1)
    = (volume : Measure (ℝ × ℝ)).withDensity fun w => toDensity (jointPrior (fin w.1) (fin w.2) (fin (1 / 2)) (fin 1)) :=
  C76_law ⟨by norm_num, by norm_num, by norm_num⟩

theorem uniform_univ {a b : ℝ} (hab : a < b) : uniform a b univ = 1 := by
  rw [uniform, Measure.smul_apply, Measure.restrict_apply MeasurableSet.univ, univ_inter, Real.volume_Icc, smul_eq_mul]
  exact ENNReal.inv_mul_cancel (by simpa using hab) ENNReal.ofReal_ne_top

theorem spins_univ {amax : ℝ} (ha : 0 < amax) : spins amax univ = 1 := by
  rw [spins, ← univ_prod_univ, Measure.prod_prod, ← univ_prod_univ, Measure.prod_prod, uniform_univ ha, uniform_univ (show (-1 : ℝ) < 1 by norm_num)]
  norm_num

/-- **C76** It integrates to one over the plane, so it is a normalised prior. -/
theorem C76_normalised {q amax : ℝ} (h : Physical q amax) :
    ∫⁻ w : ℝ × ℝ, toDensity (jointPrior (fin w.1) (fin w.2) (fin q) (fin amax)) = 1 := by
  have h1 := congrArg (fun μ => μ univ) (C76_law h)
  simp only [withDensity_apply _ MeasurableSet.univ, Measure.restrict_univ] at h1
  rw [← h1, Measure.map_apply (by unfold chiEff chiP; fun_prop) MeasurableSet.univ, preimage_univ, spins_univ h.amax_pos]

example : ∫⁻ w : ℝ × ℝ, toDensity (jointPrior (fin w.1) (fin w.2) (fin (3 / 4)) (fin (9 / 10))) = 1 :=
  C76_normalised ⟨by norm_num, by norm_num, by norm_num⟩

/-- **C76** The two priors of the code agree: integrating the joint prior over the precessing spin gives the effective-spin prior, for almost every effective
spin. -/
theorem C76_marginal {q amax : ℝ} (h : Physical q amax) (big : ℝ) :
    ∀ᵐ x : ℝ, ∫⁻ p : ℝ, toDensity (jointPrior (fin x) (fin p) (fin q) (fin amax))
      = toDensity (SpinPrior.chiEffPrior big (fin x) (fin q) (fin amax)) := by
  have hmeas : Measurable fun w : ℝ × ℝ => toDensity (jointPrior (fin w.1) (fin w.2) (fin q) (fin amax)) := by
    simp only [C76_density h, toDensity, ← maxDensity_eq h.q_pos h.amax_pos]
    exact measurable_maxDensity (measurable_halfPlane _).ennreal_ofReal (measurable_halfPlane _).ennreal_ofReal
  have hfst : Measure.map (chiEff q) (spins amax)
      = (volume : Measure ℝ).withDensity fun x => ∫⁻ p : ℝ, toDensity (jointPrior (fin x) (fin p) (fin q) (fin amax)) := by
    have h1 : Measure.map Prod.fst (Measure.map (fun w => (chiEff q w, chiP q w)) (spins amax)) = Measure.map (chiEff q) (spins amax) := by
      rw [Measure.map_map measurable_fst (by unfold chiEff chiP; fun_prop)]
      rfl
    rw [← h1, C76_law h]
    refine Measure.ext_of_lintegral _ fun f hf => ?_
    rw [lintegral_map hf measurable_fst, lintegral_withDensity_eq_lintegral_mul _ hmeas (by fun_prop),
      lintegral_withDensity_eq_lintegral_mul _ hmeas.lintegral_prod_right' hf]
    have hv : (volume : Measure (ℝ × ℝ)) = (volume : Measure ℝ).prod volume := rfl
    rw [hv, lintegral_prod _ (hmeas.mul (by fun_prop)).aemeasurable]
    refine lintegral_congr fun x => ?_
    simp only [Pi.mul_apply]
    exact lintegral_mul_const _ (hmeas.comp (f := fun p : ℝ => (x, p)) (by fun_prop))
  rw [SpinPrior.chiEff_law h.q_pos h.amax_pos] at hfst
  have hg : Measurable fun x => ∫⁻ y, ENNReal.ofReal (aligned (q * amax / (1 + q)) y) * ENNReal.ofReal (aligned (amax / (1 + q)) (x - y)) := by
    refine Measurable.lintegral_prod_right' (f := fun w : ℝ × ℝ =>
      ENNReal.ofReal (aligned (q * amax / (1 + q)) w.2) * ENNReal.ofReal (aligned (amax / (1 + q)) (w.1 - w.2))) ?_
    exact ((SpinPrior.measurable_aligned _).comp measurable_snd).ennreal_ofReal.mul
      ((SpinPrior.measurable_aligned _).comp (measurable_fst.sub measurable_snd)).ennreal_ofReal
  have e1 := (withDensity_eq_iff_of_sigmaFinite hg.aemeasurable hmeas.lintegral_prod_right'.aemeasurable).1 hfst
  filter_upwards [e1, SpinPrior.convolution_ae h big] with x h1 h2
  rw [← h2, h1]

example (big : ℝ) : ∀ᵐ x : ℝ, ∫⁻ p : ℝ, toDensity (jointPrior (fin x) (fin p) (fin (1 / 2)) (fin 1))
    = toDensity (SpinPrior.chiEffPrior big (fin x) (fin (1 / 2)) (fin 1)) :=
  C76_marginal ⟨by norm_num, by norm_num, by norm_num⟩ big

theorem below_even (m z R : ℝ) : below m (-z) R = below m z R := by simp [below, halfPlane]

/-- **C76** The value is the same for `-x` as for `x`: no direction of alignment is preferred. -/
theorem C76_symmetric {q amax : ℝ} (h : Physical q amax) (x p : ℝ) :
    jointPrior (fin (-x)) (fin p) (fin q) (fin amax) = jointPrior (fin x) (fin p) (fin q) (fin amax) := by
  have he : ∀ m z r : ℝ, halfPlane m (-z) r = halfPlane m z r := fun m z r => by simp [halfPlane]
  rw [C76_density h, C76_density h, jointDensity, jointDensity]
  congr 2
  rw [← integral_neg_eq_self]
  refine integral_congr_ae (Eventually.of_forall fun y => ?_)
  simp only
  rw [show (1 + q) * -x - -y = -((1 + q) * x - y) by ring, he, he, below_even, below_even]

example : jointPrior (fin (-(1 / 10))) (fin (1 / 5)) (fin (1 / 2)) (fin 1) = jointPrior (fin (1 / 10)) (fin (1 / 5)) (fin (1 / 2)) (fin 1) :=
  C76_symmetric ⟨by norm_num, by norm_num, by norm_num⟩ _ _

/-- **C76** Never NaN, infinite or negative, and zero when the precessing spin is not positive, when it exceeds `amax`, or when the effective spin exceeds
`amax` in magnitude. -/
theorem C76_support {q amax : ℝ} (h : Physical q amax) (x p : ℝ) :
    (∃ v, 0 ≤ v ∧ jointPrior (fin x) (fin p) (fin q) (fin amax) = fin v) ∧
      ((p ≤ 0 ∨ amax < p ∨ amax < |x|) → jointPrior (fin x) (fin p) (fin q) (fin amax) = fin 0) := by
  have hqa := mul_pos h.q_pos h.amax_pos
  have hk := kapR_pos h.q_pos
  have ha := h.amax_pos
  have h1q : 0 < 1 + q := by linarith [h.q_pos]
  refine ⟨⟨_, ?_, C76_density h x p⟩, fun hc => ?_⟩
  · rw [jointDensity]
    refine mul_nonneg h1q.le (integral_nonneg fun y => ?_)
    have n1 := halfPlane_nonneg ha.le ((1 + q) * x - y) p
    have n2 := halfPlane_nonneg hqa.le y (kapR q * p)
    have n3 := below_nonneg ha ((1 + q) * x - y) p
    have n4 := below_nonneg hqa y (kapR q * p)
    exact add_nonneg (mul_nonneg n1 n4) (mul_nonneg hk.le (mul_nonneg n3 n2))
  · rw [C76_density h]
    have hout : ∀ m z r : ℝ, 0 < m → (m < |z| ∨ m < r) → halfPlane m z r = 0 := by
      intro m z r hm hzr
      rw [halfPlane, if_neg]
      rintro ⟨hr, hle⟩
      rcases hzr with hz | hz
      · have : m ^ 2 < z ^ 2 := by rw [← sq_abs z]; nlinarith
        nlinarith
      · nlinarith
    have hbel : ∀ m z R : ℝ, 0 < m → m < |z| → below m z R = 0 := by
      intro m z R hm hz
      rw [below]
      simp [hout m z _ hm (Or.inl hz)]
    rcases hc with hp | hp | hx
    · rw [jointDensity_nonpos h.q_pos hp]
    · have hkq : q * amax < (4 + 3 * q) / (3 + 4 * q) * p := by
        have := one_le_kapR h.q_pos h.q_le
        have h2 : p ≤ kapR q * p := by nlinarith
        have h3 : q * amax ≤ amax := by nlinarith [h.q_le]
        exact h3.trans_lt (hp.trans_le h2)
      simp [jointDensity, hout amax _ p ha (Or.inr hp), hout (q * amax) _ _ hqa (Or.inr hkq)]
    · have hdis : ∀ y, q * amax < |y| ∨ amax < |(1 + q) * x - y| := by
        intro y
        by_contra hcon
        push Not at hcon
        have h1 := abs_add_le ((1 + q) * x - y) y
        rw [sub_add_cancel, abs_mul, abs_of_pos h1q] at h1
        nlinarith [hcon.1, hcon.2]
      rw [jointDensity]
      have : ∀ y, halfPlane amax ((1 + q) * x - y) p * below (q * amax) y ((4 + 3 * q) / (3 + 4 * q) * p)
          + (4 + 3 * q) / (3 + 4 * q) * (below amax ((1 + q) * x - y) p * halfPlane (q * amax) y ((4 + 3 * q) / (3 + 4 * q) * p)) = 0 := by
        intro y
        rcases hdis y with hy | hy
        · rw [hbel _ _ _ hqa hy, hout _ _ _ hqa (Or.inl hy)]; ring
        · rw [hbel _ _ _ ha hy, hout _ _ _ ha (Or.inl hy)]; ring
      simp [this]

example : jointPrior (fin (1 / 2)) (fin (-1)) (fin (1 / 2)) (fin 1) = fin 0 :=
  (C76_support ⟨by norm_num, by norm_num, by norm_num⟩ _ _).2 (Or.inl (by norm_num))
example : jointPrior (fin (-2)) (fin (1 / 2)) (fin (1 / 2)) (fin 1) = fin 0 :=
  (C76_support ⟨by norm_num, by norm_num, by norm_num⟩ _ _).2 (Or.inr (Or.inr (by norm_num)))

end

end GW.SpinPriorJoint
