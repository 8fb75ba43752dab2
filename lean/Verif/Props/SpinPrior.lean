import Verif.Lemmas.SpinPriorLaw

/-!
# C61: the effective-spin prior is the density of the effective spin of two isotropic spins
-/

namespace GW.SpinPrior
open GW XR MeasureTheory Set SpinPriorSpec Filter Topology
open scoped ENNReal

noncomputable section

/-- The mass ratio and largest spin of a caller: `0 < q ≤ 1`, `amax > 0`. -/
structure Physical (q amax : ℝ) : Prop where
  q_pos : 0 < q
  q_le : q ≤ 1
  amax_pos : 0 < amax

example : Physical (1 / 2) 1 := ⟨by norm_num, by norm_num, by norm_num⟩

/-- **C61** (partial: two singular points are excluded, see the two `_violated` theorems).  Away from `|χ| = q amax / (1 + q)` in the branch
where opposite signs are possible, and from `χ = 0` at equal masses, the value returned is the density of the effective spin: the
convolution of the densities of the two aligned components. -/
theorem C61_density_partial {q amax : ℝ} (h : Physical q amax) (big x : ℝ)
    (hs : |x| = q * amax / (1 + q) → amax * (1 - q) / (1 + q) ≤ |x|) (h0 : x = 0 → q < 1) :
    chiEffPrior big (fin x) (fin q) (fin amax) = fin (chiEffDensity q amax x) := by
  obtain ⟨hq, hq1, ha⟩ := h
  obtain ⟨hn, hm, hmn, hd, hsum⟩ := ratios hq ha
  have h1 : 1 + q ≠ 0 := by linarith
  rw [← chiEffDensity_abs]
  have hx0 : 0 ≤ |x| := abs_nonneg x
  have hz : |x| = 0 → q < 1 := fun h => h0 (abs_eq_zero.1 h)
  simp only [chiEffPrior, abs_fin, add_fin_fin, mul_fin_fin, sub_fin_fin, div_fin_of_ne _ h1, lt_fin_fin, chiEffDensity]
  generalize |x| = c at *
  have hmn' : q * amax / (1 + q) ≤ amax / (1 + q) := by rw [hmn]; nlinarith
  by_cases hlow : c < amax * (1 - q) / (1 + q)
  · rw [decide_eq_true hlow, select_true]
    have hne : c ≠ q * amax / (1 + q) := fun h => absurd (hs h) (not_le.2 hlow)
    rcases hx0.eq_or_lt with h | h
    · subst h
      rw [lower_zero big hq hn hm, aligned_zero hm hmn', hmn, mul_div_cancel_right₀ _ hn.ne']
    · rw [lower_fin big hq hn hmn h hne, aligned_integral hm hn h (b := q * amax / (1 + q) / c) (a := -(q * amax / (1 + q) / c)) ?_
        (set_lower h (by rw [← hd]; exact hlow.le))]
      have := div_pos hm h
      linarith
  · rw [decide_eq_false hlow, select_false]
    by_cases hup : c < amax
    · rw [decide_eq_true hup, select_true]
      have hc : 0 < c := by
        rcases hx0.eq_or_lt with h | h
        · exfalso
          apply hlow
          rw [← h]
          have := hz h.symm
          exact div_pos (mul_pos ha (by linarith)) (by linarith)
        · exact h
      rw [show fin (amax * (1 - q) / (1 + q)) = fin (amax / (1 + q) - q * amax / (1 + q)) by rw [hd]]
      rw [show upper (fin amax) = upper (fin (amax / (1 + q) + q * amax / (1 + q))) by rw [← hsum]]
      rw [upper_fin hq hn hmn hc, aligned_integral hm hn hc (a := 1 - amax / (1 + q) / c) (b := q * amax / (1 + q) / c) ?_
        (set_upper hc hmn' (by rw [← hd]; exact not_lt.1 hlow))]
      rw [sub_le_iff_le_add, ← add_div, le_div_iff₀ hc]
      linarith
    · rw [decide_eq_false hup, select_false, aligned_support]
      rw [abs_of_nonneg hx0]
      linarith

/-- Both branches, zero and the outside occur. -/
example (big : ℝ) : chiEffPrior big (fin (1 / 10)) (fin (1 / 2)) (fin 1) = fin (chiEffDensity (1 / 2) 1 (1 / 10)) :=
  C61_density_partial ⟨by norm_num, by norm_num, by norm_num⟩ big _ (by norm_num [abs_of_pos]) (by norm_num)
example (big : ℝ) : chiEffPrior big (fin (-1 / 2)) (fin (1 / 2)) (fin 1) = fin (chiEffDensity (1 / 2) 1 (-1 / 2)) :=
  C61_density_partial ⟨by norm_num, by norm_num, by norm_num⟩ big _ (by norm_num [abs_of_neg]) (by norm_num)
example (big : ℝ) : chiEffPrior big (fin 0) (fin (1 / 2)) (fin 1) = fin (chiEffDensity (1 / 2) 1 0) :=
  C61_density_partial ⟨by norm_num, by norm_num, by norm_num⟩ big _ (by norm_num) (by norm_num)

/-- The value of a float seen as a density (infinite at `+inf`, zero at NaN). -/
def toDensity : XR → ℝ≥0∞
  | fin x => ENNReal.ofReal x
  | pinf => ∞
  | _ => 0

/-- Almost everywhere the value returned is the convolution of the two aligned densities. -/
theorem convolution_ae {q amax : ℝ} (h : Physical q amax) (big : ℝ) :
    (fun x => ∫⁻ y, ENNReal.ofReal (aligned (q * amax / (1 + q)) y) * ENNReal.ofReal (aligned (amax / (1 + q)) (x - y)))
      =ᵐ[volume] fun x => toDensity (chiEffPrior big (fin x) (fin q) (fin amax)) := by
  obtain ⟨hq, hq1, ha⟩ := h
  obtain ⟨hn, hm, hmn, hd, hsum⟩ := ratios hq ha
  have hmn' : q * amax / (1 + q) ≤ amax / (1 + q) := by rw [hmn]; nlinarith
  have e0 : ∀ᵐ x : ℝ, x ≠ 0 := by simp [ae_iff]
  have e1 : ∀ᵐ x : ℝ, x ≠ q * amax / (1 + q) := by simp [ae_iff]
  have e2 : ∀ᵐ x : ℝ, x ≠ -(q * amax / (1 + q)) := by simp [ae_iff]
  filter_upwards [e0, e1, e2] with x h0 h1 h2
  have hint : Integrable fun y => aligned (q * amax / (1 + q)) y * aligned (amax / (1 + q)) (x - y) := by
    have key : ∀ c : ℝ, 0 < c → Integrable fun y => aligned (q * amax / (1 + q)) y * aligned (amax / (1 + q)) (c - y) := by
      intro c hc
      by_cases hlow : c ≤ amax / (1 + q) - q * amax / (1 + q)
      · refine aligned_integrable hm hn hc ?_ (set_lower hc hlow)
        have := div_pos hm hc
        linarith
      · by_cases hup : c ≤ amax
        · refine aligned_integrable hm hn hc ?_ (set_upper hc hmn' (not_le.1 hlow).le)
          rw [sub_le_iff_le_add, ← add_div, le_div_iff₀ hc]
          linarith
        · have : (fun y => aligned (q * amax / (1 + q)) y * aligned (amax / (1 + q)) (c - y)) = fun _ => 0 := by
            funext y
            simp only [aligned]
            by_cases h1 : |y| ≤ q * amax / (1 + q)
            · rw [if_pos h1, if_neg, mul_zero]
              intro h2
              have := abs_add_le y (c - y)
              rw [add_sub_cancel, abs_of_pos hc] at this
              linarith
            · rw [if_neg h1, zero_mul]
          rw [this]
          exact integrable_zero _ _ _
    rcases lt_or_gt_of_ne h0 with hneg | hpos
    · have := (key (-x) (by linarith)).comp_neg
      refine this.congr (Eventually.of_forall fun y => ?_)
      simp only
      rw [aligned_even, show -x - -y = -(x - y) by ring, aligned_even]
    · exact key x hpos
  rw [C61_density_partial ⟨hq, hq1, ha⟩ big x ?_ (fun h => absurd h h0), toDensity, chiEffDensity,
    ofReal_integral_eq_lintegral_ofReal hint (Eventually.of_forall fun y => mul_nonneg (aligned_nonneg hm _) (aligned_nonneg hn _))]
  · refine lintegral_congr fun y => ?_
    rw [ENNReal.ofReal_mul (aligned_nonneg hm _)]
  · intro hx
    rcases abs_choice x with h | h
    · exact absurd (h ▸ hx) h1
    · exact absurd (by linarith [h ▸ hx]) h2

/-- **C61** The value returned is a density of the law of the effective spin of two independent spins with uniform magnitudes up to `amax`
and isotropic directions. -/
theorem C61_law {q amax : ℝ} (h : Physical q amax) (big : ℝ) :
    Measure.map (chiEff q) (spins amax) = volume.withDensity fun x => toDensity (chiEffPrior big (fin x) (fin q) (fin amax)) := by
  rw [chiEff_law h.q_pos h.amax_pos]
  exact withDensity_congr_ae (convolution_ae h big)

/-- It integrates to one, so it is a normalised prior. -/
theorem C61_normalised {q amax : ℝ} (h : Physical q amax) (big : ℝ) :
    ∫⁻ x : ℝ, toDensity (chiEffPrior big (fin x) (fin q) (fin amax)) = 1 := by
  have hl := C61_law h big
  have h1 := congrArg (fun μ => μ univ) hl
  simp only [withDensity_apply _ MeasurableSet.univ, Measure.restrict_univ] at h1
  rw [← h1, Measure.map_apply (by unfold chiEff; fun_prop) MeasurableSet.univ, preimage_univ, spins, ← univ_prod_univ, Measure.prod_prod,
    ← univ_prod_univ, Measure.prod_prod]
  have hu : ∀ a b : ℝ, a < b → uniform a b univ = 1 := by
    intro a b hab
    rw [uniform, Measure.smul_apply, Measure.restrict_apply MeasurableSet.univ, univ_inter, Real.volume_Icc, smul_eq_mul]
    exact ENNReal.inv_mul_cancel (by simpa using hab) ENNReal.ofReal_ne_top
  rw [hu 0 amax h.amax_pos, hu (-1) 1 (by norm_num)]
  norm_num

example (big : ℝ) : ∫⁻ x : ℝ, toDensity (chiEffPrior big (fin x) (fin (1 / 2)) (fin 1)) = 1 :=
  C61_normalised ⟨by norm_num, by norm_num, by norm_num⟩ big

/-- **C61** At `|χ|` equal to the largest secondary component, when opposite signs are still possible there (`q < 1/2`), the value returned
is `+inf` although the density is finite. -/
theorem C61_density_violated_at_secondary {q amax : ℝ} (h : Physical q amax) (hq2 : q < 1 / 2) (big : ℝ) :
    chiEffPrior big (fin (q * amax / (1 + q))) (fin q) (fin amax) = pinf := by
  obtain ⟨hq, hq1, ha⟩ := h
  obtain ⟨hn, hm, hmn, hd, hsum⟩ := ratios hq ha
  have h1 : 1 + q ≠ 0 := by linarith
  have hlow : q * amax / (1 + q) < amax * (1 - q) / (1 + q) := by
    rw [hd, hmn]
    nlinarith
  simp only [chiEffPrior, abs_fin, abs_of_pos hm, add_fin_fin, mul_fin_fin, sub_fin_fin, div_fin_of_ne _ h1, lt_fin_fin, decide_eq_true hlow, select_true,
    div_fin_of_ne _ hm.ne', div_self hm.ne', lower, square_fin, log_fin_pos (mul_pos hq hq), mul_one, div_fin_of_ne _ one_ne_zero, div_one, sub_self,
    abs_zero, log_fin_zero, fin_sub_ninf, li2, neg_fin]
  rw [div_fin_of_ne _ (by norm_num), zero_div, log_fin_zero]
  simp only [ninf_add_fin, nanToNum, div_fin_of_ne _ one_ne_zero, pinf_add_fin]
  have : ∀ b : ℝ, pinf / fin b = if 0 ≤ b then pinf else ninf := fun _ => rfl
  rw [this, if_pos (by linarith)]

example (big : ℝ) : chiEffPrior big (fin (1 / 4 * 1 / (1 + 1 / 4))) (fin (1 / 4)) (fin 1) = pinf :=
  C61_density_violated_at_secondary ⟨by norm_num, by norm_num, by norm_num⟩ (by norm_num) big

/-- **C61** At `χ = 0` with equal masses the value returned is NaN although the density is finite, `2 / amax`. -/
theorem C61_density_violated_at_zero {amax : ℝ} (ha : 0 < amax) (big : ℝ) :
    chiEffPrior big (fin 0) (fin 1) (fin amax) = nan ∧ chiEffDensity 1 amax 0 = 2 / amax := by
  have h2 : (1 : ℝ) + 1 ≠ 0 := by norm_num
  have hp : 0 < amax / (1 + 1) := by positivity
  constructor
  · have e : fin (amax / (1 + 1)) / fin 0 = pinf := by simp [div_fin_fin, mulInf, ha]
    have hz : fin 0 * pinf = nan := by
      show mulInf 0 = nan
      simp [mulInf]
    simp only [chiEffPrior, abs_fin, abs_zero, add_fin_fin, mul_fin_fin, sub_fin_fin, div_fin_of_ne _ h2, lt_fin_fin, sub_self, mul_zero, zero_div,
      lt_irrefl, decide_false, select_false, ha, decide_true, select_true, one_mul, e, upper, log_pinf, hz, nan_mul, add_nan, nan_add]
    rfl
  · have h : (1 * amax / (1 + 1)) = amax / (1 + 1) := by ring
    rw [chiEffDensity, h, aligned_zero hp le_rfl, div_self hp.ne', Real.log_one]
    field_simp
    norm_num

end

end GW.SpinPrior
