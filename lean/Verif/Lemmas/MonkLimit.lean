import Verif.Spec.MonkLimit
import Verif.Props.Analytic
import Mathlib.Probability.StrongLaw
import Mathlib.Probability.Independence.Integration
import Mathlib.Probability.Independence.InfinitePi
import Mathlib.Probability.Distributions.Gaussian.Real

/-! # Averages of importance weights of Gaussian draws -/

namespace GW.Monk
open GW XR MeasureTheory ProbabilityTheory Matrix Filter Topology
open GW.Analytic (IsTril)

noncomputable section

variable {d : ℕ} {Ω : Type} [MeasurableSpace Ω] {P : Measure Ω} {Z : Key → ℕ → Ω → (Fin d → ℝ)}

theorem measurable_gauss (m : Fin d → ℝ) (S : Matrix (Fin d) (Fin d) ℝ) : Measurable (gauss m S) := by
  unfold gauss
  apply Continuous.measurable
  simp only [dotProduct, mulVec, Pi.sub_apply]
  fun_prop

theorem measurable_stdNormal : Measurable (stdNormal (d := d)) := by
  unfold stdNormal
  apply Continuous.measurable
  fun_prop

theorem measurable_affine (m : Fin d → ℝ) (L : Matrix (Fin d) (Fin d) ℝ) : Measurable fun z : Fin d → ℝ => m + L.mulVec z := by
  apply Continuous.measurable
  simp only [mulVec_eq_sum]
  fun_prop

theorem stdNormal_nonneg (z : Fin d → ℝ) : 0 ≤ stdNormal z := Finset.prod_nonneg fun _ _ => by positivity

/-- The weight of the draw `z`. -/
def weight (f : (Fin d → ℝ) → ℝ) (m' : Fin d → ℝ) (L' : Matrix (Fin d) (Fin d) ℝ) (z : Fin d → ℝ) : ℝ :=
  f (m' + L'.mulVec z) / gauss m' (L' * L'ᵀ) (m' + L'.mulVec z)

theorem measurable_weight {f : (Fin d → ℝ) → ℝ} (hf : Measurable f) (m' : Fin d → ℝ) (L' : Matrix (Fin d) (Fin d) ℝ) : Measurable (weight f m' L') :=
  (hf.comp (measurable_affine m' L')).div ((measurable_gauss _ _).comp (measurable_affine m' L'))

theorem stdNormal_mul_weight (f : (Fin d → ℝ) → ℝ) (m' : Fin d → ℝ) {L' : Matrix (Fin d) (Fin d) ℝ} (hL : IsTril L') (z : Fin d → ℝ) :
    stdNormal z * weight f m' L' z = |L'.det| * f (m' + L'.mulVec z) := by
  have p := Analytic.gauss_pos (μ := m') hL (m' + L'.mulVec z)
  have h := Analytic.C60_proposal ⟨m', L'⟩ hL z
  simp only [Analytic.mvnSample] at h
  rw [← h, weight]
  field_simp

/-- The mean weight is the integral of the function, whatever the proposal. -/
theorem weight_mean {f : (Fin d → ℝ) → ℝ} (hf : Integrable f) (m' : Fin d → ℝ) {L' : Matrix (Fin d) (Fin d) ℝ} (hL : IsTril L') :
    Integrable (weight f m' L') (volume.withDensity fun z => ENNReal.ofReal (stdNormal z)) ∧
    ∫ z, weight f m' L' z ∂(volume.withDensity fun z => ENNReal.ofReal (stdNormal z)) = ∫ x, f x := by
  have h0 := hL.det_ne
  have h1 : |L'.det| ≠ 0 := abs_ne_zero.2 h0
  have hs : Measurable fun z : Fin d → ℝ => ENNReal.ofReal (stdNormal z) := measurable_stdNormal.ennreal_ofReal
  have hmap := Real.map_matrix_volume_pi_eq_smul_volume_pi h0
  have hemb : MeasurableEmbedding (Matrix.toLin' L') :=
    (LinearEquiv.toContinuousLinearEquiv (Matrix.toLin'OfInv (Matrix.nonsing_inv_mul _ (Ne.isUnit h0)) (Matrix.mul_nonsing_inv _ (Ne.isUnit h0)))).toHomeomorph.measurableEmbedding
  have hshift : Integrable (fun x => f (m' + x)) (Measure.map (Matrix.toLin' L') volume) := by
    rw [hmap]
    exact (hf.comp_add_left m').smul_measure (by simp)
  have hint : Integrable fun z : Fin d → ℝ => f (m' + L'.mulVec z) := (hemb.integrable_map_iff.1 hshift)
  constructor
  · rw [integrable_withDensity_iff_integrable_smul' hs (by simp)]
    simp only [ENNReal.toReal_ofReal (stdNormal_nonneg _), smul_eq_mul, stdNormal_mul_weight f m' hL]
    exact hint.const_mul _
  · rw [integral_withDensity_eq_integral_toReal_smul hs (by simp)]
    simp only [ENNReal.toReal_ofReal (stdNormal_nonneg _), smul_eq_mul, stdNormal_mul_weight f m' hL]
    rw [integral_const_mul]
    have step : ∫ z : Fin d → ℝ, f (m' + L'.mulVec z) = ∫ x, f (m' + x) ∂(Measure.map (Matrix.toLin' L') volume) := by
      rw [hemb.integral_map]
      rfl
    rw [step, hmap, integral_smul_measure, integral_add_left_eq_self, ENNReal.toReal_ofReal (abs_nonneg _), smul_eq_mul, ← mul_assoc, abs_inv,
      mul_inv_cancel₀ h1, one_mul]

/-- The strong law for the draws of one key. -/
theorem weight_limit (h : Normals P Z) {f : (Fin d → ℝ) → ℝ} (hf : Integrable f) (hm : Measurable f) (m' : Fin d → ℝ) {L' : Matrix (Fin d) (Fin d) ℝ} (hL : IsTril L') (k : Key) :
    ∀ᵐ ω ∂P, Tendsto (fun n : ℕ => (∑ t ∈ Finset.range n, weight f m' L' (Z k t ω)) / n) atTop (𝓝 (∫ x, f x)) := by
  have hw := measurable_weight hm m' L'
  obtain ⟨hi, he⟩ := weight_mean hf m' hL
  have hi' : Integrable (fun ω => weight f m' L' (Z k 0 ω)) P := by
    rw [← h.law k 0] at hi
    exact hi.comp_measurable (h.measurable k 0)
  have := strong_law_ae_real (μ := P) (fun t ω => weight f m' L' (Z k t ω)) hi'
    (fun a b hab => ((h.indep k).indepFun hab).comp hw hw) (fun t => by
      refine ⟨(hw.comp (h.measurable k t)).aemeasurable, (hw.comp (h.measurable k 0)).aemeasurable, ?_⟩
      change P.map (weight f m' L' ∘ Z k t) = P.map (weight f m' L' ∘ Z k 0)
      rw [← Measure.map_map hw (h.measurable k t), h.law k t, ← h.law k 0, Measure.map_map hw (h.measurable k 0)])
  rwa [← integral_map (μ := P) (h.measurable k 0).aemeasurable (f := weight f m' L') hw.aestronglyMeasurable, h.law k 0, he] at this

instance : Countable Key := by
  let enc : Key → List ℕ := fun k => Key.rec (fun s => [s]) (fun _ i l => i :: l) k
  have henc : ∀ k, enc k ≠ [] := by
    intro k
    cases k <;> simp [enc]
  refine Function.Injective.countable (f := enc) ?_
  intro a
  induction a with
  | seed s =>
    intro b h
    cases b with
    | seed t => simpa [enc] using h
    | sub k i =>
      have : enc k = [] := (List.cons.inj h).2.symm
      exact absurd this (henc k)
  | sub k i ih =>
    intro b h
    cases b with
    | seed t => exact absurd (List.cons.inj h).2 (henc k)
    | sub k' j =>
      obtain ⟨h1, h2⟩ := List.cons.inj h
      rw [ih h2, h1]

/-- What holds almost everywhere holds almost surely at all draws. -/
theorem draws_ae (h : Normals P Z) (m' : Fin d → ℝ) {L' : Matrix (Fin d) (Fin d) ℝ} (hL : IsTril L') {p : (Fin d → ℝ) → Prop} (hp : ∀ᵐ x, p x) :
    ∀ᵐ ω ∂P, ∀ k t, p (m' + L'.mulVec (Z k t ω)) := by
  have hmap := Real.map_matrix_volume_pi_eq_smul_volume_pi hL.det_ne
  have hq : Measure.QuasiMeasurePreserving (fun z : Fin d → ℝ => m' + L'.mulVec z) := by
    have h1 : Measure.QuasiMeasurePreserving (fun z : Fin d → ℝ => L'.mulVec z) := by
      refine ⟨by simpa using measurable_affine 0 L', ?_⟩
      change Measure.map (Matrix.toLin' L') volume ≪ volume
      rw [hmap]
      exact Measure.smul_absolutelyContinuous
    exact (measurePreserving_add_left volume m').quasiMeasurePreserving.comp h1
  rw [ae_all_iff]; intro k
  rw [ae_all_iff]; intro t
  refine ae_of_ae_map (p := fun z => p (m' + L'.mulVec z)) (h.measurable k t).aemeasurable ?_
  rw [h.law k t]
  exact (withDensity_absolutelyContinuous _ _).ae_le (hq.ae hp)

/-! ## The normal densities have total one, and independent standard normals exist -/

theorem stdNormal_total : Integrable (stdNormal (d := d)) ∧ ∫ z : Fin d → ℝ, stdNormal z = 1 := by
  have e : ∀ x : ℝ, Real.exp (-(1 / 2) * x ^ 2) / Real.sqrt (2 * Real.pi) = gaussianPDFReal 0 1 x := by
    intro x
    rw [gaussianPDFReal, div_eq_mul_inv, mul_comm]
    congr 2
    · simp
    · simp; ring
  unfold stdNormal
  simp only [e]
  constructor
  · exact Integrable.fintype_prod fun _ => integrable_gaussianPDFReal 0 1
  · rw [integral_fintype_prod_volume_eq_prod]
    simp [integral_gaussianPDFReal_eq_one]

theorem gauss_total (m : Fin d → ℝ) {L : Matrix (Fin d) (Fin d) ℝ} (hL : IsTril L) : Integrable (gauss m (L * Lᵀ)) ∧ ∫ x, gauss m (L * Lᵀ) x = 1 := by
  have h0 := hL.det_ne
  have h1 : |L.det| ≠ 0 := abs_ne_zero.2 h0
  have hmap := Real.map_matrix_volume_pi_eq_smul_volume_pi h0
  have hemb : MeasurableEmbedding (Matrix.toLin' L) :=
    (LinearEquiv.toContinuousLinearEquiv (Matrix.toLin'OfInv (Matrix.nonsing_inv_mul _ (Ne.isUnit h0)) (Matrix.mul_nonsing_inv _ (Ne.isUnit h0)))).toHomeomorph.measurableEmbedding
  have hp : ∀ z, gauss m (L * Lᵀ) (m + L.mulVec z) = stdNormal z / |L.det| := fun z => by
    have h := Analytic.C60_proposal ⟨m, L⟩ hL z
    simp only [Analytic.mvnSample] at h
    rw [← h]; field_simp
  obtain ⟨s1, s2⟩ := stdNormal_total (d := d)
  have hi : Integrable fun z : Fin d → ℝ => gauss m (L * Lᵀ) (m + L.mulVec z) := by
    simp only [hp]; exact s1.div_const _
  have hshift : Integrable (fun x => gauss m (L * Lᵀ) (m + x)) (Measure.map (Matrix.toLin' L) volume) := hemb.integrable_map_iff.2 hi
  have hc : ENNReal.ofReal |L.det⁻¹| ≠ 0 := by simpa using h0
  rw [hmap, integrable_smul_measure hc (by simp)] at hshift
  have hI : Integrable (gauss m (L * Lᵀ)) := by
    have := hshift.comp_add_left (-m)
    simpa using this
  refine ⟨hI, ?_⟩
  have := (weight_mean hI m hL).2
  rw [← this]
  have hw : ∀ z, weight (gauss m (L * Lᵀ)) m L z = 1 := fun z => div_self (Analytic.gauss_pos hL _).ne'
  simp only [hw]
  rw [integral_const, smul_eq_mul, mul_one, measureReal_def, withDensity_apply _ MeasurableSet.univ, Measure.restrict_univ,
    ← ofReal_integral_eq_lintegral_ofReal s1 (Eventually.of_forall stdNormal_nonneg), s2]
  simp

instance isProbability_stdNormal : IsProbabilityMeasure (volume.withDensity fun z : Fin d → ℝ => ENNReal.ofReal (stdNormal z)) := by
  constructor
  obtain ⟨s1, s2⟩ := stdNormal_total (d := d)
  rw [withDensity_apply _ MeasurableSet.univ, Measure.restrict_univ, ← ofReal_integral_eq_lintegral_ofReal s1 (Eventually.of_forall stdNormal_nonneg), s2]
  simp

/-- The space of all standard normal vectors. -/
def normalSpace (d : ℕ) : Measure (Key → ℕ → Fin d → ℝ) :=
  Measure.infinitePi fun _ => Measure.infinitePi fun _ => volume.withDensity fun z => ENNReal.ofReal (stdNormal z)

theorem normals_exist : Normals (normalSpace d) fun k t ω => ω k t where
  measurable k t := (measurable_pi_apply t).comp (measurable_pi_apply k)
  law k t := by
    have : (fun ω : Key → ℕ → Fin d → ℝ => ω k t) = (fun f => f t) ∘ fun ω => ω k := rfl
    rw [this, ← Measure.map_map (measurable_pi_apply t) (measurable_pi_apply k), normalSpace, Measure.infinitePi_map_eval, Measure.infinitePi_map_eval]
  indep k := (iIndepFun_uncurry_infinitePi' (ι := Key) (κ := ℕ) (fun _ _ => volume.withDensity fun z : Fin d → ℝ => ENNReal.ofReal (stdNormal z)) (X := fun _ _ x => x)
    (fun _ _ => measurable_id)).precomp (g := fun t => (k, t)) (Prod.mk_right_injective k)
  keys := iIndepFun_infinitePi (P := fun _ : Key => Measure.infinitePi fun _ : ℕ => volume.withDensity fun z : Fin d → ℝ => ENNReal.ofReal (stdNormal z)) (X := fun _ x => x)
    (fun _ => measurable_id)

/-! ## Batches -/

theorem sum_range (f : ℕ → ℝ) (m : ℕ) : ((List.range m).map f).sum = ∑ j ∈ Finset.range m, f j := by
  induction m with
  | zero => simp
  | succ m ih => rw [List.range_succ, List.map_append, List.sum_append, ih, Finset.sum_range_succ]; simp

/-- The mean over `b` batches of `n` draws is the average of the means of the batches. -/
theorem mean_weights (ρ : (Fin d → ℝ) → ℝ) (m : Fin d → ℝ) (S : Matrix (Fin d) (Fin d) ℝ) (m' : Fin d → ℝ) (L' : Matrix (Fin d) (Fin d) ℝ) (b n : ℕ) (z : ℕ → ℕ → Fin d → ℝ) :
    mean (weights ρ m S m' L' ((List.range b).map fun j => (List.range n).map (z j)).flatten) =
      (∑ j ∈ Finset.range b, (∑ t ∈ Finset.range n, weight (fun x => ρ x * gauss m S x) m' L' (z j t)) / n) / b := by
  have hlen : (weights ρ m S m' L' ((List.range b).map fun j => (List.range n).map (z j)).flatten).length = b * n := by
    simp [weights, List.length_flatten, Function.comp_def]
  have hsum : (weights ρ m S m' L' ((List.range b).map fun j => (List.range n).map (z j)).flatten).sum =
      ∑ j ∈ Finset.range b, ∑ t ∈ Finset.range n, weight (fun x => ρ x * gauss m S x) m' L' (z j t) := by
    unfold weights
    rw [List.map_flatten, List.sum_flatten, List.map_map, List.map_map, ← sum_range]
    congr 1
    apply List.map_congr_left
    intro j _
    simp only [Function.comp, List.map_map]
    rw [← sum_range]
    rfl
  rw [mean, hlen, hsum, ← Finset.sum_div, div_div]
  push_cast
  rw [mul_comm]

/-- Averages over any number of converging sequences, at most `M`, converge too. -/
theorem average_limit {A : ℕ → ℕ → ℝ} {I : ℝ} {M : ℕ} (hA : ∀ j < M, Tendsto (A j) atTop (𝓝 I)) {b : ℕ → ℕ} (hb : ∀ᶠ n in atTop, 1 ≤ b n ∧ b n ≤ M) :
    Tendsto (fun n => (∑ j ∈ Finset.range (b n), A j n) / b n) atTop (𝓝 I) := by
  rw [tendsto_iff_dist_tendsto_zero]
  have h1 : Tendsto (fun n => ∑ j ∈ Finset.range M, dist (A j n) I) atTop (𝓝 0) := by
    have : Tendsto (fun n => ∑ j ∈ Finset.range M, dist (A j n) I) atTop (𝓝 (∑ _j ∈ Finset.range M, (0 : ℝ))) :=
      tendsto_finsetSum _ fun j hj => tendsto_iff_dist_tendsto_zero.1 (hA j (Finset.mem_range.1 hj))
    simpa using this
  refine squeeze_zero' (Eventually.of_forall fun _ => dist_nonneg) ?_ h1
  filter_upwards [hb] with n ⟨hb1, hbM⟩
  have hb0 : (0 : ℝ) < b n := by exact_mod_cast hb1
  have e : (∑ j ∈ Finset.range (b n), A j n) / b n - I = (∑ j ∈ Finset.range (b n), (A j n - I)) / b n := by
    rw [Finset.sum_sub_distrib, Finset.sum_const, Finset.card_range, nsmul_eq_mul]
    field_simp
  rw [Real.dist_eq, e, abs_div, abs_of_pos hb0, div_le_iff₀ hb0]
  calc |∑ j ∈ Finset.range (b n), (A j n - I)| ≤ ∑ j ∈ Finset.range (b n), |A j n - I| := Finset.abs_sum_le_sum_abs _ _
    _ ≤ ∑ j ∈ Finset.range M, dist (A j n) I := by
      simp only [← Real.dist_eq]
      exact Finset.sum_le_sum_of_subset_of_nonneg (Finset.range_mono hbM) fun _ _ _ => dist_nonneg
    _ ≤ (∑ j ∈ Finset.range M, dist (A j n) I) * b n := le_mul_of_one_le_right (Finset.sum_nonneg fun _ _ => dist_nonneg) (by exact_mod_cast hb1)

end
end GW.Monk
