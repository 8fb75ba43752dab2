import Mathlib.Probability.CentralLimitTheorem
import Mathlib.Probability.StrongLaw
import Mathlib.Analysis.Calculus.DSlope
import Mathlib.Analysis.SpecialFunctions.Log.Deriv

/-! # Limit laws of averages and of smooth functions of them -/

namespace GW.Normal
open MeasureTheory ProbabilityTheory Filter Topology

noncomputable section

variable {Ω : Type} [MeasurableSpace Ω] {P : Measure Ω} [IsProbabilityMeasure P]

/-- The distribution of `X n` tends to the normal one with mean 0 and variance `v`. -/
abbrev ToNormal (P : Measure Ω) [IsProbabilityMeasure P] (X : ℕ → Ω → ℝ) (v : NNReal) : Prop :=
  TendstoInDistribution X atTop (id : ℝ → ℝ) (fun _ => P) (gaussianReal 0 v)

theorem of_law {X : ℕ → Ω → ℝ} {Ω' : Type} [MeasurableSpace Ω'] {Q : Measure Ω'} [IsProbabilityMeasure Q] {Z : Ω' → ℝ} {v : NNReal}
    (h : TendstoInDistribution X atTop Z (fun _ => P) Q) (hZ : Q.map Z = gaussianReal 0 v) : ToNormal P X v where
  forall_aemeasurable := h.forall_aemeasurable
  aemeasurable_limit := aemeasurable_id
  tendsto := by
    have := h.tendsto
    convert this using 2
    refine congrArg _ (Subtype.ext ?_)
    simpa using hZ.symm

theorem tendsto_charFun {X : ℕ → Ω → ℝ} {v : NNReal} :
    ToNormal P X v ↔ (∀ n, AEMeasurable (X n) P) ∧ ∀ t, Tendsto (fun n => charFun (P.map (X n)) t) atTop (𝓝 (charFun (gaussianReal 0 v) t)) := by
  constructor
  · intro h
    refine ⟨h.forall_aemeasurable, fun t => ?_⟩
    have := ProbabilityMeasure.tendsto_iff_tendsto_charFun.1 h.tendsto t
    simpa using this
  · rintro ⟨h1, h2⟩
    refine ⟨h1, aemeasurable_id, ProbabilityMeasure.tendsto_iff_tendsto_charFun.2 fun t => ?_⟩
    simpa using h2 t

theorem comp {X : ℕ → Ω → ℝ} {v : NNReal} (h : ToNormal P X v) {m : ℕ → ℕ} (hm : Tendsto m atTop atTop) : ToNormal P (fun n => X (m n)) v where
  forall_aemeasurable n := h.forall_aemeasurable (m n)
  aemeasurable_limit := aemeasurable_id
  tendsto := h.tendsto.comp hm

/-- Multiplication with something that converges to a number. -/
theorem mul_const {X Y : ℕ → Ω → ℝ} {v : NNReal} (h : ToNormal P X v) {c : ℝ} (hY : ∀ n, AEMeasurable (Y n) P)
    (hlim : ∀ᵐ ω ∂P, Tendsto (fun n => Y n ω) atTop (𝓝 c)) {w : NNReal} (hw : (w : ℝ) = c ^ 2 * v) : ToNormal P (fun n ω => X n ω * Y n ω) w := by
  have hm : TendstoInMeasure P Y atTop (fun _ => c) := tendstoInMeasure_of_tendsto_ae (fun n => (hY n).aestronglyMeasurable) hlim
  have := h.continuous_comp_prodMk_of_tendstoInMeasure_const (g := fun p : ℝ × ℝ => p.1 * p.2) (by fun_prop) hm hY
  refine of_law this ?_
  simp only [id]
  rw [gaussianReal_map_mul_const]
  congr 1
  · simp
  · ext; simp [hw]

theorem congr_ae {X Y : ℕ → Ω → ℝ} {v : NNReal} (h : ToNormal P X v) (he : ∀ n, X n =ᵐ[P] Y n) : ToNormal P Y v :=
  TendstoInDistribution.congr he (ae_eq_refl _) h

/-- Sums of independent terms. -/
theorem sum {ι : Type} [Fintype ι] {X : ι → ℕ → Ω → ℝ} {v : ι → NNReal} (h : ∀ i, ToNormal P (X i) (v i)) (hind : ∀ n, iIndepFun (fun i => X i n) P) :
    ToNormal P (fun n ω => ∑ i, X i n ω) (∑ i, v i) := by
  rw [tendsto_charFun]
  have hm : ∀ i n, AEMeasurable (X i n) P := fun i n => (h i).forall_aemeasurable n
  refine ⟨fun n => Finset.aemeasurable_fun_sum _ fun i _ => hm i n, fun t => ?_⟩
  have h1 : ∀ n, charFun (P.map fun ω => ∑ i, X i n ω) t = ∏ i, charFun (P.map (X i n)) t := fun n => by
    rw [(hind n).charFun_map_fun_sum_eq_prod fun i => hm i n]
    simp
  have h2 : charFun (gaussianReal 0 (∑ i, v i)) t = ∏ i, charFun (gaussianReal 0 (v i)) t := by
    simp only [charFun_gaussianReal]
    rw [← Complex.exp_sum]
    congr 1
    push_cast
    rw [Finset.sum_sub_distrib]
    simp [Finset.sum_mul, Finset.sum_div]
  simp only [h1, h2]
  exact tendsto_finsetProd _ fun i _ => (tendsto_charFun.1 (h i)).2 t

theorem add {X Y : ℕ → Ω → ℝ} {v w : NNReal} (hX : ToNormal P X v) (hY : ToNormal P Y w) (hind : ∀ n, IndepFun (X n) (Y n) P) :
    ToNormal P (fun n ω => X n ω + Y n ω) (v + w) := by
  rw [tendsto_charFun]
  refine ⟨fun n => (hX.forall_aemeasurable n).add (hY.forall_aemeasurable n), fun t => ?_⟩
  have h1 : ∀ n, charFun (P.map fun ω => X n ω + Y n ω) t = charFun (P.map (X n)) t * charFun (P.map (Y n)) t := fun n => by
    rw [(hind n).charFun_map_fun_add_eq_mul (hX.forall_aemeasurable n) (hY.forall_aemeasurable n)]
    rfl
  have h2 : charFun (gaussianReal 0 (v + w)) t = charFun (gaussianReal 0 v) t * charFun (gaussianReal 0 w) t := by
    simp only [charFun_gaussianReal]
    rw [← Complex.exp_add]
    congr 1
    push_cast
    ring
  simp only [h1, h2]
  exact ((tendsto_charFun.1 hX).2 t).mul ((tendsto_charFun.1 hY).2 t)

/-- The average of the first `n`. -/
def average (W : ℕ → Ω → ℝ) (n : ℕ) (ω : Ω) : ℝ := (∑ j ∈ Finset.range n, W j ω) / n

/-- The central limit theorem along any growing sequence of sample sizes, on any scale. -/
theorem average_normal {W : ℕ → Ω → ℝ} (hW : MemLp (W 0) 2 P) (hind : iIndepFun W P) (hid : ∀ i, IdentDistrib (W i) (W 0) P P)
    {m : ℕ → ℕ} (hm1 : ∀ n, 1 ≤ m n) (hm : Tendsto m atTop atTop) {r : ℕ → ℝ} (hr : ∀ n, 0 ≤ r n) {ρ : ℝ} (hρ : Tendsto (fun n => r n / m n) atTop (𝓝 ρ)) :
    ToNormal P (fun n ω => √(r n) * (average W (m n) ω - ∫ ω, W 0 ω ∂P)) (ρ * Var[W 0; P]).toNNReal := by
  have h1 : ToNormal P (fun n ω => (√n)⁻¹ * (∑ k ∈ Finset.range n, W k ω - n * P[W 0])) Var[W 0; P].toNNReal :=
    tendstoInDistribution_inv_sqrt_mul_sum_sub (P := P) (Y := id) (P' := gaussianReal 0 Var[W 0; P].toNNReal) ⟨aemeasurable_id, Measure.map_id⟩ hW hind hid
  have hρ0 : 0 ≤ ρ := ge_of_tendsto' hρ fun n => div_nonneg (hr n) (Nat.cast_nonneg _)
  have h2 := mul_const (comp h1 hm) (Y := fun n _ => √(r n / m n)) (c := √ρ) (fun n => aemeasurable_const)
    (Eventually.of_forall fun ω => (Real.continuous_sqrt.tendsto ρ).comp hρ) (w := (ρ * Var[W 0; P]).toNNReal)
    (by rw [Real.sq_sqrt hρ0, Real.coe_toNNReal _ (mul_nonneg hρ0 (variance_nonneg _ _)), Real.coe_toNNReal _ (variance_nonneg _ _)])
  refine congr_ae h2 fun n => Eventually.of_forall fun ω => ?_
  have hmn : (0 : ℝ) < m n := by exact_mod_cast hm1 n
  have hs : 0 < √(m n : ℝ) := Real.sqrt_pos.2 hmn
  have hsq : √(m n : ℝ) * √(m n : ℝ) = m n := Real.mul_self_sqrt hmn.le
  simp only [average]
  rw [Real.sqrt_div (hr n)]
  rw [show (∑ k ∈ Finset.range (m n), W k ω) / (m n : ℝ) - ∫ ω, W 0 ω ∂P = (∑ k ∈ Finset.range (m n), W k ω - m n * ∫ ω, W 0 ω ∂P) / (√(m n : ℝ) * √(m n : ℝ)) by
    rw [hsq]; field_simp]
  field_simp

omit [IsProbabilityMeasure P] in
/-- The strong law for averages. -/
theorem average_limit {W : ℕ → Ω → ℝ} (hW : Integrable (W 0) P) (hind : iIndepFun W P) (hid : ∀ i, IdentDistrib (W i) (W 0) P P) :
    ∀ᵐ ω ∂P, Tendsto (fun n => average W n ω) atTop (𝓝 (∫ ω, W 0 ω ∂P)) :=
  strong_law_ae_real W hW (fun _ _ hij => hind.indepFun hij) hid

/-- The delta method. -/
theorem delta {A : ℕ → Ω → ℝ} {r : ℕ → ℝ} {μ f' : ℝ} {v w : NNReal} {f : ℝ → ℝ} (hA : ∀ n, Measurable (A n)) (hf : Measurable f)
    (hlim : ∀ᵐ ω ∂P, Tendsto (fun n => A n ω) atTop (𝓝 μ)) (h : ToNormal P (fun n ω => √(r n) * (A n ω - μ)) v) (hd : HasDerivAt f f' μ)
    (hw : (w : ℝ) = f' ^ 2 * v) : ToNormal P (fun n ω => √(r n) * (f (A n ω) - f μ)) w := by
  have hmeas : Measurable (dslope f μ) := by
    have : dslope f μ = fun a => if a = μ then deriv f μ else (a - μ)⁻¹ * (f a - f μ) := by
      funext a
      by_cases ha : a = μ
      · rw [if_pos ha, ha, dslope_same]
      · rw [if_neg ha, dslope_of_ne _ ha, slope_def_module, smul_eq_mul]
    rw [this]
    exact Measurable.ite (measurableSet_singleton μ) measurable_const (((measurable_id.sub_const μ).inv).mul (hf.sub_const _))
  have hc : ContinuousAt (dslope f μ) μ := continuousAt_dslope_same.2 hd.differentiableAt
  have := mul_const h (Y := fun n ω => dslope f μ (A n ω)) (c := f') (fun n => (hmeas.comp (hA n)).aemeasurable) (by
    filter_upwards [hlim] with ω hω
    have := hc.tendsto.comp hω
    rwa [dslope_same, hd.deriv] at this) hw
  refine congr_ae this fun n => Eventually.of_forall fun ω => ?_
  simp only
  rw [mul_assoc]
  congr 1
  have := sub_smul_dslope f μ (A n ω)
  simpa using this

/-- Division by an estimate of the standard deviation. -/
theorem studentize {E V : ℕ → Ω → ℝ} {r : ℕ → ℝ} {v : NNReal} (hv : v ≠ 0) (hr : ∀ n, 0 < r n) (hV : ∀ n, Measurable (V n))
    (h : ToNormal P (fun n ω => √(r n) * E n ω) v) (hlim : ∀ᵐ ω ∂P, Tendsto (fun n => r n * V n ω) atTop (𝓝 (v : ℝ))) :
    ToNormal P (fun n ω => E n ω / √(V n ω)) 1 := by
  have hv0 : (0 : ℝ) < v := by positivity
  have hs : √(v : ℝ) ≠ 0 := (Real.sqrt_pos.2 hv0).ne'
  have := mul_const h (Y := fun n ω => (√(r n * V n ω))⁻¹) (c := (√(v : ℝ))⁻¹) (fun n => by
    have := hV n
    fun_prop) (by
    filter_upwards [hlim] with ω hω
    exact ((Real.continuous_sqrt.tendsto _).comp hω).inv₀ hs) (w := 1) (by
    rw [inv_pow, Real.sq_sqrt hv0.le, NNReal.coe_one, inv_mul_cancel₀ hv0.ne'])
  refine congr_ae this fun n => Eventually.of_forall fun ω => ?_
  have hrn : √(r n) ≠ 0 := (Real.sqrt_pos.2 (hr n)).ne'
  simp only
  rw [Real.sqrt_mul (hr n).le, mul_inv]
  field_simp

/-- It is enough to know the limit along a subsequence of every subsequence. -/
theorem of_subseq {X : ℕ → Ω → ℝ} {v : NNReal} (hX : ∀ n, AEMeasurable (X n) P)
    (h : ∀ ns : ℕ → ℕ, Tendsto ns atTop atTop → ∃ ms : ℕ → ℕ, ToNormal P (fun n => X (ns (ms n))) v) : ToNormal P X v where
  forall_aemeasurable := hX
  aemeasurable_limit := aemeasurable_id
  tendsto := by
    refine tendsto_of_subseq_tendsto fun ns hns => ?_
    obtain ⟨ms, hms⟩ := h ns hns
    exact ⟨ms, hms.tendsto⟩

end
end GW.Normal
