import Verif.Spec.Survey
import Verif.Props.PoissonMean
import Mathlib.Probability.StrongLaw
import Mathlib.Probability.Moments.Variance
import Mathlib.MeasureTheory.Measure.WithDensity
import Mathlib.MeasureTheory.Integral.Prod
import Mathlib.MeasureTheory.Measure.Prod
import Mathlib.MeasureTheory.Constructions.BorelSpace.Order

/-! # Lemmas on Monte-Carlo estimates of expected numbers -/

namespace GW.PoissonMean
open GW XR MeasureTheory ProbabilityTheory

noncomputable section
open Classical

variable {α Ω : Type} [MeasurableSpace α] [MeasurableSpace Ω] {P : Measure Ω} {ν : Measure α} {q pdet : α → ℝ} {Y : ℕ → Ω → α × ℝ}

/-- A function of the injection, counted only if it is found. -/
def ifFound (pdet g : α → ℝ) (y : α × ℝ) : ℝ := if y.2 < pdet y.1 then g y.1 else 0

theorem measurable_ifFound {g : α → ℝ} (hp : Measurable pdet) (hg : Measurable g) : Measurable (ifFound pdet g) :=
  Measurable.ite (measurableSet_lt measurable_snd (hp.comp measurable_fst)) (hg.comp measurable_fst) measurable_const

instance : IsProbabilityMeasure unit := ⟨by simp [unit]⟩

theorem integral_found {p c : ℝ} (h0 : 0 ≤ p) (h1 : p ≤ 1) : ∫ u, (if u < p then c else 0) ∂unit = c * p := by
  have : (fun u : ℝ => if u < p then c else 0) = (Set.Iio p).indicator fun _ => c := by
    funext u; simp [Set.indicator]
  rw [this, integral_indicator_const _ measurableSet_Iio, smul_eq_mul, mul_comm]
  congr 1
  have hset : Set.Iio p ∩ Set.Ico (0 : ℝ) 1 = Set.Ico 0 p := by
    ext u
    simp only [Set.mem_inter_iff, Set.mem_Iio, Set.mem_Ico]
    constructor
    · rintro ⟨a, b, _⟩; exact ⟨b, a⟩
    · rintro ⟨a, b⟩; exact ⟨b, a, lt_of_lt_of_le b h1⟩
  rw [Measure.real, unit, Measure.restrict_apply measurableSet_Iio, hset, Real.volume_Ico, sub_zero, ENNReal.toReal_ofReal h0]

theorem integrable_found {p c : ℝ} : Integrable (fun u : ℝ => if u < p then c else 0) unit := by
  have : (fun u : ℝ => if u < p then c else 0) = (Set.Iio p).indicator fun _ => c := by
    funext u; simp [Set.indicator]
  rw [this]
  exact (integrable_const c).indicator measurableSet_Iio

/-- The mean of a function of the found injections. -/
theorem moment [SFinite ν] {g : α → ℝ} (hq : Measurable q) (hq0 : ∀ x, 0 ≤ q x) (hp : Measurable pdet) (hp0 : ∀ x, 0 ≤ pdet x) (hp1 : ∀ x, pdet x ≤ 1)
    (hg : Measurable g) (hint : Integrable (fun x => q x * (g x * pdet x)) ν) :
    Integrable (ifFound pdet g) ((ν.withDensity fun x => ENNReal.ofReal (q x)).prod unit) ∧
    ∫ y, ifFound pdet g y ∂((ν.withDensity fun x => ENNReal.ofReal (q x)).prod unit) = ∫ x, q x * (g x * pdet x) ∂ν := by
  have hd : ∀ f : α → ℝ, Integrable f (ν.withDensity fun x => ENNReal.ofReal (q x)) ↔ Integrable (fun x => q x * f x) ν := by
    intro f
    rw [integrable_withDensity_iff_integrable_smul' hq.ennreal_ofReal (by simp)]
    simp only [ENNReal.toReal_ofReal (hq0 _), smul_eq_mul]
  have hi : Integrable (ifFound pdet g) ((ν.withDensity fun x => ENNReal.ofReal (q x)).prod unit) := by
    rw [integrable_prod_iff (measurable_ifFound hp hg).aestronglyMeasurable]
    refine ⟨Filter.Eventually.of_forall fun x => by simp only [ifFound]; exact integrable_found, ?_⟩
    have : (fun x => ∫ u, ‖ifFound pdet g (x, u)‖ ∂unit) = fun x => |g x| * pdet x := by
      funext x
      rw [← integral_found (c := |g x|) (hp0 x) (hp1 x)]
      congr 1
      funext u
      simp only [ifFound, Real.norm_eq_abs]
      split_ifs <;> simp
    rw [this, hd]
    refine hint.norm.congr (Filter.Eventually.of_forall fun x => ?_)
    simp only [Real.norm_eq_abs, abs_mul, abs_of_nonneg (hq0 x), abs_of_nonneg (hp0 x)]
  refine ⟨hi, ?_⟩
  rw [integral_prod _ hi]
  have : (fun x => ∫ u, ifFound pdet g (x, u) ∂unit) = fun x => g x * pdet x := by
    funext x
    simp only [ifFound]
    exact integral_found (hp0 x) (hp1 x)
  rw [this, integral_withDensity_eq_integral_toReal_smul hq.ennreal_ofReal (by simp)]
  simp only [ENNReal.toReal_ofReal (hq0 _), smul_eq_mul]

omit [MeasurableSpace α] [MeasurableSpace Ω] in
/-- Sums over the found injections. -/
theorem found_sum (pdet : α → ℝ) (Y : ℕ → Ω → α × ℝ) (g : α → ℝ) (N : ℕ) (ω : Ω) :
    ((foundInjections pdet Y N ω).map g).sum = ∑ i ∈ Finset.range N, ifFound pdet g (Y i ω) := by
  induction N with
  | zero => rfl
  | succ N ih =>
    rw [Finset.sum_range_succ, ← ih]
    unfold foundInjections ifFound
    rw [List.range_succ, List.filter_append, List.map_append, List.map_append, List.sum_append]
    congr 1
    by_cases h : (Y N ω).2 < pdet (Y N ω).1 <;> simp [h]

omit [MeasurableSpace α] [MeasurableSpace Ω] in
theorem found_mem {pdet : α → ℝ} {Y : ℕ → Ω → α × ℝ} {N : ℕ} {ω : Ω} {x : α} (h : x ∈ foundInjections pdet Y N ω) : ∃ i, x = (Y i ω).1 := by
  obtain ⟨i, _, rfl⟩ := List.mem_map.1 h
  exact ⟨i, rfl⟩

/-- The unbiasedness of the variance estimate, up to the factor `(N - 1) / N`. -/
theorem variance_estimate [IsProbabilityMeasure P] {Z : ℕ → Ω → ℝ} (hZ : ∀ i, MemLp (Z i) 2 P) (hind : Pairwise fun i j => IndepFun (Z i) (Z j) P)
    (hid : ∀ i, IdentDistrib (Z i) (Z 0) P P) (c : ℝ) (N : ℕ) (hN : 1 ≤ N) :
    Integrable (fun ω => c ^ 2 / (N : ℝ) ^ 2 * ((∑ i ∈ Finset.range N, Z i ω ^ 2) - (∑ i ∈ Finset.range N, Z i ω) ^ 2 / N)) P ∧
    ∫ ω, c ^ 2 / (N : ℝ) ^ 2 * ((∑ i ∈ Finset.range N, Z i ω ^ 2) - (∑ i ∈ Finset.range N, Z i ω) ^ 2 / N) ∂P =
      (1 - 1 / (N : ℝ)) * Var[fun ω => c / N * ∑ i ∈ Finset.range N, Z i ω; P] := by
  have hN0 : (N : ℝ) ≠ 0 := by exact_mod_cast (by omega : N ≠ 0)
  have hs2 : ∀ i, Integrable (fun ω => Z i ω ^ 2) P := fun i => (hZ i).integrable_sq
  have hsum : MemLp (fun ω => ∑ i ∈ Finset.range N, Z i ω) 2 P := memLp_finsetSum _ fun i _ => hZ i
  have hI1 : Integrable (fun ω => ∑ i ∈ Finset.range N, Z i ω ^ 2) P := integrable_finsetSum _ fun i _ => hs2 i
  have hI2 : Integrable (fun ω => (∑ i ∈ Finset.range N, Z i ω) ^ 2) P := hsum.integrable_sq
  refine ⟨(hI1.sub (hI2.div_const _)).const_mul _, ?_⟩
  have hvar : Var[fun ω => ∑ i ∈ Finset.range N, Z i ω; P] = N * Var[Z 0; P] := by
    have := IndepFun.variance_sum (X := Z) (s := Finset.range N) (μ := P) (fun i _ => hZ i) (fun i _ j _ hij => hind hij)
    rw [show (fun ω => ∑ i ∈ Finset.range N, Z i ω) = ∑ i ∈ Finset.range N, Z i by funext ω; simp, this,
      Finset.sum_congr rfl fun i _ => (hid i).variance_eq]
    simp
  have hmean : ∫ ω, ∑ i ∈ Finset.range N, Z i ω ∂P = N * ∫ ω, Z 0 ω ∂P := by
    rw [integral_finsetSum _ fun i _ => (hZ i).integrable one_le_two, Finset.sum_congr rfl fun i _ => (hid i).integral_eq]
    simp
  have hsq : ∀ i, ∫ ω, Z i ω ^ 2 ∂P = Var[Z 0; P] + (∫ ω, Z 0 ω ∂P) ^ 2 := by
    intro i
    have := variance_eq_sub (hZ i)
    rw [(hid i).variance_eq, (hid i).integral_eq] at this
    rw [this]
    simp
  have hsq2 : ∫ ω, (∑ i ∈ Finset.range N, Z i ω) ^ 2 ∂P = N * Var[Z 0; P] + (N * ∫ ω, Z 0 ω ∂P) ^ 2 := by
    have := variance_eq_sub hsum
    rw [hvar, hmean] at this
    rw [this]
    simp
  rw [integral_const_mul, integral_sub hI1 (hI2.div_const _), integral_div, hsq2, integral_finsetSum _ fun i _ => hs2 i,
    Finset.sum_congr rfl fun i _ => hsq i, variance_const_mul, hvar]
  simp only [Finset.sum_const, Finset.card_range, nsmul_eq_mul]
  field_simp
  ring

end
end GW.PoissonMean
