import Verif.Lemmas.Survey
import Mathlib.Probability.Independence.InfinitePi

/-! # C87: the expected-number estimators estimate the expected number -/

namespace GW.PoissonMean
open GW XR MeasureTheory ProbabilityTheory Filter Topology

noncomputable section
open Classical

variable {α Ω : Type} [MeasurableSpace α] [MeasurableSpace Ω] {P : Measure Ω} {ν : Measure α} {q pdet : α → ℝ} {Y : ℕ → Ω → α × ℝ}

/-! ## Helpers -/

theorem expR_sub_log {a : XR} (ha : a ≠ pinf) {c : ℝ} (hc : 0 < c) : expR (a - log (fin c)) = expR a / c := by
  rw [log_fin_pos hc]
  cases a with
  | fin a => rw [sub_fin_fin, expR_fin, expR_fin, Real.exp_sub, Real.exp_log hc]
  | ninf => simp [expR]
  | pinf => exact absurd rfl ha
  | nan => simp [expR]

/-- Almost surely every injection lies where injections are drawn. -/
theorem ae_drawn (h : Campaign P ν q Y) [SFinite ν] (hq : Measurable q) : ∀ᵐ ω ∂P, ∀ i, 0 < q (Y i ω).1 := by
  rw [ae_all_iff]
  intro i
  have h1 : ∀ᵐ x ∂(ν.withDensity fun x => ENNReal.ofReal (q x)), 0 < q x := by
    rw [ae_withDensity_iff hq.ennreal_ofReal]
    exact Eventually.of_forall fun x hx => by simpa using hx
  have h2 : ∀ᵐ y ∂((ν.withDensity fun x => ENNReal.ofReal (q x)).prod unit), 0 < q y.1 := Measure.quasiMeasurePreserving_fst.ae h1
  rw [← h.law i] at h2
  exact ae_of_ae_map (h.measurable i).aemeasurable h2

omit [MeasurableSpace α] [MeasurableSpace Ω] in
/-- The terms of the estimate, for injections drawn where the density is positive. -/
theorem terms_eq {lp : α → XR} (hlp : ∀ x, lp x ≠ pinf) {ω : Ω} (hω : ∀ i, 0 < q (Y i ω).1) (N : ℕ) :
    (∀ p ∈ ((foundInjections pdet Y N ω).map lp).zip ((foundInjections pdet Y N ω).map fun x => log (fin (q x))), p.1 - p.2 ≠ pinf) ∧
    List.zipWith (fun m w => expR (m - w)) ((foundInjections pdet Y N ω).map lp) ((foundInjections pdet Y N ω).map fun x => log (fin (q x))) =
      (foundInjections pdet Y N ω).map fun x => expR (lp x) / q x := by
  have hpos : ∀ x ∈ foundInjections pdet Y N ω, 0 < q x := by
    intro x hx
    obtain ⟨i, rfl⟩ := found_mem hx
    exact hω i
  constructor
  · intro p hp
    rw [List.zip_map'] at hp
    obtain ⟨x, hx, rfl⟩ := List.mem_map.1 hp
    simp only [log_fin_pos (hpos x hx)]
    have := hlp x
    cases h : lp x <;> simp_all
  · rw [List.zipWith_map, List.zipWith_self]
    exact List.map_congr_left fun x hx => expR_sub_log (hlp x) (hpos x hx)

omit [MeasurableSpace α] in
theorem cover (hq0 : ∀ x, 0 ≤ q x) {r : α → ℝ} (hcov : ∀ x, r x * pdet x ≠ 0 → 0 < q x) (x : α) : q x * (r x / q x * pdet x) = r x * pdet x := by
  rcases (hq0 x).lt_or_eq with h | h
  · field_simp
  · rw [← h, zero_mul]
    by_contra hne
    have := hcov x (Ne.symm hne)
    rw [← h] at this
    exact lt_irrefl _ this

omit [MeasurableSpace α] in
theorem cover_sq (hq0 : ∀ x, 0 ≤ q x) {r : α → ℝ} (x : α) : q x * ((r x / q x) ^ 2 * pdet x) = r x ^ 2 / q x * pdet x := by
  rcases (hq0 x).lt_or_eq with h | h
  · field_simp
  · rw [← h]; simp

section campaign
variable (h : Campaign P ν q Y) [SFinite ν] (hq : Measurable q) (hq0 : ∀ x, 0 ≤ q x) (hp : Measurable pdet) (hp0 : ∀ x, 0 ≤ pdet x)
  (hp1 : ∀ x, pdet x ≤ 1) {lp : α → XR} (hlp : ∀ x, lp x ≠ pinf) (hr : Measurable fun x => expR (lp x))
  (hcov : ∀ x, expR (lp x) * pdet x ≠ 0 → 0 < q x)
include h hq hq0 hp hp0 hp1 hr

theorem weight_integrable (hcov : ∀ x, expR (lp x) * pdet x ≠ 0 → 0 < q x) (hint : Integrable (fun x => expR (lp x) * pdet x) ν) (i : ℕ) :
    Integrable (fun ω => ifFound pdet (fun x => expR (lp x) / q x) (Y i ω)) P ∧
    ∫ ω, ifFound pdet (fun x => expR (lp x) / q x) (Y i ω) ∂P = ∫ x, expR (lp x) * pdet x ∂ν := by
  have hm := moment (ν := ν) (g := fun x => expR (lp x) / q x) hq hq0 hp hp0 hp1 (hr.div hq) (by
    refine hint.congr (Eventually.of_forall fun x => ?_)
    exact (cover hq0 hcov x).symm)
  have hmeas : Measurable (ifFound pdet fun x => expR (lp x) / q x) := measurable_ifFound hp (hr.div hq)
  rw [← h.law i] at hm
  refine ⟨hm.1.comp_measurable (h.measurable i), ?_⟩
  rw [integral_map (h.measurable i).aemeasurable hmeas.aestronglyMeasurable] at hm
  refine hm.2.trans ?_
  exact integral_congr_ae (Eventually.of_forall fun x => cover hq0 hcov x)

omit [SFinite ν] hq0 hp0 hp1 in
theorem weight_ident (i : ℕ) : IdentDistrib (fun ω => ifFound pdet (fun x => expR (lp x) / q x) (Y i ω))
    (fun ω => ifFound pdet (fun x => expR (lp x) / q x) (Y 0 ω)) P P := by
  have hmeas : Measurable (ifFound pdet fun x => expR (lp x) / q x) := measurable_ifFound hp (hr.div hq)
  refine ⟨(hmeas.comp (h.measurable i)).aemeasurable, (hmeas.comp (h.measurable 0)).aemeasurable, ?_⟩
  change P.map (ifFound pdet _ ∘ Y i) = P.map (ifFound pdet _ ∘ Y 0)
  rw [← Measure.map_map hmeas (h.measurable i), h.law i, ← h.law 0, Measure.map_map hmeas (h.measurable 0)]

omit [SFinite ν] hq0 hp0 hp1 in
theorem weight_indep : Pairwise fun i j => IndepFun (fun ω => ifFound pdet (fun x => expR (lp x) / q x) (Y i ω))
    (fun ω => ifFound pdet (fun x => expR (lp x) / q x) (Y j ω)) P := by
  have hmeas : Measurable (ifFound pdet fun x => expR (lp x) / q x) := measurable_ifFound hp (hr.div hq)
  exact fun i j hij => (h.independent.indepFun hij).comp hmeas hmeas

include hlp hcov

/-! ## Theorems -/

/-- **C87 (no bias).**  For every campaign whose injections reach wherever the population can be detected: the injection estimate is almost surely a
finite number, and its mean is the expected number of detections. -/
theorem C87_unbiased (hint : Integrable (fun x => expR (lp x) * pdet x) ν) (T : ℝ) (hT : 0 ≤ T) (N : ℕ) (hN : 1 ≤ N) :
    ∃ m : Ω → ℝ, (∀ᵐ ω ∂P, injectionMean T N ((foundInjections pdet Y N ω).map lp) ((foundInjections pdet Y N ω).map fun x => log (fin (q x))) = fin (m ω)) ∧
      Integrable m P ∧ ∫ ω, m ω ∂P = expectedDetections ν pdet T lp := by
  have hN0 : (0 : ℝ) < N := by exact_mod_cast (by omega : 0 < N)
  have hw := weight_integrable h hq hq0 hp hp0 hp1 hr hcov hint
  refine ⟨fun ω => T / N * ∑ i ∈ Finset.range N, ifFound pdet (fun x => expR (lp x) / q x) (Y i ω), ?_, ?_, ?_⟩
  · filter_upwards [ae_drawn h hq] with ω hω
    obtain ⟨h1, h2⟩ := terms_eq (pdet := pdet) hlp hω N
    rw [(C12_mean T N hT hN0 _ _ h1).1, h2, found_sum]
  · exact (integrable_finsetSum _ fun i _ => (hw i).1).const_mul _
  · rw [integral_const_mul, integral_finsetSum _ fun i _ => (hw i).1, Finset.sum_congr rfl fun i _ => (hw i).2, expectedDetections]
    simp only [Finset.sum_const, Finset.card_range, nsmul_eq_mul]
    field_simp

/-- **C87 (consistency).**  Almost surely, the estimate converges to the expected number of detections as the number of injections grows. -/
theorem C87_consistent (hint : Integrable (fun x => expR (lp x) * pdet x) ν) (T : ℝ) (hT : 0 ≤ T) :
    ∀ᵐ ω ∂P, ∃ m : ℕ → ℝ,
      (∀ N : ℕ, 1 ≤ N → injectionMean T N ((foundInjections pdet Y N ω).map lp) ((foundInjections pdet Y N ω).map fun x => log (fin (q x))) = fin (m N)) ∧
      Tendsto m atTop (𝓝 (expectedDetections ν pdet T lp)) := by
  have hw := weight_integrable h hq hq0 hp hp0 hp1 hr hcov hint
  have hlaw := strong_law_ae_real (μ := P) (fun i ω => ifFound pdet (fun x => expR (lp x) / q x) (Y i ω)) (hw 0).1
    (weight_indep h hq hp hr) (weight_ident h hq hp hr)
  filter_upwards [ae_drawn h hq, hlaw] with ω hω hlim
  refine ⟨fun N => T * ((∑ i ∈ Finset.range N, ifFound pdet (fun x => expR (lp x) / q x) (Y i ω)) / N), fun N hN => ?_, ?_⟩
  · have hN0 : (0 : ℝ) < N := by exact_mod_cast (by omega : 0 < N)
    obtain ⟨h1, h2⟩ := terms_eq (pdet := pdet) hlp hω N
    rw [(C12_mean T N hT hN0 _ _ h1).1, h2, found_sum]
    congr 1
    ring
  · rw [expectedDetections, ← (hw 0).2]
    exact hlim.const_mul T

omit hcov in
/-- **C87 (variance).**  If the weights have a finite variance, the mean of the variance estimate is `1 - 1/N` times the variance of the estimate. -/
theorem C87_variance [IsProbabilityMeasure P] (hint2 : Integrable (fun x => expR (lp x) ^ 2 / q x * pdet x) ν)
    (T : ℝ) (hT : 0 < T) (N : ℕ) (hN : 1 ≤ N) :
    ∃ m v : Ω → ℝ,
      (∀ᵐ ω ∂P, injectionMean T N ((foundInjections pdet Y N ω).map lp) ((foundInjections pdet Y N ω).map fun x => log (fin (q x))) = fin (m ω) ∧
        injectionVariance T N ((foundInjections pdet Y N ω).map lp) ((foundInjections pdet Y N ω).map fun x => log (fin (q x))) = fin (v ω)) ∧
      MemLp m 2 P ∧ Integrable v P ∧ ∫ ω, v ω ∂P = (1 - 1 / (N : ℝ)) * Var[m; P] := by
  have hN0 : (0 : ℝ) < N := by exact_mod_cast (by omega : 0 < N)
  have hmeas : Measurable (ifFound pdet fun x => expR (lp x) / q x) := measurable_ifFound hp (hr.div hq)
  have hZ : ∀ i, MemLp (fun ω => ifFound pdet (fun x => expR (lp x) / q x) (Y i ω)) 2 P := by
    intro i
    refine (memLp_two_iff_integrable_sq (hmeas.comp (h.measurable i)).aestronglyMeasurable).2 ?_
    have hm := moment (ν := ν) (g := fun x => (expR (lp x) / q x) ^ 2) hq hq0 hp hp0 hp1 ((hr.div hq).pow_const 2) (by
      refine hint2.congr (Eventually.of_forall fun x => ?_)
      exact (cover_sq hq0 (r := fun x => expR (lp x)) x).symm)
    rw [← h.law i] at hm
    refine (hm.1.comp_measurable (h.measurable i)).congr (Eventually.of_forall fun ω => ?_)
    simp only [Function.comp, ifFound]
    split_ifs <;> simp
  obtain ⟨v1, v2⟩ := variance_estimate hZ (weight_indep h hq hp hr) (weight_ident h hq hp hr) T N hN
  refine ⟨fun ω => T / N * ∑ i ∈ Finset.range N, ifFound pdet (fun x => expR (lp x) / q x) (Y i ω), _, ?_,
    (memLp_finsetSum _ fun i _ => hZ i).const_mul _, v1, v2⟩
  filter_upwards [ae_drawn h hq] with ω hω
  obtain ⟨h1, h2⟩ := terms_eq (pdet := pdet) hlp hω N
  refine ⟨by rw [(C12_mean T N hT.le hN0 _ _ h1).1, h2, found_sum], ?_⟩
  rw [(C12_variance T N hT hN0 _ _ h1 _ rfl).1, h2, found_sum]
  congr 3
  rw [List.map_map, show ((fun x : ℝ => x ^ 2) ∘ fun x => expR (lp x) / q x) = fun x => (expR (lp x) / q x) ^ 2 from rfl, found_sum]
  refine Finset.sum_congr rfl fun i _ => ?_
  simp only [ifFound]
  split_ifs <;> simp

omit hcov in
/-- **C87 (violated when the injections do not reach the population).**  Without the condition on the reach of the injections the estimate is still a
finite number, with no sign that anything is missing, and its mean counts only the part of the population that injections reach. -/
theorem C87_uncovered_violated (hint : Integrable (fun x => expR (lp x) * pdet x) ν) (T : ℝ) (hT : 0 ≤ T) (N : ℕ) (hN : 1 ≤ N) :
    ∃ m : Ω → ℝ, (∀ᵐ ω ∂P, injectionMean T N ((foundInjections pdet Y N ω).map lp) ((foundInjections pdet Y N ω).map fun x => log (fin (q x))) = fin (m ω)) ∧
      Integrable m P ∧ ∫ ω, m ω ∂P = T * ∫ x in {x | 0 < q x}, expR (lp x) * pdet x ∂ν ∧
      (0 < T → ν {x | q x = 0 ∧ 0 < expR (lp x) * pdet x} ≠ 0 → ∫ ω, m ω ∂P < expectedDetections ν pdet T lp) := by
  have hS : MeasurableSet {x | 0 < q x} := measurableSet_lt measurable_const hq
  set lp' : α → XR := fun x => if 0 < q x then lp x else ninf with hlp'
  have e : ∀ x, expR (lp' x) * pdet x = {x | 0 < q x}.indicator (fun x => expR (lp x) * pdet x) x := by
    intro x
    by_cases hx : 0 < q x
    · rw [Set.indicator_of_mem (by exact hx)]; simp [hlp', hx]
    · rw [Set.indicator_of_notMem (by exact hx)]; simp [hlp', hx, expR]
  have hr' : Measurable fun x => expR (lp' x) := by
    have : (fun x => expR (lp' x)) = fun x => if 0 < q x then expR (lp x) else 0 := by
      funext x
      by_cases hx : 0 < q x <;> simp [hlp', hx, expR]
    rw [this]
    exact Measurable.ite hS hr measurable_const
  have hi' : Integrable (fun x => expR (lp' x) * pdet x) ν := by
    simp only [e]
    exact hint.indicator hS
  obtain ⟨m, m1, m2, m3⟩ := C87_unbiased h hq hq0 hp hp0 hp1 (lp := lp') (fun x => by simp only [hlp']; split_ifs; exacts [hlp x, by simp]) hr'
    (fun x hx => by
      by_contra hc
      rw [e, Set.indicator_of_notMem (by exact hc)] at hx
      exact hx rfl) hi' T hT N hN
  have m4 : ∫ ω, m ω ∂P = T * ∫ x in {x | 0 < q x}, expR (lp x) * pdet x ∂ν := by
    rw [m3, expectedDetections]
    simp only [e]
    rw [integral_indicator hS]
  refine ⟨m, ?_, m2, m4, fun hT' hne => ?_⟩
  · filter_upwards [m1, ae_drawn h hq] with ω hω hd
    rw [← hω]
    congr 1
    refine List.map_congr_left fun x hx => ?_
    obtain ⟨i, rfl⟩ := found_mem hx
    simp [hlp', hd i]
  · rw [m4, expectedDetections]
    refine mul_lt_mul_of_pos_left ?_ hT'
    have hnn : ∀ x, 0 ≤ expR (lp x) * pdet x := fun x => mul_nonneg (expR_nonneg _) (hp0 x)
    rw [← integral_add_compl hS hint]
    refine lt_add_of_pos_right _ ?_
    rw [integral_pos_iff_support_of_nonneg hnn hint.integrableOn, Measure.restrict_apply' hS.compl]
    refine pos_iff_ne_zero.2 fun h0 => hne (measure_mono_null ?_ h0)
    rintro x ⟨hx1, hx2⟩
    exact ⟨hx2.ne', by simp [hx1]⟩

end campaign

/-! ## Neural estimators -/

section neural
variable {K : ℕ} {Q : Fin K → Measure α} {X : Fin K → ℕ → Ω → α} {logVT : α → XR} (logR : Fin K → ℝ)

/-- The components of the population with the sensitivity at their first `n` draws, as the estimators take them. -/
def drawn (logVT : α → XR) (X : Fin K → ℕ → Ω → α) (n : ℕ) (ω : Ω) : List (ℝ × List XR) :=
  List.ofFn fun k => (logR k, (List.range n).map fun j => logVT (X k j ω))

omit [MeasurableSpace α] [MeasurableSpace Ω] in
theorem sum_range_list (f : ℕ → ℝ) (n : ℕ) : ((List.range n).map f).sum = ∑ j ∈ Finset.range n, f j := by
  rw [Finset.sum_range, ← List.sum_ofFn]
  congr 1
  apply List.ext_getElem <;> simp

omit [MeasurableSpace α] [MeasurableSpace Ω] in
theorem vtMean_drawn (hl : ∀ x, IsLog (logVT x)) (T : ℝ) (n : ℕ) (hn : 1 ≤ n) (ω : Ω) :
    vtMean T n ((drawn logR logVT X n ω).map fun c => (fin c.1, c.2)) =
      fin (T * ∑ k, Real.exp (logR k) * ((∑ j ∈ Finset.range n, expR (logVT (X k j ω))) / n)) := by
  rw [C13_vt_mean T n hn _ (by
    intro c hc
    obtain ⟨k, rfl⟩ := List.mem_ofFn.1 hc
    refine ⟨by simp, fun v hv => ?_⟩
    obtain ⟨j, _, rfl⟩ := List.mem_map.1 hv
    exact hl _)]
  congr 2
  rw [drawn, List.map_ofFn, List.sum_ofFn]
  refine Finset.sum_congr rfl fun k _ => ?_
  simp only [Function.comp, mean, List.map_map, List.length_map, List.length_range]
  rw [← sum_range_list]
  rfl

omit [MeasurableSpace α] [MeasurableSpace Ω] in
theorem vtVariance_drawn (hl : ∀ x, IsLog (logVT x)) (T : ℝ) (hT : 0 < T) (n : ℕ) (hn : 1 ≤ n) (ω : Ω) :
    vtVariance T n ((drawn logR logVT X n ω).map fun c => (fin c.1, c.2)) =
      fin (∑ k, (T * Real.exp (logR k)) ^ 2 / (n : ℝ) ^ 2 *
        ((∑ j ∈ Finset.range n, expR (logVT (X k j ω)) ^ 2) - (∑ j ∈ Finset.range n, expR (logVT (X k j ω))) ^ 2 / n)) := by
  obtain ⟨v, h1, _, h3⟩ := C13_vt_variance T hT n hn (drawn logR logVT X n ω) (by
    intro c hc
    obtain ⟨k, rfl⟩ := List.mem_ofFn.1 hc
    refine ⟨by simp, fun v hv => ?_⟩
    obtain ⟨j, _, rfl⟩ := List.mem_map.1 hv
    exact hl _)
  rw [h1, h3]
  congr 1
  rw [drawn, List.map_ofFn, List.sum_ofFn]
  refine Finset.sum_congr rfl fun k _ => ?_
  simp only [Function.comp, List.map_map]
  rw [← sum_range_list, ← sum_range_list]
  simp only [Function.comp_def]
  ring

variable (h : Draws P Q X) (hm : Measurable fun x => expR (logVT x)) (hl : ∀ x, IsLog (logVT x))
include h hm

theorem draw_integrable (hint : ∀ k, Integrable (fun x => expR (logVT x)) (Q k)) (k : Fin K) (j : ℕ) :
    Integrable (fun ω => expR (logVT (X k j ω))) P ∧ ∫ ω, expR (logVT (X k j ω)) ∂P = ∫ x, expR (logVT x) ∂(Q k) := by
  have hi := hint k
  rw [← h.law k j] at hi ⊢
  exact ⟨hi.comp_measurable (h.measurable k j), (integral_map (h.measurable k j).aemeasurable hm.aestronglyMeasurable).symm⟩

theorem draw_ident (k : Fin K) (j : ℕ) : IdentDistrib (fun ω => expR (logVT (X k j ω))) (fun ω => expR (logVT (X k 0 ω))) P P := by
  refine ⟨(hm.comp (h.measurable k j)).aemeasurable, (hm.comp (h.measurable k 0)).aemeasurable, ?_⟩
  change P.map ((fun x => expR (logVT x)) ∘ X k j) = P.map ((fun x => expR (logVT x)) ∘ X k 0)
  rw [← Measure.map_map hm (h.measurable k j), h.law k j, ← h.law k 0, Measure.map_map hm (h.measurable k 0)]

theorem draw_indep : Pairwise fun a b : Fin K × ℕ => IndepFun (fun ω => expR (logVT (X a.1 a.2 ω))) (fun ω => expR (logVT (X b.1 b.2 ω))) P :=
  fun _ _ hab => (h.independent hab).comp hm hm

include hl

/-- **C87 (no bias, neural sensitivity).**  For every population and every network with outputs that are finite or `-inf`, the mean of the estimate of
the expected number of detections is the expected number of detections. -/
theorem C87_neural_unbiased (hint : ∀ k, Integrable (fun x => expR (logVT x)) (Q k)) (T : ℝ) (n : ℕ) (hn : 1 ≤ n) :
    ∃ m : Ω → ℝ, (∀ ω, vtMean T n ((drawn logR logVT X n ω).map fun c => (fin c.1, c.2)) = fin (m ω)) ∧ Integrable m P ∧
      ∫ ω, m ω ∂P = expectedFromComponents Q logR T logVT := by
  have hn0 : (n : ℝ) ≠ 0 := by exact_mod_cast (by omega : n ≠ 0)
  have hd := draw_integrable h hm hint
  refine ⟨_, fun ω => vtMean_drawn logR hl T n hn ω, ?_, ?_⟩
  · exact (integrable_finsetSum _ fun k _ => ((integrable_finsetSum _ fun j _ => (hd k j).1).div_const _).const_mul _).const_mul _
  · rw [integral_const_mul, integral_finsetSum _ fun k _ => ((integrable_finsetSum _ fun j _ => (hd k j).1).div_const _).const_mul _,
      expectedFromComponents]
    congr 1
    refine Finset.sum_congr rfl fun k _ => ?_
    rw [integral_const_mul, integral_div, integral_finsetSum _ fun j _ => (hd k j).1, Finset.sum_congr rfl fun j _ => (hd k j).2]
    simp only [Finset.sum_const, Finset.card_range, nsmul_eq_mul]
    field_simp

/-- **C87 (consistency, neural sensitivity).**  Almost surely, the estimate converges to the expected number as the number of draws grows. -/
theorem C87_neural_consistent (hint : ∀ k, Integrable (fun x => expR (logVT x)) (Q k)) (T : ℝ) :
    ∀ᵐ ω ∂P, ∃ m : ℕ → ℝ, (∀ n : ℕ, 1 ≤ n → vtMean T n ((drawn logR logVT X n ω).map fun c => (fin c.1, c.2)) = fin (m n)) ∧
      Tendsto m atTop (𝓝 (expectedFromComponents Q logR T logVT)) := by
  have hd := draw_integrable h hm hint
  have hlaw : ∀ᵐ ω ∂P, ∀ k, Tendsto (fun n : ℕ => (∑ j ∈ Finset.range n, expR (logVT (X k j ω))) / n) atTop (𝓝 (∫ x, expR (logVT x) ∂(Q k))) := by
    rw [ae_all_iff]
    intro k
    rw [← (hd k 0).2]
    exact strong_law_ae_real (μ := P) (fun j ω => expR (logVT (X k j ω))) (hd k 0).1
      (fun i j hij => draw_indep h hm (show (k, i) ≠ (k, j) from fun e => hij (Prod.ext_iff.1 e).2)) (draw_ident h hm k)
  filter_upwards [hlaw] with ω hω
  exact ⟨_, fun n hn => vtMean_drawn logR hl T n hn ω, (tendsto_finsetSum _ fun k _ => (hω k).const_mul _).const_mul _⟩

/-- **C87 (variance, neural sensitivity).**  The mean of the variance estimate is `1 - 1/n` times the variance of the estimate. -/
theorem C87_neural_variance [IsProbabilityMeasure P] (hint2 : ∀ k, Integrable (fun x => expR (logVT x) ^ 2) (Q k)) (T : ℝ) (hT : 0 < T)
    (n : ℕ) (hn : 1 ≤ n) :
    ∃ m v : Ω → ℝ, (∀ ω, vtMean T n ((drawn logR logVT X n ω).map fun c => (fin c.1, c.2)) = fin (m ω) ∧
        vtVariance T n ((drawn logR logVT X n ω).map fun c => (fin c.1, c.2)) = fin (v ω)) ∧
      MemLp m 2 P ∧ Integrable v P ∧ ∫ ω, v ω ∂P = (1 - 1 / (n : ℝ)) * Var[m; P] := by
  have hn0 : (n : ℝ) ≠ 0 := by exact_mod_cast (by omega : n ≠ 0)
  have hZ : ∀ k j, MemLp (fun ω => expR (logVT (X k j ω))) 2 P := by
    intro k j
    refine (memLp_two_iff_integrable_sq (hm.comp (h.measurable k j)).aestronglyMeasurable).2 ?_
    have hi := hint2 k
    rw [← h.law k j] at hi
    exact hi.comp_measurable (h.measurable k j)
  have hind := draw_indep h hm
  have hve := fun k => variance_estimate (Z := fun j ω => expR (logVT (X k j ω))) (hZ k)
    (fun i j hij => hind (show (k, i) ≠ (k, j) from fun e => hij (Prod.ext_iff.1 e).2)) (draw_ident h hm k) (T * Real.exp (logR k)) n hn
  set mk : Fin K → Ω → ℝ := fun k ω => T * Real.exp (logR k) / n * ∑ j ∈ Finset.range n, expR (logVT (X k j ω)) with hmk
  have hmkL : ∀ k, MemLp (mk k) 2 P := fun k => (memLp_finsetSum _ fun j _ => hZ k j).const_mul _
  have hm_eq : (fun ω => T * ∑ k, Real.exp (logR k) * ((∑ j ∈ Finset.range n, expR (logVT (X k j ω))) / n)) = fun ω => ∑ k, mk k ω := by
    funext ω
    rw [Finset.mul_sum]
    exact Finset.sum_congr rfl fun k _ => by simp only [hmk]; ring
  -- the variance of the total is the sum of the variances of the components
  have hpairs : ∀ p : Fin K × ℕ, MemLp (fun ω => T * Real.exp (logR p.1) / n * expR (logVT (X p.1 p.2 ω))) 2 P := fun p => (hZ p.1 p.2).const_mul _
  have hpind : Pairwise fun a b : Fin K × ℕ => IndepFun (fun ω => T * Real.exp (logR a.1) / n * expR (logVT (X a.1 a.2 ω)))
      (fun ω => T * Real.exp (logR b.1) / n * expR (logVT (X b.1 b.2 ω))) P :=
    fun a b hab => (hind hab).comp (measurable_const_mul _) (measurable_const_mul _)
  have hsub : ∀ s : Finset (Fin K × ℕ), Var[fun ω => ∑ p ∈ s, T * Real.exp (logR p.1) / n * expR (logVT (X p.1 p.2 ω)); P] =
      ∑ p ∈ s, Var[fun ω => T * Real.exp (logR p.1) / n * expR (logVT (X p.1 p.2 ω)); P] := by
    intro s
    rw [← IndepFun.variance_sum (fun p _ => hpairs p) (fun a _ b _ hab => hpind hab)]
    congr 1
    funext ω
    simp
  have hone : ∀ k, Var[mk k; P] = ∑ j ∈ Finset.range n, Var[fun ω => T * Real.exp (logR k) / n * expR (logVT (X k j ω)); P] := by
    intro k
    have := hsub ({k} ×ˢ Finset.range n)
    rw [Finset.sum_product, Finset.sum_singleton] at this
    rw [← this]
    congr 1
    funext ω
    simp only [hmk, Finset.mul_sum, Finset.sum_product, Finset.sum_singleton]
  have htot : Var[fun ω => ∑ k, mk k ω; P] = ∑ k, Var[mk k; P] := by
    have := hsub (Finset.univ ×ˢ Finset.range n)
    rw [Finset.sum_product] at this
    simp only [hone]
    rw [← this]
    congr 1
    funext ω
    simp only [hmk, Finset.mul_sum, Finset.sum_product]
  refine ⟨_, _, fun ω => ⟨vtMean_drawn logR hl T n hn ω, vtVariance_drawn logR hl T hT n hn ω⟩, ?_, integrable_finsetSum _ fun k _ => (hve k).1, ?_⟩
  · rw [hm_eq]
    exact memLp_finsetSum _ fun k _ => hmkL k
  · rw [integral_finsetSum _ fun k _ => (hve k).1, hm_eq, htot, Finset.mul_sum]
    exact Finset.sum_congr rfl fun k _ => (hve k).2

/-- **C87 (neural detection probability).**  The detection-probability estimator: with `exp (z k)` the norm of the first power-law redshift among the marginals of component
`k` (1 if it has none), the mean of the estimate is the expected number of a population with rates `exp (logR k + z k)`, and the mean of the variance
estimate is `1 - 1/n` times the variance of the estimate. -/
theorem C87_pdet [IsProbabilityMeasure P] (marginals : Fin K → Option (List Marginal)) (z : Fin K → ℝ)
    (hfound : ∀ k before m after, marginals k = some (before ++ m :: after) → (∀ b ∈ before, b.cls ≠ "PowerlawRedshift") → m.cls = "PowerlawRedshift" → m.logNorm = fin (z k))
    (hnone : ∀ k, (∀ l, marginals k = some l → ∀ m ∈ l, m.cls ≠ "PowerlawRedshift") → z k = 0)
    (hint2 : ∀ k, Integrable (fun x => expR (logVT x) ^ 2) (Q k)) (T : ℝ) (hT : 0 < T) (n : ℕ) (hn : 1 ≤ n) :
    ∃ m v : Ω → ℝ,
      (∀ ω, pdetMean T n (List.ofFn fun k => (fin (logR k), marginals k, (List.range n).map fun j => logVT (X k j ω))) = fin (m ω) ∧
        pdetVariance T n (List.ofFn fun k => (fin (logR k), marginals k, (List.range n).map fun j => logVT (X k j ω))) = fin (v ω)) ∧
      Integrable m P ∧ ∫ ω, m ω ∂P = expectedFromComponents Q (fun k => logR k + z k) T logVT ∧
      Integrable v P ∧ ∫ ω, v ω ∂P = (1 - 1 / (n : ℝ)) * Var[m; P] := by
  have hz : ∀ k, redshiftLogNorm (marginals k) = fin (z k) := fun k => redshiftLogNorm_eq (hfound k) (hnone k)
  have hn0 : (0 : ℝ) < n := by exact_mod_cast (by omega : 0 < n)
  have e1 : ∀ ω, pdetMean T n (List.ofFn fun k => (fin (logR k), marginals k, (List.range n).map fun j => logVT (X k j ω))) =
      vtMean T n ((drawn (fun k => logR k + z k) logVT X n ω).map fun c => (fin c.1, c.2)) := by
    intro ω
    rw [pdetMean, vtMean, drawn]
    simp only [List.map_ofFn, Function.comp_def, hz, add_fin_fin]
  have e2 : ∀ ω, pdetVariance T n (List.ofFn fun k => (fin (logR k), marginals k, (List.range n).map fun j => logVT (X k j ω))) =
      vtVariance T n ((drawn (fun k => logR k + z k) logVT X n ω).map fun c => (fin c.1, c.2)) := by
    intro ω
    have e : ∀ (a : ℝ) (k : Fin K), fin a + fin 2 * fin (logR k) + fin 2 * fin (z k) = fin a + fin 2 * fin (logR k + z k) := by
      intro a k
      simp only [mul_fin_fin, add_fin_fin]
      congr 1
      ring
    rw [pdetVariance, vtVariance, drawn]
    simp only [List.map_ofFn, Function.comp_def, hz, two_log hT, two_log hn0, sub_fin_fin]
    simp only [e]
  have hint : ∀ k, Integrable (fun x => expR (logVT x)) (Q k) := by
    intro k
    have hQ : IsProbabilityMeasure (Q k) := by rw [← h.law k 0]; exact Measure.isProbabilityMeasure_map (h.measurable k 0).aemeasurable
    exact ((memLp_two_iff_integrable_sq hm.aestronglyMeasurable).2 (hint2 k)).integrable (by norm_num)
  obtain ⟨m, m1, m2, m3⟩ := C87_neural_unbiased (fun k => logR k + z k) h hm hl hint T n hn
  obtain ⟨m', v, v1, v2, v3, v4⟩ := C87_neural_variance (fun k => logR k + z k) h hm hl hint2 T hT n hn
  have : m' = m := funext fun ω => by
    have := (v1 ω).1.symm.trans (m1 ω)
    simpa using this
  subst this
  exact ⟨m', v, fun ω => ⟨(e1 ω).trans (v1 ω).1, (e2 ω).trans (v1 ω).2⟩, m2, m3, v3, v4⟩

end neural

/-! ## Examples -/

/-- Injections uniform on `[0, 1)`, found with probability one half; a population with rate 1 there.  The conditions of `C87_unbiased`,
`C87_consistent` and `C87_variance` hold, and one half of a detection is expected per unit of time. -/
example : ∃ (Ω : Type) (_ : MeasurableSpace Ω) (P : Measure Ω) (Y : ℕ → Ω → ℝ × ℝ) (q pdet : ℝ → ℝ) (lp : ℝ → XR),
    IsProbabilityMeasure P ∧ Campaign P volume q Y ∧ Measurable q ∧ (∀ x, 0 ≤ q x) ∧ Measurable pdet ∧ (∀ x, 0 ≤ pdet x) ∧ (∀ x, pdet x ≤ 1) ∧
    (∀ x, lp x ≠ pinf) ∧ (Measurable fun x => expR (lp x)) ∧ (∀ x, expR (lp x) * pdet x ≠ 0 → 0 < q x) ∧
    Integrable (fun x => expR (lp x) * pdet x) ∧ Integrable (fun x => expR (lp x) ^ 2 / q x * pdet x) ∧
    expectedDetections volume pdet 1 lp = 1 / 2 := by
  set q : ℝ → ℝ := (Set.Ico (0 : ℝ) 1).indicator 1 with hqd
  set lp : ℝ → XR := fun x => if x ∈ Set.Ico (0 : ℝ) 1 then fin 0 else ninf with hlp
  have hexp : ∀ x, expR (lp x) = q x := by
    intro x
    by_cases hx : x ∈ Set.Ico (0 : ℝ) 1
    · simp only [hlp, hqd, if_pos hx, Set.indicator_of_mem hx]; simp [expR]
    · simp only [hlp, hqd, if_neg hx, Set.indicator_of_notMem hx]; simp [expR]
  have hqm : Measurable q := measurable_one.indicator measurableSet_Ico
  have hq1 : Integrable q := (integrable_indicator_iff measurableSet_Ico).2 (integrableOn_const (C := (1 : ℝ)) (by simp))
  have hlaw : ((volume : Measure ℝ).withDensity fun x => ENNReal.ofReal (q x)) = unit := by
    rw [unit, ← withDensity_indicator_one measurableSet_Ico]
    congr 1
    funext x
    by_cases hx : x ∈ Set.Ico (0 : ℝ) 1 <;> simp [hqd, hx, Set.indicator_of_notMem]
  have hu : IsProbabilityMeasure unit := ⟨by simp [unit]⟩
  refine ⟨ℕ → ℝ × ℝ, inferInstance, Measure.infinitePi fun _ => unit.prod unit, fun i ω => ω i, q, fun _ => 1 / 2, lp, inferInstance,
    ⟨fun i => measurable_pi_apply i, fun i => ?_, iIndepFun_infinitePi (P := fun _ => unit.prod unit) (X := fun _ x => x) (fun _ => measurable_id)⟩,
    hqm, fun x => Set.indicator_nonneg (by simp) x, measurable_const, by intro x; norm_num, by intro x; norm_num, ?_, ?_, ?_, ?_, ?_, ?_⟩
  · rw [hlaw]; exact Measure.infinitePi_map_eval _ i
  · intro x; simp only [hlp]; split_ifs <;> simp
  · simpa only [hexp] using hqm
  · intro x hx
    rw [hexp] at hx
    refine lt_of_le_of_ne (Set.indicator_nonneg (by simp) x) fun h0 => hx ?_
    rw [← h0, zero_mul]
  · simp only [hexp]; exact hq1.mul_const _
  · refine (hq1.mul_const (1 / 2)).congr (Eventually.of_forall fun x => ?_)
    simp only [hexp]
    by_cases hx : q x = 0
    · simp [hx]
    · field_simp
  · simp only [expectedDetections, hexp]
    rw [integral_mul_const, hqd, integral_indicator_one measurableSet_Ico]
    simp

/-- Two components, each drawn uniformly on `[0, 1)`, and a network with output one half: `Draws` holds for independent draws, and with the rates 1 and
2, one and a half detections are expected. -/
example : ∃ (Ω : Type) (_ : MeasurableSpace Ω) (P : Measure Ω) (X : Fin 2 → ℕ → Ω → ℝ), IsProbabilityMeasure P ∧ Draws P (fun _ => unit) X ∧
    expectedFromComponents (fun _ : Fin 2 => unit) ![0, Real.log 2] 1 (fun _ => fin (Real.log (1 / 2))) = 3 / 2 := by
  have hu : IsProbabilityMeasure unit := ⟨by simp [unit]⟩
  refine ⟨Fin 2 × ℕ → ℝ, inferInstance, Measure.infinitePi fun _ => unit, fun k j ω => ω (k, j), inferInstance,
    ⟨fun k j => measurable_pi_apply _, fun k j => Measure.infinitePi_map_eval _ (k, j), fun a b hab => ?_⟩, ?_⟩
  · exact (iIndepFun_infinitePi (P := fun _ : Fin 2 × ℕ => unit) (X := fun _ x => x) (fun _ => measurable_id)).indepFun hab
  · simp only [expectedFromComponents, expR_fin, Real.exp_log (show (0 : ℝ) < 1 / 2 by norm_num), integral_const, Fin.sum_univ_two]
    simp [Real.exp_log]
    norm_num

end
end GW.PoissonMean
