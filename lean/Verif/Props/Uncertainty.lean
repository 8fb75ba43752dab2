import Verif.Spec.Uncertainty
import Verif.Lemmas.Uncertainty
import Verif.Lemmas.SageVariance
import Verif.Props.Hierarchy
import Mathlib.MeasureTheory.Measure.Portmanteau

/-! # C93: the variance of the log likelihood is the variance of its error -/

namespace GW.Hierarchy
open GW XR MeasureTheory ProbabilityTheory Filter Topology PyDict
open GW.Likelihood (FRow inputEvents mcAverage)
open GW.Sage (Inputs Analysis Meaningful Sampled RowsMatch meaning inPrior logPriorOf run likelihoodVariance relativeVariance)
open GW.PoissonMean (ifFound foundInjections)

noncomputable section
open Classical

variable {α Ω : Type} [MeasurableSpace α] [MeasurableSpace Ω] {K : ℕ} {P : Measure Ω} {ν : Measure α} {L prior : Fin K → α → ℝ} {X : Fin K → ℕ → Ω → α}
  {pdet q : α → ℝ} {Y : ℕ → Ω → α × ℝ} {ord : List String → List String} {orc : Jenks.Oracle} {inp : Inputs} {row : α → FRow}
  {names : List String} {value : String → ℝ} {logPrior : ℝ} {lp : α → XR}

/-! ## Any data set -/

/-- **C93 (the number compared with the threshold).**  For every analysis, data set, bucketing and parameter values: the variance is the sum over the events
of `Σw² / (Σw)² - 1/n`, with `w` the `n` importance weights of the event, plus the variance of the expected number; the parameters are those of the prior
table, in alphabetical order. -/
theorem C93_value (ho : Jenks.OracleSorted orc) (hm : Meaningful inp.params) (hx : (keys inp.extra).Nodup)
    (hrows : RowsMatch inp) {rv : Likelihood.Model FRow → XR} {r : Analysis} {V : List XR → XR} (h : run ord orc inp = .ok r)
    (hV : likelihoodVariance ord orc inp rv = .ok V) (value : String → ℝ) (M : Likelihood.Model FRow)
    (hM : M = inp.model none (meaning inp.params inp.extra fun n => fin (value n))) (v : ℝ) (hv : rv M = fin v)
    (hlog : ∀ ev ∈ inputEvents inp.data inp.refs, ∀ p ∈ ev, (M.logProb p.1 - p.2).IsLog)
    (hpos : ∀ ev ∈ inputEvents inp.data inp.refs, 0 < (ev.map fun p => (M.logProb p.1 - p.2).expR).sum) :
    V (r.labels.map fun n => fin (value n)) =
      fin (((inputEvents inp.data inp.refs).map fun ev =>
        ((ev.map fun p => (M.logProb p.1 - p.2).expR).map fun w => w ^ 2).sum / (ev.map fun p => (M.logProb p.1 - p.2).expR).sum ^ 2 - 1 / (ev.length : ℝ)).sum + v) := by
  obtain ⟨s, pr, c, bs, hs, hp, hd, hdis, rfl⟩ := Sage.run_ok h
  obtain ⟨s', pr', c', bs', hs', hp', hd', hdis', rfl⟩ := Sage.variance_ok hV
  obtain rfl : s = s' := by rw [hs] at hs'; exact Except.ok.inj hs'
  obtain ⟨rfl, rfl⟩ : c = c' ∧ bs = bs' := by rw [hd] at hd'; exact Prod.mk.inj (Except.ok.inj hd')
  have hdist : inp.model none (Sage.kwargsOf s.constants (Sage.numbers s.constants ++ s.index.map fun p =>
      (p.1, (s.names.map fun n => fin (value n)).getD (min p.2 ((s.names.map fun n => fin (value n)).length - 1)) 0))) = M := by
    rw [hM, ← Sage.args_meaning (pr := pr) (c := c) hm hx hs hdis none fun n => fin (value n)]
    rfl
  have hperm := (Likelihood.C07_read_data_keeps_events orc ho inp.data inp.refs hrows inp.nBuckets inp.threshold c bs hd).1
  simp only [Sage.computeVariance]
  rw [hdist, hv, Sage.singleEventVariance_eq M (Sage.readData_rect ho hrows hd) (fun ev hev => hlog ev (hperm.mem_iff.1 hev))
    (fun ev hev => hpos ev (hperm.mem_iff.1 hev)), add_fin_fin, (hperm.map _).sum_eq]
  rfl

/-- The variance exists whenever the analysis runs. -/
theorem C93_exists (rv : Likelihood.Model FRow → XR) {r : Analysis} (h : run ord orc inp = .ok r) : ∃ V, likelihoodVariance ord orc inp rv = .ok V := by
  obtain ⟨s, pr, c, bs, hs, hp, hd, hdis, rfl⟩ := Sage.run_ok h
  refine ⟨Sage.computeVariance inp rv s bs, ?_⟩
  unfold likelihoodVariance
  simp only [hs, hp, hd]
  rw [if_neg hdis]

/-! ## Helpers -/

/-- The weight of a sample. -/
def weight (prior : Fin K → α → ℝ) (X : Fin K → ℕ → Ω → α) (lp : α → XR) (i : Fin K) (j : ℕ) (ω : Ω) : ℝ := expR (lp (X i j ω)) / prior i (X i j ω)

/-- The weight of an injection, counted if it is found. -/
def injectionWeight (pdet q : α → ℝ) (Y : ℕ → Ω → α × ℝ) (lp : α → XR) (j : ℕ) (ω : Ω) : ℝ := ifFound pdet (fun x => expR (lp x) / q x) (Y j ω)

omit [MeasurableSpace α] [MeasurableSpace Ω] in
/-- The variance for one data set. -/
theorem variance_eq (ho : Jenks.OracleSorted orc) (hm : Meaningful inp.params) (hx : (keys inp.extra).Nodup)
    (hat : At inp row names value logPrior lp) (hlog : ∀ x, IsLog (lp x)) {width : ℕ} {m : Fin K → ℕ} {ω : Ω} {rate rv : Likelihood.Model FRow → XR} {v : ℝ}
    (hω : ∀ i j, 0 < prior i (X i j ω)) {r : Analysis} {V : List XR → XR}
    (h : run ord orc (observe inp row width prior (fun i => (List.range (m i)).map fun j => X i j ω) rate) = .ok r)
    (hV : likelihoodVariance ord orc (observe inp row width prior (fun i => (List.range (m i)).map fun j => X i j ω) rate) rv = .ok V)
    (hv : rv (inp.model none (meaning inp.params inp.extra fun n => fin (value n))) = fin v)
    (hpos : ∀ i, 0 < ∑ j ∈ Finset.range (m i), weight prior X lp i j ω) :
    V (names.map fun n => fin (value n)) = fin ((∑ i, Normal.logVariance (weight prior X lp i) (m i) ω) + v) := by
  set xs : Fin K → List α := fun i => (List.range (m i)).map fun j => X i j ω with hxs
  set M := inp.model none (meaning inp.params inp.extra fun n => fin (value n)) with hM
  have hl := labels_eq hm hat h
  have hMl : ∀ x, M.logProb (row x) = lp x := hat.model
  have hML : ∀ x, IsLog (M.logProb (row x)) := fun x => by rw [hMl]; exact hlog x
  have havg := fun i => (average_eq (prior := prior) hML (i := i) (m := m i) (x := fun j => X i j ω) (hω i)).1
  have hev := observe_events (inp := inp) (row := row) (width := width) (prior := prior) (xs := xs) (rate := rate)
  have key := C93_value (inp := observe inp row width prior xs rate) ho hm hx observe_rows h hV value M rfl v hv (by
      rw [hev]
      intro ev hev p hp
      obtain ⟨i, -, rfl⟩ := List.mem_map.1 hev
      obtain ⟨x, hx, rfl⟩ := List.mem_map.1 hp
      obtain ⟨j, -, rfl⟩ := List.mem_map.1 hx
      exact (weight_eq hML (hω i j)).1) (by
      rw [hev]
      intro ev hev
      obtain ⟨i, -, rfl⟩ := List.mem_map.1 hev
      rw [havg i, sum_range]
      simpa only [hMl, weight] using hpos i)
  rw [hl] at key
  rw [key, hev, List.map_map]
  congr 2
  rw [← List.ofFn_id, List.map_ofFn, List.sum_ofFn]
  refine Finset.sum_congr rfl fun i _ => ?_
  simp only [Function.comp, id, Normal.logVariance]
  rw [havg i, sum_range, List.map_map, sum_range]
  simp only [hMl, weight, Function.comp, List.length_map]
  rw [hxs]
  simp

theorem weight_square (hw : World P ν L prior X pdet q Y) (hr : Measurable fun x => expR (lp x)) {T : ℝ} (hv : Varied P ν L prior X pdet q Y T lp) (i : Fin K) (j : ℕ) :
    Integrable (fun ω => weight prior X lp i j ω ^ 2) P ∧
    ∫ ω, weight prior X lp i j ω ^ 2 ∂P = (∫ x, L i x * expR (lp x) ^ 2 / prior i x ∂ν) / evidence ν (L i) (prior i) := by
  have hL := hw.measurable_L i
  have hπ := hw.measurable_prior i
  have hw2 : Measurable fun x => (expR (lp x) / prior i x) ^ 2 := (hr.div hπ).pow_const 2
  have hd : Measurable fun x => L i x * prior i x / evidence ν (L i) (prior i) := (hL.mul hπ).div_const _
  have hd0 : ∀ x, 0 ≤ L i x * prior i x / evidence ν (L i) (prior i) :=
    fun x => div_nonneg (mul_nonneg (hw.L_nonneg i x) (hw.prior_nonneg i x)) (hw.evidence_pos i).le
  have hpt : (fun x => L i x * prior i x / evidence ν (L i) (prior i) * (expR (lp x) / prior i x) ^ 2) =
      fun x => (L i x * expR (lp x) ^ 2 / prior i x) / evidence ν (L i) (prior i) := by
    funext x
    rcases (hw.prior_nonneg i x).lt_or_eq with hx | hx
    · field_simp
    · rw [← hx]; simp
  have h1 : Integrable (fun x => (expR (lp x) / prior i x) ^ 2) (P.map (X i j)) := by
    rw [hw.observed.law i j, integrable_withDensity_iff_integrable_smul' hd.ennreal_ofReal (by simp)]
    simp only [ENNReal.toReal_ofReal (hd0 _), smul_eq_mul, hpt]
    exact (hv.samples i).div_const _
  refine ⟨h1.comp_measurable (hw.observed.measurable i j), ?_⟩
  have h2 := integral_map (μ := P) (hw.observed.measurable i j).aemeasurable (f := fun x => (expR (lp x) / prior i x) ^ 2) hw2.aestronglyMeasurable
  simp only [weight]
  rw [← h2, hw.observed.law i j, integral_withDensity_eq_integral_toReal_smul hd.ennreal_ofReal (by simp)]
  simp only [ENNReal.toReal_ofReal (hd0 _), smul_eq_mul, hpt]
  rw [integral_div]

theorem injection_square [SFinite ν] (hw : World P ν L prior X pdet q Y) (hr : Measurable fun x => expR (lp x)) {T : ℝ} (hv : Varied P ν L prior X pdet q Y T lp) (j : ℕ) :
    Integrable (fun ω => injectionWeight pdet q Y lp j ω ^ 2) P ∧
    ∫ ω, injectionWeight pdet q Y lp j ω ^ 2 ∂P = ∫ x, expR (lp x) ^ 2 / q x * pdet x ∂ν := by
  have hsq := fun x => PoissonMean.cover_sq (pdet := pdet) hw.q_nonneg (r := fun x => expR (lp x)) x
  have hmeas : Measurable (ifFound pdet fun x => (expR (lp x) / q x) ^ 2) := PoissonMean.measurable_ifFound hw.measurable_pdet ((hr.div hw.measurable_q).pow_const 2)
  have hm := PoissonMean.moment (ν := ν) (g := fun x => (expR (lp x) / q x) ^ 2) hw.measurable_q hw.q_nonneg hw.measurable_pdet hw.pdet_nonneg hw.pdet_le_one
    ((hr.div hw.measurable_q).pow_const 2) (by
      refine hv.injections.congr (Eventually.of_forall fun x => ?_)
      exact (hsq x).symm)
  have he : ∀ ω, injectionWeight pdet q Y lp j ω ^ 2 = ifFound pdet (fun x => (expR (lp x) / q x) ^ 2) (Y j ω) := by
    intro ω
    simp only [injectionWeight, ifFound]
    split_ifs <;> simp
  simp only [he]
  rw [← hw.campaign.law j] at hm
  refine ⟨hm.1.comp_measurable (hw.campaign.measurable j), ?_⟩
  rw [integral_map (hw.campaign.measurable j).aemeasurable hmeas.aestronglyMeasurable] at hm
  refine hm.2.trans ?_
  exact integral_congr_ae (Eventually.of_forall fun x => hsq x)

variable [IsProbabilityMeasure P] [SFinite ν]

/-- The weights of the samples and of the injections are draws of the kind the limit theorems are about. -/
theorem draws (hw : World P ν L prior X pdet q Y) (hp : Proper ν L pdet lp) (hreach : Reaches L prior pdet q lp) {T : ℝ}
    (hv : Varied P ν L prior X pdet q Y T lp) :
    Normal.Draws P (weight prior X lp) (injectionWeight pdet q Y lp) ∧
    (∀ i, ∫ ω, weight prior X lp i 0 ω ∂P = (∫ x, L i x * expR (lp x) ∂ν) / evidence ν (L i) (prior i)) ∧
    ∫ ω, injectionWeight pdet q Y lp 0 ω ∂P = ∫ x, expR (lp x) * pdet x ∂ν ∧
    (∀ i, Var[weight prior X lp i 0; P] / (∫ ω, weight prior X lp i 0 ω ∂P) ^ 2 = weightVariance ν (L i) (prior i) lp) ∧
    T ^ 2 * Var[injectionWeight pdet q Y lp 0; P] = injectionWeightVariance ν pdet q T lp := by
  have hr := hp.measurable
  have hmean := fun i => (weight_mean hw.observed hw.measurable_L hw.L_nonneg hw.measurable_prior hw.prior_nonneg hw.evidence_pos hr hp.seen i 0).2
  simp only [fun i => reached_eq (ν := ν) (L := L i) (prior := prior i) (lp := lp) (hreach.samples i)] at hmean
  have hmean0 := (PoissonMean.weight_integrable hw.campaign hw.measurable_q hw.q_nonneg hw.measurable_pdet hw.pdet_nonneg hw.pdet_le_one hr
    hreach.injections hp.detected 0).2
  have hwm : ∀ i, Measurable fun x => expR (lp x) / prior i x := fun i => hr.div (hw.measurable_prior i)
  have hum : Measurable (ifFound pdet fun x => expR (lp x) / q x) := PoissonMean.measurable_ifFound hw.measurable_pdet (hr.div hw.measurable_q)
  have hW : ∀ i j, Measurable (weight prior X lp i j) := fun i j => (hwm i).comp (hw.observed.measurable i j)
  have hU : ∀ j, Measurable (injectionWeight pdet q Y lp j) := fun j => hum.comp (hw.campaign.measurable j)
  have hW2 : ∀ i, MemLp (weight prior X lp i 0) 2 P := fun i =>
    (memLp_two_iff_integrable_sq (hW i 0).aestronglyMeasurable).2 (weight_square hw hr hv i 0).1
  have hU2 : MemLp (injectionWeight pdet q Y lp 0) 2 P :=
    (memLp_two_iff_integrable_sq (hU 0).aestronglyMeasurable).2 (injection_square hw hr hv 0).1
  have hvar : ∀ i, Var[weight prior X lp i 0; P] = (∫ x, L i x * expR (lp x) ^ 2 / prior i x ∂ν) / evidence ν (L i) (prior i) -
      ((∫ x, L i x * expR (lp x) ∂ν) / evidence ν (L i) (prior i)) ^ 2 := by
    intro i
    rw [variance_eq_sub (hW2 i)]
    congr 1
    · exact (weight_square hw hr hv i 0).2
    · exact congrArg (· ^ 2) (hmean i)
  have hvar0 : Var[injectionWeight pdet q Y lp 0; P] = (∫ x, expR (lp x) ^ 2 / q x * pdet x ∂ν) - (∫ x, expR (lp x) * pdet x ∂ν) ^ 2 := by
    rw [variance_eq_sub hU2]
    congr 1
    · exact (injection_square hw hr hv 0).2
    · exact congrArg (· ^ 2) hmean0
  have hmpos : ∀ i, 0 < ∫ ω, weight prior X lp i 0 ω ∂P := fun i => by
    simp only [weight]
    rw [hmean i]
    exact div_pos (hp.possible i) (hw.evidence_pos i)
  have hrel : ∀ i, Var[weight prior X lp i 0; P] / (∫ ω, weight prior X lp i 0 ω ∂P) ^ 2 = weightVariance ν (L i) (prior i) lp := by
    intro i
    rw [hvar i, show ∫ ω, weight prior X lp i 0 ω ∂P = _ from hmean i, weightVariance]
    have h1 := (hp.possible i).ne'
    have h2 := (hw.evidence_pos i).ne'
    field_simp
  have hrel0 : T ^ 2 * Var[injectionWeight pdet q Y lp 0; P] = injectionWeightVariance ν pdet q T lp := by rw [hvar0, injectionWeightVariance]
  refine ⟨⟨fun i => ⟨hW i, hW2 i, ?_, ?_⟩, ⟨hU, hU2, ?_, ?_⟩, ?_, ?_, hmpos, fun i => ?_, ?_⟩, hmean, hmean0, hrel, hrel0⟩
  · exact (hw.observed.samples i).comp (fun _ x => expR (lp x) / prior i x) fun _ => hwm i
  · intro j
    refine ⟨(hW i j).aemeasurable, (hW i 0).aemeasurable, ?_⟩
    change P.map ((fun x => expR (lp x) / prior i x) ∘ X i j) = P.map ((fun x => expR (lp x) / prior i x) ∘ X i 0)
    rw [← Measure.map_map (hwm i) (hw.observed.measurable i j), hw.observed.law i j, ← hw.observed.law i 0, Measure.map_map (hwm i) (hw.observed.measurable i 0)]
  · exact hw.campaign.independent.comp (fun _ => ifFound pdet fun x => expR (lp x) / q x) fun _ => hum
  · exact PoissonMean.weight_ident hw.campaign hw.measurable_q hw.measurable_pdet hr
  · exact hw.observed.events.comp (fun i (x : ℕ → α) j => expR (lp (x j)) / prior i (x j)) fun i => measurable_pi_lambda _ fun j => (hwm i).comp (measurable_pi_apply j)
  · exact hv.apart.comp (φ := fun (x : Fin K → ℕ → α) i j => expR (lp (x i j)) / prior i (x i j))
      (ψ := fun (y : ℕ → α × ℝ) j => ifFound pdet (fun x => expR (lp x) / q x) (y j))
      (measurable_pi_lambda _ fun i => measurable_pi_lambda _ fun j => (hwm i).comp ((measurable_pi_apply j).comp (measurable_pi_apply i)))
      (measurable_pi_lambda _ fun j => hum.comp (measurable_pi_apply j))
  · have := hv.samples_vary i
    rw [← hrel i] at this
    by_contra hle
    exact absurd this (not_lt.2 (div_nonpos_of_nonpos_of_nonneg (not_lt.1 hle) (sq_nonneg _)))
  · have := hv.injections_vary
    rw [← hrel0] at this
    exact pos_of_mul_pos_right this (sq_nonneg _)

/-- The exact log posterior in terms of the mean weights. -/
theorem exact_eq (hw : World P ν L prior X pdet q Y) (hp : Proper ν L pdet lp) (hreach : Reaches L prior pdet q lp) {T : ℝ} (hT : 0 < T)
    (hv : Varied P ν L prior X pdet q Y T lp) (logPrior : ℝ) :
    exactLogPosterior ν L pdet T logPrior lp - ∑ i, Real.log (evidence ν (L i) (prior i)) =
      logPrior + ∑ i, Real.log (T * ∫ ω, weight prior X lp i 0 ω ∂P) - T * ∫ ω, injectionWeight pdet q Y lp 0 ω ∂P := by
  obtain ⟨-, h1, h2, -, -⟩ := draws hw hp hreach hv
  rw [exactLogPosterior, h2, PoissonMean.expectedDetections]
  have : ∀ i, Real.log (T * ∫ ω, weight prior X lp i 0 ω ∂P) =
      Real.log (T * ∫ x, L i x * expR (lp x) ∂ν) - Real.log (evidence ν (L i) (prior i)) := by
    intro i
    rw [h1 i, ← mul_div_assoc, Real.log_div (mul_pos hT (hp.possible i)).ne' (hw.evidence_pos i).ne']
  simp only [this, Finset.sum_sub_distrib]
  ring

/-- What the analysis reports, for almost all outcomes in which every event is possible. -/
theorem reported (hord : ∀ l, (ord l).Perm l) (ho : Jenks.OracleSorted orc) (hm : Meaningful inp.params) (hx : (keys inp.extra).Nodup)
    (hT : 0 < inp.tObs) (hw : World P ν L prior X pdet q Y) (hat : At inp row names value logPrior lp) (hp : Proper ν L pdet lp)
    (hreach : Reaches L prior pdet q lp) (hv : Varied P ν L prior X pdet q Y inp.tObs lp) (width : ℕ) :
    ∀ᵐ ω ∂P, ∀ (m : Fin K → ℕ) (N : ℕ), 1 ≤ N → (∀ i, 0 < ∑ j ∈ Finset.range (m i), weight prior X lp i j ω) → ∀ (r : Analysis) (V : List XR → XR),
      run ord orc (observe inp row width prior (fun i => (List.range (m i)).map fun j => X i j ω) (injectionRate row pdet q Y inp.tObs N ω)) = .ok r →
      likelihoodVariance ord orc (observe inp row width prior (fun i => (List.range (m i)).map fun j => X i j ω) (injectionRate row pdet q Y inp.tObs N ω))
        (injectionRateVariance row pdet q Y inp.tObs N ω) = .ok V →
      r.flowMC (names.map fun n => fin (value n)) = fin (exactLogPosterior ν L pdet inp.tObs logPrior lp - ∑ i, Real.log (evidence ν (L i) (prior i)) +
        Normal.error P inp.tObs (weight prior X lp) (injectionWeight pdet q Y lp) m N ω) ∧
      V (names.map fun n => fin (value n)) = fin (Normal.estimated inp.tObs (weight prior X lp) (injectionWeight pdet q Y lp) m N ω) := by
  have h1 := ae_inside hw.observed hw.measurable_L hw.measurable_prior hw.prior_nonneg
  have h2 := PoissonMean.ae_drawn hw.campaign hw.measurable_q
  have he := exact_eq hw hp hreach hT hv logPrior
  filter_upwards [h1, h2] with ω hω hd m N hN hpos r V hr hV
  have hN0 : (0 : ℝ) < N := by exact_mod_cast (by omega : 0 < N)
  obtain ⟨t1, t2⟩ := PoissonMean.terms_eq (pdet := pdet) (fun x => (hp.isLog x).2) hd N
  have hμ : injectionRate row pdet q Y inp.tObs N ω (inp.model none (meaning inp.params inp.extra fun n => fin (value n))) =
      fin (inp.tObs * Normal.average (injectionWeight pdet q Y lp) N ω) := by
    simp only [injectionRate, hat.model]
    rw [(PoissonMean.C12_mean inp.tObs N hT.le hN0 _ _ t1).1, t2, PoissonMean.found_sum]
    congr 1
    simp only [Normal.average, injectionWeight]
    ring
  have hσ : injectionRateVariance row pdet q Y inp.tObs N ω (inp.model none (meaning inp.params inp.extra fun n => fin (value n))) =
      fin (Normal.rateVariance inp.tObs (injectionWeight pdet q Y lp) N ω) := by
    simp only [injectionRateVariance, hat.model]
    rw [(PoissonMean.C12_variance inp.tObs N hT hN0 _ _ t1 _ rfl).1, t2, PoissonMean.found_sum]
    simp only [Normal.rateVariance, injectionWeight]
    congr 3
    rw [List.map_map, show ((fun x : ℝ => x ^ 2) ∘ fun x => expR (lp x) / q x) = fun x => (expR (lp x) / q x) ^ 2 from rfl, PoissonMean.found_sum]
    refine Finset.sum_congr rfl fun i _ => ?_
    simp only [ifFound]
    split_ifs <;> simp
  refine ⟨?_, variance_eq ho hm hx hat hp.isLog hω hr hV hσ hpos⟩
  rw [value_eq hord ho hm hx hT hat hp.isLog hω hr hμ (by simpa only [weight] using hpos), he]
  congr 1
  simp only [Normal.error, Normal.average, weight, Finset.sum_sub_distrib]
  ring

/-! ## Theorems -/

/-- **C93 (the variance is estimated consistently).**  For every analysis, population, set of events and injection campaign whose samples and injections
reach the population, with weights of finite variance: almost surely, however the numbers of samples and injections grow, the ratio of the reported variance
to the exact leading-order variance of the log posterior tends to one. -/
theorem C93_consistent (hord : ∀ l, (ord l).Perm l) (ho : Jenks.OracleSorted orc) (hm : Meaningful inp.params) (hx : (keys inp.extra).Nodup)
    (hT : 0 < inp.tObs) (hw : World P ν L prior X pdet q Y) (hat : At inp row names value logPrior lp) (hp : Proper ν L pdet lp)
    (hreach : Reaches L prior pdet q lp) (hv : Varied P ν L prior X pdet q Y inp.tObs lp) (width : ℕ) (m : Fin K → ℕ → ℕ) (hmt : ∀ i, Tendsto (m i) atTop atTop)
    (hm1 : ∀ i n, 1 ≤ m i n) (N : ℕ → ℕ) (hN : Tendsto N atTop atTop) (hN1 : ∀ n, 1 ≤ N n) :
    ∀ᵐ ω ∂P, ∀ V : ℕ → List XR → XR,
      (∀ n, likelihoodVariance ord orc (observe inp row width prior (fun i => (List.range (m i n)).map fun j => X i j ω)
        (injectionRate row pdet q Y inp.tObs (N n) ω)) (injectionRateVariance row pdet q Y inp.tObs (N n) ω) = .ok (V n)) →
      ∃ s : ℕ → ℝ, (∀ᶠ n in atTop, V n (names.map fun n => fin (value n)) = fin (s n)) ∧
        Tendsto (fun n => s n / leadingVariance ν L prior pdet q inp.tObs lp (fun i => m i n) (N n)) atTop (𝓝 1) := by
  obtain ⟨hd, hmean, hmean0, hrel, hrel0⟩ := draws hw hp hreach hv
  have hlim : ∀ᵐ ω ∂P, ∀ i, Tendsto (fun n => Normal.average (weight prior X lp i) n ω) atTop (𝓝 (∫ ω, weight prior X lp i 0 ω ∂P)) :=
    ae_all_iff.2 fun i => Normal.average_limit (hd.event i).integrable (hd.event i).indep (hd.event i).ident
  filter_upwards [reported hord ho hm hx hT hw hat hp hreach hv width, Normal.estimated_limit hd hT m hmt hm1 N hN hN1, hlim] with ω hrep hest hl V hV
  refine ⟨fun n => Normal.estimated inp.tObs (weight prior X lp) (injectionWeight pdet q Y lp) (fun i => m i n) (N n) ω, ?_, ?_⟩
  · have e1 : ∀ᶠ n in atTop, ∀ i, 0 < Normal.average (weight prior X lp i) (m i n) ω :=
      eventually_all.2 fun i => ((hl i).comp (hmt i)).eventually (lt_mem_nhds (hd.mean_pos i))
    filter_upwards [e1] with n hn
    obtain ⟨s, pr, c, bs, hs, hp', hd', hdis, -⟩ := Sage.variance_ok (hV n)
    obtain ⟨r, hr⟩ : ∃ r, run ord orc (observe inp row width prior (fun i => (List.range (m i n)).map fun j => X i j ω)
        (injectionRate row pdet q Y inp.tObs (N n) ω)) = .ok r := by
      unfold run
      simp only [hs, hp', hd']
      rw [if_neg hdis]
      exact ⟨_, rfl⟩
    refine (hrep (fun i => m i n) (N n) (hN1 n) (fun i => ?_) r (V n) hr (hV n)).2
    have := hn i
    simp only [Normal.average] at this
    by_contra hle
    exact absurd this (not_lt.2 (div_nonpos_of_nonpos_of_nonneg (not_lt.1 hle) (Nat.cast_nonneg _)))
  · refine hest.congr fun n => ?_
    congr 1
    simp only [Normal.leading, leadingVariance, hrel, hrel0]

/-- **C93 (the error has the reported variance).**  For every analysis, population, set of events and injection campaign whose samples and injections reach
the population, with weights of finite variance: however the numbers of samples and injections grow, the probability that the log density handed to the
sampler, minus the exact one, in units of the square root of the reported variance lies between `a` and `b` tends to the probability of that under the
standard normal distribution. -/
theorem C93_normal (hord : ∀ l, (ord l).Perm l) (ho : Jenks.OracleSorted orc) (hm : Meaningful inp.params) (hx : (keys inp.extra).Nodup)
    (hT : 0 < inp.tObs) (hw : World P ν L prior X pdet q Y) (hat : At inp row names value logPrior lp) (hp : Proper ν L pdet lp)
    (hreach : Reaches L prior pdet q lp) (hv : Varied P ν L prior X pdet q Y inp.tObs lp) (width : ℕ) (m : Fin K → ℕ → ℕ) (hmt : ∀ i, Tendsto (m i) atTop atTop)
    (hm1 : ∀ i n, 1 ≤ m i n) (N : ℕ → ℕ) (hN : Tendsto N atTop atTop) (hN1 : ∀ n, 1 ≤ N n) (r : ℕ → Ω → Analysis) (V : ℕ → Ω → List XR → XR)
    (hr : ∀ n ω, run ord orc (observe inp row width prior (fun i => (List.range (m i n)).map fun j => X i j ω)
      (injectionRate row pdet q Y inp.tObs (N n) ω)) = .ok (r n ω))
    (hV : ∀ n ω, likelihoodVariance ord orc (observe inp row width prior (fun i => (List.range (m i n)).map fun j => X i j ω)
      (injectionRate row pdet q Y inp.tObs (N n) ω)) (injectionRateVariance row pdet q Y inp.tObs (N n) ω) = .ok (V n ω)) (a b : ℝ) :
    Tendsto (fun n => P {ω | ∃ v s : ℝ, (r n ω).flowMC (names.map fun n => fin (value n)) = fin v ∧ V n ω (names.map fun n => fin (value n)) = fin s ∧
        (v - (exactLogPosterior ν L pdet inp.tObs logPrior lp - ∑ i, Real.log (evidence ν (L i) (prior i)))) / √s ∈ Set.Icc a b})
      atTop (𝓝 (gaussianReal 0 1 (Set.Icc a b))) := by
  obtain ⟨hd, hmean, hmean0, hrel, hrel0⟩ := draws hw hp hreach hv
  set W := weight prior X lp with hW
  set U := injectionWeight pdet q Y lp with hU
  set exact := exactLogPosterior ν L pdet inp.tObs logPrior lp - ∑ i, Real.log (evidence ν (L i) (prior i)) with hexact
  set G : ℕ → Set Ω := fun n => {ω | Normal.error P inp.tObs W U (fun i => m i n) (N n) ω / √(Normal.estimated inp.tObs W U (fun i => m i n) (N n) ω) ∈ Set.Icc a b} with hG
  set D : ℕ → Set Ω := fun n => ⋃ i, {ω | ∫ ω, W i 0 ω ∂P ≤ ‖Normal.average (W i) (m i n) ω - ∫ ω, W i 0 ω ∂P‖} with hD
  set C : ℕ → Set Ω := fun n => {ω | ∃ v s : ℝ, (r n ω).flowMC (names.map fun n => fin (value n)) = fin v ∧ V n ω (names.map fun n => fin (value n)) = fin s ∧
        (v - exact) / √s ∈ Set.Icc a b} with hC
  have hnorm := Normal.student hd hT m hmt hm1 N hN hN1
  have hGlim : Tendsto (fun n => P (G n)) atTop (𝓝 (gaussianReal 0 1 (Set.Icc a b))) := by
    have hfr : (gaussianReal 0 1) (frontier (Set.Icc a b)) = 0 := by
      have : NullSingletonClass (gaussianReal 0 1) := nullSingletonClass_gaussianReal one_ne_zero
      refine measure_mono_null (t := {a, b}) ?_ (Set.Finite.measure_zero (by simp) _)
      rcases le_or_gt a b with hab | hab
      · rw [frontier_Icc hab]
      · rw [Set.Icc_eq_empty (not_le.2 hab), frontier_empty]; exact Set.empty_subset _
    have h1 := ProbabilityMeasure.tendsto_measure_of_null_frontier_of_tendsto' hnorm.tendsto (E := Set.Icc a b) (by simpa using hfr)
    simp only [ProbabilityMeasure.coe_mk, Measure.map_id] at h1
    refine h1.congr fun n => ?_
    rw [Measure.map_apply_of_aemeasurable (hnorm.forall_aemeasurable n) measurableSet_Icc]
    rfl
  have hDlim : Tendsto (fun n => P (D n)) atTop (𝓝 0) := by
    have h1 : Tendsto (fun n => ∑ i, P {ω | ∫ ω, W i 0 ω ∂P ≤ ‖Normal.average (W i) (m i n) ω - ∫ ω, W i 0 ω ∂P‖}) atTop (𝓝 (∑ _i : Fin K, 0)) := by
      refine tendsto_finsetSum _ fun i _ => ?_
      have h2 : TendstoInMeasure P (fun n => Normal.average (W i) (m i n)) atTop (fun _ => ∫ ω, W i 0 ω ∂P) := by
        refine tendstoInMeasure_of_tendsto_ae (fun n => (Normal.measurable_average (hd.event i).measurable _).aestronglyMeasurable) ?_
        filter_upwards [Normal.average_limit (hd.event i).integrable (hd.event i).indep (hd.event i).ident] with ω hω
        exact hω.comp (hmt i)
      exact tendstoInMeasure_iff_norm.1 h2 _ (hd.mean_pos i)
    rw [Finset.sum_const_zero] at h1
    refine tendsto_of_tendsto_of_tendsto_of_le_of_le tendsto_const_nhds h1 (fun n => zero_le) fun n => ?_
    exact measure_iUnion_fintype_le P _
  have hsame : ∀ n, ∀ᵐ ω ∂P, ω ∉ D n → (ω ∈ C n ↔ ω ∈ G n) := by
    intro n
    filter_upwards [reported hord ho hm hx hT hw hat hp hreach hv width] with ω hrep hnD
    have hpos : ∀ i, 0 < ∑ j ∈ Finset.range (m i n), W i j ω := by
      intro i
      have h1 : ‖Normal.average (W i) (m i n) ω - ∫ ω, W i 0 ω ∂P‖ < ∫ ω, W i 0 ω ∂P := by
        by_contra hle
        exact hnD (Set.mem_iUnion.2 ⟨i, not_lt.1 hle⟩)
      have h2 : 0 < Normal.average (W i) (m i n) ω := by
        rw [Real.norm_eq_abs, abs_lt] at h1
        linarith [h1.1]
      simp only [Normal.average] at h2
      by_contra hle
      exact absurd h2 (not_lt.2 (div_nonpos_of_nonpos_of_nonneg (not_lt.1 hle) (Nat.cast_nonneg _)))
    obtain ⟨e1, e2⟩ := hrep (fun i => m i n) (N n) (hN1 n) hpos (r n ω) (V n ω) (hr n ω) (hV n ω)
    simp only [hC, hG, Set.mem_ofPred_eq, e1, e2]
    constructor
    · rintro ⟨v, s, hv', hs', hmem⟩
      rw [← fin.inj hv', ← fin.inj hs', add_sub_cancel_left] at hmem
      exact hmem
    · intro hmem
      refine ⟨_, _, rfl, rfl, ?_⟩
      rw [add_sub_cancel_left]
      exact hmem
  have hle1 : ∀ n, P (C n) ≤ P (G n) + P (D n) := by
    intro n
    refine le_trans (measure_mono_ae (t := G n ∪ D n) ?_) (measure_union_le _ _)
    filter_upwards [hsame n] with ω hω hc
    by_cases h : ω ∈ D n
    · exact Or.inr h
    · exact Or.inl ((hω h).1 hc)
  have hle2 : ∀ n, P (G n) - P (D n) ≤ P (C n) := by
    intro n
    rw [tsub_le_iff_right]
    refine le_trans (measure_mono_ae (t := C n ∪ D n) ?_) (measure_union_le _ _)
    filter_upwards [hsame n] with ω hω hc
    by_cases h : ω ∈ D n
    · exact Or.inr h
    · exact Or.inl ((hω h).2 hc)
  refine tendsto_of_tendsto_of_tendsto_of_le_of_le (g := fun n => P (G n) - P (D n)) (h := fun n => P (G n) + P (D n)) ?_ ?_ hle2 hle1
  · have := ENNReal.Tendsto.sub hGlim hDlim (Or.inr ENNReal.zero_ne_top)
    simpa using this
  · simpa using hGlim.add hDlim

/-- The variance of the example analysis is computed for any number of samples. -/
theorem exVaries {β : Type} (row : β → FRow) (prior : Fin 1 → β → ℝ) (xs : Fin 1 → List β) (rate rateVariance : Likelihood.Model FRow → XR) :
    ∃ r V, run id Jenks.exOracle (observe Sage.exInputs row 1 prior xs rate) = .ok r ∧
      likelihoodVariance id Jenks.exOracle (observe Sage.exInputs row 1 prior xs rate) rateVariance = .ok V := by
  obtain ⟨r, hr⟩ := exRuns row prior xs rate
  obtain ⟨V, hV⟩ := C93_exists rateVariance hr
  exact ⟨r, V, hr, hV⟩

/-- Two places with unequal probabilities of being proposed, one event and injections: the conditions of `C93_consistent` and `C93_normal` hold for the
example analysis, which runs on any number of samples and reports a variance, and the error is within one standard deviation with the probability
that a standard normal variable is. -/
example : ∃ (Ω : Type) (_ : MeasurableSpace Ω) (P : Measure Ω) (X : Fin 1 → ℕ → Ω → Bool) (Y : ℕ → Ω → Bool × ℝ) (prior : Bool → ℝ),
    World P Measure.count (fun _ _ => 1) (fun _ => prior) X (fun _ => 1 / 2) prior Y ∧
    Proper Measure.count (fun (_ : Fin 1) _ => 1) (fun _ => 1 / 2) (fun _ : Bool => fin (7 / 2)) ∧
    Reaches (fun (_ : Fin 1) (_ : Bool) => 1) (fun _ => prior) (fun _ => 1 / 2) prior (fun _ => fin (7 / 2)) ∧
    Varied P Measure.count (fun _ _ => 1) (fun _ => prior) X (fun _ => 1 / 2) prior Y 2 (fun _ => fin (7 / 2)) ∧
    At Sage.exInputs (fun x : Bool => [fin (prior x)]) ["a", "b"] exValue (-Real.log (1 / 2)) (fun _ => fin (7 / 2)) ∧
    weightVariance Measure.count (fun _ : Bool => 1) prior (fun _ => fin (7 / 2)) = 1 / 3 ∧
    ∃ (r : ℕ → Ω → Analysis) (V : ℕ → Ω → List XR → XR),
      Tendsto (fun n => P {ω | ∃ v s : ℝ, (r n ω).flowMC [fin (1 / 2), fin (1 / 4)] = fin v ∧ V n ω [fin (1 / 2), fin (1 / 4)] = fin s ∧
        (v - exactLogPosterior Measure.count (fun (_ : Fin 1) (_ : Bool) => 1) (fun _ => 1 / 2) 2 (-Real.log (1 / 2)) (fun _ => fin (7 / 2))) / √s ∈ Set.Icc (-1) 1})
        atTop (𝓝 (gaussianReal 0 1 (Set.Icc (-1) 1))) := by
  have hu : IsProbabilityMeasure PoissonMean.unit := ⟨by simp [PoissonMean.unit]⟩
  let prior : Bool → ℝ := fun x => if x then 3 / 4 else 1 / 4
  have h0 : ∀ x, 0 < prior x := by intro x; cases x <;> simp [prior]
  have hm : Measurable prior := measurable_of_finite _
  have hev : evidence Measure.count (fun _ : Bool => 1) prior = 1 := by
    simp [evidence, prior, integral_fintype]; norm_num
  set μ : Measure Bool := Measure.count.withDensity fun x => ENNReal.ofReal (prior x) with hμ
  have hμ1 : IsProbabilityMeasure μ := by
    refine ⟨?_⟩
    rw [hμ, withDensity_apply _ MeasurableSet.univ, Measure.restrict_univ, lintegral_count, tsum_bool, ← ENNReal.ofReal_add (h0 _).le (h0 _).le]
    simp [prior]; norm_num
  set P : Measure ((ℕ → Bool) × (ℕ → Bool × ℝ)) := (Measure.infinitePi fun _ : ℕ => μ).prod (Measure.infinitePi fun _ : ℕ => μ.prod PoissonMean.unit) with hP
  have hX : ∀ j, P.map (fun ω => ω.1 j) = μ := by
    intro j
    rw [show (fun ω : (ℕ → Bool) × (ℕ → Bool × ℝ) => ω.1 j) = (fun x => x j) ∘ Prod.fst from rfl, ← Measure.map_map (measurable_pi_apply j) measurable_fst,
      Measure.map_fst_prod]
    simp only [measure_univ, one_smul]
    exact Measure.infinitePi_map_eval _ j
  have hY : ∀ j, P.map (fun ω => ω.2 j) = μ.prod PoissonMean.unit := by
    intro j
    rw [show (fun ω : (ℕ → Bool) × (ℕ → Bool × ℝ) => ω.2 j) = (fun x => x j) ∘ Prod.snd from rfl, ← Measure.map_map (measurable_pi_apply j) measurable_snd,
      Measure.map_snd_prod]
    simp only [measure_univ, one_smul]
    exact Measure.infinitePi_map_eval _ j
  have hiX : iIndepFun (fun j (ω : (ℕ → Bool) × (ℕ → Bool × ℝ)) => ω.1 j) P := by
    refine (iIndepFun_iff_map_fun_eq_infinitePi_map (X := fun j (ω : (ℕ → Bool) × (ℕ → Bool × ℝ)) => ω.1 j)
      (fun j => (measurable_pi_apply j).comp measurable_fst)).2 ?_
    simp only [hX]
    rw [show (fun (ω : (ℕ → Bool) × (ℕ → Bool × ℝ)) i => ω.1 i) = Prod.fst from rfl, hP, Measure.map_fst_prod]
    simp
  have hiY : iIndepFun (fun j (ω : (ℕ → Bool) × (ℕ → Bool × ℝ)) => ω.2 j) P := by
    refine (iIndepFun_iff_map_fun_eq_infinitePi_map (X := fun j (ω : (ℕ → Bool) × (ℕ → Bool × ℝ)) => ω.2 j)
      (fun j => (measurable_pi_apply j).comp measurable_snd)).2 ?_
    simp only [hY]
    rw [show (fun (ω : (ℕ → Bool) × (ℕ → Bool × ℝ)) i => ω.2 i) = Prod.snd from rfl, hP, Measure.map_snd_prod]
    simp
  have hworld : World P Measure.count (fun _ _ => 1) (fun _ => prior) (fun (_ : Fin 1) j ω => ω.1 j) (fun _ => 1 / 2) prior (fun j ω => ω.2 j) := by
    refine ⟨⟨fun i j => (measurable_pi_apply j).comp measurable_fst, fun i j => ?_, fun i => hiX, iIndepFun.of_subsingleton⟩,
      ⟨fun i => (measurable_pi_apply i).comp measurable_snd, fun i => hY i, hiY⟩, fun _ => measurable_const,
      fun _ _ => zero_le_one, fun _ => hm, fun _ x => (h0 x).le, fun _ => by rw [hev]; exact one_pos, hm, fun x => (h0 x).le, measurable_const,
      fun x => by norm_num, fun x => by norm_num⟩
    rw [hX, hev]
    simp [hμ]
  have hE := Real.exp_pos (7 / 2)
  have hproper : Proper Measure.count (fun (_ : Fin 1) _ => 1) (fun _ => 1 / 2) (fun _ : Bool => fin (7 / 2)) :=
    ⟨fun _ => by simp [IsLog], measurable_const, fun _ => Integrable.of_finite, Integrable.of_finite, fun _ => by simp [expR_fin, integral_fintype, hE]⟩
  have hreach : Reaches (fun (_ : Fin 1) (_ : Bool) => 1) (fun _ => prior) (fun _ => 1 / 2) prior (fun _ => fin (7 / 2)) :=
    ⟨fun _ x _ => h0 x, fun x _ => h0 x⟩
  have hwv : weightVariance Measure.count (fun _ : Bool => 1) prior (fun _ => fin (7 / 2)) = 1 / 3 := by
    rw [weightVariance, hev]
    simp [integral_fintype, expR_fin, prior, Measure.real]
    field_simp
    norm_num
  have hvar : Varied P Measure.count (fun _ _ => 1) (fun _ => prior) (fun (_ : Fin 1) j ω => ω.1 j) (fun _ => 1 / 2) prior (fun j ω => ω.2 j) 2
      (fun _ => fin (7 / 2)) := by
    refine ⟨?_, fun _ => Integrable.of_finite, Integrable.of_finite, fun _ => by rw [hwv]; norm_num, ?_⟩
    · exact indepFun_prod (X := fun (x : ℕ → Bool) (_ : Fin 1) j => x j) (Y := fun (y : ℕ → Bool × ℝ) j => y j) (measurable_pi_lambda _ fun _ => measurable_id) measurable_id
    · simp [injectionWeightVariance, integral_fintype, expR_fin, prior, Measure.real]
      nlinarith [sq_nonneg (Real.exp (7 / 2)), pow_pos hE 2]
  refine ⟨_, inferInstance, P, _, _, prior, hworld, hproper, hreach, hvar, exAt _, hwv, ?_⟩
  choose r V hr hV using fun (n : ℕ) (ω : (ℕ → Bool) × (ℕ → Bool × ℝ)) => exVaries (fun x : Bool => [fin (prior x)]) (fun _ => prior)
    (fun i => (List.range (n + 1)).map fun j => ω.1 j)
    (injectionRate (fun x : Bool => [fin (prior x)]) (fun _ => 1 / 2) prior (fun i (ω : (ℕ → Bool) × (ℕ → Bool × ℝ)) => ω.2 i) 2 (n + 1) ω)
    (injectionRateVariance (fun x : Bool => [fin (prior x)]) (fun _ => 1 / 2) prior (fun i (ω : (ℕ → Bool) × (ℕ → Bool × ℝ)) => ω.2 i) 2 (n + 1) ω)
  refine ⟨r, V, ?_⟩
  have key := C93_normal (ord := id) (fun l => List.Perm.refl l) Jenks.exOracle_sorted Sage.exTable_meaningful
    (by decide +kernel) (by norm_num [Sage.exInputs]) hworld (exAt _) hproper hreach hvar 1 (fun _ n => n + 1) (fun _ => tendsto_add_atTop_nat 1)
    (fun _ n => by omega) (fun n => n + 1) (tendsto_add_atTop_nat 1) (fun n => by omega) r V hr hV (-1) 1
  simpa [exValue, hev, show Sage.exInputs.tObs = 2 from rfl] using key

end
end GW.Hierarchy
