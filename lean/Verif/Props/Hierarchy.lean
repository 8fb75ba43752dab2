import Verif.Lemmas.Hierarchy

/-! # C89: the log posterior of an analysis estimates the exact log posterior -/

namespace GW.Hierarchy
open GW XR MeasureTheory ProbabilityTheory Filter Topology PyDict
open GW.Likelihood (FRow inputEvents mcAverage)
open GW.Sage (Inputs Analysis Meaningful Sampled RowsMatch meaning inPrior logPriorOf run)

noncomputable section
open Classical

variable {α Ω : Type} [MeasurableSpace α] [MeasurableSpace Ω] {K : ℕ} {P : Measure Ω} {ν : Measure α} {L prior : Fin K → α → ℝ} {X : Fin K → ℕ → Ω → α}
  {pdet q : α → ℝ} {Y : ℕ → Ω → α × ℝ} {ord : List String → List String} {orc : Jenks.Oracle} {inp : Inputs} {row : α → FRow}
  {names : List String} {value : String → ℝ} {logPrior : ℝ} {lp : α → XR}

/-! ## Helpers -/

omit [MeasurableSpace α] in
theorem labels_eq (hm : Meaningful inp.params) (hat : At inp row names value logPrior lp) {width : ℕ} {xs : Fin K → List α} {rate : Likelihood.Model FRow → XR}
    {r : Analysis} (h : run ord orc (observe inp row width prior xs rate) = .ok r) : r.labels = names := by
  obtain ⟨-, h1, h2, h3⟩ := Sage.C82_labels (inp := observe inp row width prior xs rate) hm h
  have hp : r.labels.Perm names := (List.perm_ext_iff_of_nodup h1 hat.nodup).2 fun n => (h3 n).trans (hat.columns n).symm
  exact hp.eq_of_pairwise (fun a b _ _ hab hba => String.le_antisymm hab hba) h2 hat.sorted

omit [MeasurableSpace α] [MeasurableSpace Ω] in
/-- The log density for one data set. -/
theorem value_eq (hord : ∀ l, (ord l).Perm l) (ho : Jenks.OracleSorted orc) (hm : Meaningful inp.params) (hx : (keys inp.extra).Nodup) (hT : 0 < inp.tObs)
    (hat : At inp row names value logPrior lp) (hlog : ∀ x, IsLog (lp x)) {width : ℕ} {m : Fin K → ℕ} {ω : Ω} {rate : Likelihood.Model FRow → XR} {μ : ℝ}
    (hω : ∀ i j, 0 < prior i (X i j ω)) {r : Analysis}
    (h : run ord orc (observe inp row width prior (fun i => (List.range (m i)).map fun j => X i j ω) rate) = .ok r)
    (hμ : rate (inp.model none (meaning inp.params inp.extra fun n => fin (value n))) = fin μ)
    (hpos : ∀ i, 0 < ∑ j ∈ Finset.range (m i), expR (lp (X i j ω)) / prior i (X i j ω)) :
    r.flowMC (names.map fun n => fin (value n)) =
      fin (logPrior + ∑ i, Real.log (inp.tObs * ((∑ j ∈ Finset.range (m i), expR (lp (X i j ω)) / prior i (X i j ω)) / m i)) - μ) := by
  set xs : Fin K → List α := fun i => (List.range (m i)).map fun j => X i j ω with hxs
  set M := inp.model none (meaning inp.params inp.extra fun n => fin (value n)) with hM
  have hl := labels_eq hm hat h
  have hMl : ∀ x, M.logProb (row x) = lp x := hat.model
  have hML : ∀ x, IsLog (M.logProb (row x)) := fun x => by rw [hMl]; exact hlog x
  have havg := fun i => average_eq (prior := prior) hML (i := i) (m := m i) (x := fun j => X i j ω) (hω i)
  have hev := observe_events (inp := inp) (row := row) (width := width) (prior := prior) (xs := xs) (rate := rate)
  have key := Sage.C82_flowMC_value (inp := observe inp row width prior xs rate) hord ho hm hx observe_rows hT h value M rfl hat.passes
    (by rw [hl]; exact hat.inside) logPrior μ (by rw [hl]; exact hat.prior) hμ (by
      rw [hev]
      intro ev hev p hp
      obtain ⟨i, -, rfl⟩ := List.mem_map.1 hev
      obtain ⟨x, hx, rfl⟩ := List.mem_map.1 hp
      obtain ⟨j, -, rfl⟩ := List.mem_map.1 hx
      exact (weight_eq hML (hω i j)).1) (by
      rw [hev]
      intro ev hev
      obtain ⟨i, -, rfl⟩ := List.mem_map.1 hev
      rw [(havg i).1, sum_range]
      simpa only [hMl] using hpos i)
  rw [hl] at key
  rw [key, hev, List.map_map]
  congr 3
  rw [← List.ofFn_id, List.map_ofFn, List.sum_ofFn]
  refine Finset.sum_congr rfl fun i _ => ?_
  simp only [Function.comp, id]
  rw [(havg i).2]
  simp only [hMl]
  rfl

omit [MeasurableSpace α] [MeasurableSpace Ω] in
/-- The log density of the numpyro model for one data set. -/
theorem value_eq_numpyro (hord : ∀ l, (ord l).Perm l) (ho : Jenks.OracleSorted orc) (hm : Meaningful inp.params) (hx : (keys inp.extra).Nodup) (hT : 0 < inp.tObs)
    (hat : At inp row names value logPrior lp) (hmodel : ∀ x, (inp.model (some true) (meaning inp.params inp.extra fun n => fin (value n))).logProb (row x) = lp x) (hlog : ∀ x, IsLog (lp x)) {width : ℕ} {m : Fin K → ℕ} {ω : Ω} {rate : Likelihood.Model FRow → XR} {μ : ℝ}
    (hω : ∀ i j, 0 < prior i (X i j ω)) {r : Analysis}
    (h : run ord orc (observe inp row width prior (fun i => (List.range (m i)).map fun j => X i j ω) rate) = .ok r)
    (hμ : rate (inp.model (some true) (meaning inp.params inp.extra fun n => fin (value n))) = fin μ)
    (hpos : ∀ i, 0 < ∑ j ∈ Finset.range (m i), expR (lp (X i j ω)) / prior i (X i j ω)) (big : ℝ) :
    r.numpyro big (names.map fun n => fin (value n)) =
      some (fin (logPrior + ∑ i, Real.log (inp.tObs * ((∑ j ∈ Finset.range (m i), expR (lp (X i j ω)) / prior i (X i j ω)) / m i)) - μ)) := by
  set xs : Fin K → List α := fun i => (List.range (m i)).map fun j => X i j ω with hxs
  set M := inp.model (some true) (meaning inp.params inp.extra fun n => fin (value n)) with hM
  have hl := labels_eq hm hat h
  have hMl : ∀ x, M.logProb (row x) = lp x := hmodel
  have hML : ∀ x, IsLog (M.logProb (row x)) := fun x => by rw [hMl]; exact hlog x
  have havg := fun i => average_eq (prior := prior) hML (i := i) (m := m i) (x := fun j => X i j ω) (hω i)
  have hev := observe_events (inp := inp) (row := row) (width := width) (prior := prior) (xs := xs) (rate := rate)
  have key := Sage.C82_numpyro_value (inp := observe inp row width prior xs rate) hord ho hm hx observe_rows hT h value M rfl hat.passes
    logPrior μ (by rw [hl]; exact hat.prior) hμ (by
      rw [hev]
      intro ev hev p hp
      obtain ⟨i, -, rfl⟩ := List.mem_map.1 hev
      obtain ⟨x, hx, rfl⟩ := List.mem_map.1 hp
      obtain ⟨j, -, rfl⟩ := List.mem_map.1 hx
      exact (weight_eq hML (hω i j)).1) (by
      rw [hev]
      intro ev hev
      obtain ⟨i, -, rfl⟩ := List.mem_map.1 hev
      rw [(havg i).1, sum_range]
      simpa only [hMl] using hpos i) big
  rw [hl] at key
  rw [key, hev, List.map_map]
  congr 4
  rw [← List.ofFn_id, List.map_ofFn, List.sum_ofFn]
  refine Finset.sum_congr rfl fun i _ => ?_
  simp only [Function.comp, id]
  rw [(havg i).2]
  simp only [hMl]
  rfl

/-- What the log density of one data set has to be for the limit: `Gives r v` says that `r` gives the value `v`. -/
def Value (ord : List String → List String) (orc : Jenks.Oracle) (inp : Inputs) (row : α → FRow) (width : ℕ) (prior : Fin K → α → ℝ) (X : Fin K → ℕ → Ω → α)
    (logPrior : ℝ) (lp : α → XR) (Gives : Analysis → ℝ → Prop) : Prop :=
  ∀ (m : Fin K → ℕ) (ω : Ω) (rate : Likelihood.Model FRow → XR) (μ : ℝ) (r : Analysis), (∀ i j, 0 < prior i (X i j ω)) →
    run ord orc (observe inp row width prior (fun i => (List.range (m i)).map fun j => X i j ω) rate) = .ok r →
    (∀ M : Likelihood.Model FRow, (∀ x, M.logProb (row x) = lp x) → rate M = fin μ) →
    (∀ i, 0 < ∑ j ∈ Finset.range (m i), expR (lp (X i j ω)) / prior i (X i j ω)) →
    Gives r (logPrior + ∑ i, Real.log (inp.tObs * ((∑ j ∈ Finset.range (m i), expR (lp (X i j ω)) / prior i (X i j ω)) / m i)) - μ)

omit [MeasurableSpace α] [MeasurableSpace Ω] in
theorem value_flowMC (hord : ∀ l, (ord l).Perm l) (ho : Jenks.OracleSorted orc) (hm : Meaningful inp.params) (hx : (keys inp.extra).Nodup) (hT : 0 < inp.tObs)
    (hat : At inp row names value logPrior lp) (hlog : ∀ x, IsLog (lp x)) (width : ℕ) :
    Value ord orc inp row width prior X logPrior lp fun r v => r.labels = names ∧ r.flowMC (names.map fun n => fin (value n)) = fin v :=
  fun _ _ _ _ _ hω h hμ hpos => ⟨labels_eq hm hat h, value_eq hord ho hm hx hT hat hlog hω h (hμ _ hat.model) hpos⟩

omit [MeasurableSpace α] [MeasurableSpace Ω] in
theorem value_numpyro (hord : ∀ l, (ord l).Perm l) (ho : Jenks.OracleSorted orc) (hm : Meaningful inp.params) (hx : (keys inp.extra).Nodup) (hT : 0 < inp.tObs)
    (hat : At inp row names value logPrior lp)
    (hmodel : ∀ x, (inp.model (some true) (meaning inp.params inp.extra fun n => fin (value n))).logProb (row x) = lp x)
    (hlog : ∀ x, IsLog (lp x)) (width : ℕ) (big : ℝ) :
    Value ord orc inp row width prior X logPrior lp fun r v => r.labels = names ∧ r.numpyro big (names.map fun n => fin (value n)) = some (fin v) :=
  fun _ _ _ _ _ hω h hμ hpos => ⟨labels_eq hm hat h, value_eq_numpyro hord ho hm hx hT hat hmodel hlog hω h (hμ _ hmodel) hpos big⟩

/-- The limit, whatever the samples reach. -/
theorem limit {Gives : Analysis → ℝ → Prop} (hT : 0 < inp.tObs) [SFinite ν] (hw : World P ν L prior X pdet q Y) (hp : Proper ν L pdet lp)
    (hq : ∀ x, expR (lp x) * pdet x ≠ 0 → 0 < q x) (hpos : ∀ i, 0 < reached ν (L i) (prior i) lp) (width : ℕ)
    (hG : Value ord orc inp row width prior X logPrior lp Gives)
    (m : Fin K → ℕ → ℕ) (hmt : ∀ i, Tendsto (m i) atTop atTop) (N : ℕ → ℕ) (hN : Tendsto N atTop atTop) :
    ∀ᵐ ω ∂P, ∀ r : ℕ → Analysis,
      (∀ n, run ord orc (observe inp row width prior (fun i => (List.range (m i n)).map fun j => X i j ω)
        (injectionRate row pdet q Y inp.tObs (N n) ω)) = .ok (r n)) →
      ∃ v : ℕ → ℝ, (∀ᶠ n in atTop, Gives (r n) (v n)) ∧
        Tendsto v atTop (𝓝 (logPrior + ∑ i, Real.log (inp.tObs * (reached ν (L i) (prior i) lp / evidence ν (L i) (prior i))) -
          PoissonMean.expectedDetections ν pdet inp.tObs lp)) := by
  have h1 := ae_inside hw.observed hw.measurable_L hw.measurable_prior hw.prior_nonneg
  have h2 := weight_limit hw.observed hw.measurable_L hw.L_nonneg hw.measurable_prior hw.prior_nonneg hw.evidence_pos hp.measurable hp.seen
  have h3 := PoissonMean.C87_consistent hw.campaign hw.measurable_q hw.q_nonneg hw.measurable_pdet hw.pdet_nonneg hw.pdet_le_one
    (fun x => (hp.isLog x).2) hp.measurable hq hp.detected inp.tObs hT.le
  filter_upwards [h1, h2, h3] with ω hω hlim ⟨μ, hμ, hμlim⟩ r hr
  set avg : Fin K → ℕ → ℝ := fun i n => (∑ j ∈ Finset.range n, expR (lp (X i j ω)) / prior i (X i j ω)) / n with havg
  have hlim' : ∀ i, Tendsto (fun n => avg i (m i n)) atTop (𝓝 (reached ν (L i) (prior i) lp / evidence ν (L i) (prior i))) :=
    fun i => (hlim i).comp (hmt i)
  have hposlim : ∀ i, 0 < reached ν (L i) (prior i) lp / evidence ν (L i) (prior i) := fun i => div_pos (hpos i) (hw.evidence_pos i)
  refine ⟨fun n => logPrior + ∑ i, Real.log (inp.tObs * avg i (m i n)) - μ (N n), ?_, ?_⟩
  · have e1 : ∀ᶠ n in atTop, ∀ i, 0 < avg i (m i n) := eventually_all.2 fun i => (hlim' i).eventually (lt_mem_nhds (hposlim i))
    filter_upwards [e1, hN.eventually (eventually_ge_atTop 1)] with n hn hN1
    refine hG (fun i => m i n) ω _ (μ (N n)) (r n) hω (hr n) (fun M hM => ?_) ?_
    · simp only [injectionRate, hM]
      exact hμ (N n) hN1
    · intro i
      have := hn i
      simp only [havg] at this
      by_contra hle
      exact absurd this (not_lt.2 (div_nonpos_of_nonpos_of_nonneg (not_lt.1 hle) (Nat.cast_nonneg _)))
  · refine Tendsto.sub (Tendsto.add tendsto_const_nhds (tendsto_finsetSum _ fun i _ => ?_)) (hμlim.comp hN)
    exact (Real.continuousAt_log (mul_pos hT (hposlim i)).ne').tendsto.comp ((hlim' i).const_mul _)

/-! ## Theorems -/

/-- The limit, when the samples and the injections reach the population. -/
theorem limit_exact {Gives : Analysis → ℝ → Prop} (hT : 0 < inp.tObs) [SFinite ν] (hw : World P ν L prior X pdet q Y) (hp : Proper ν L pdet lp)
    (hreach : Reaches L prior pdet q lp) (width : ℕ) (hG : Value ord orc inp row width prior X logPrior lp Gives)
    (m : Fin K → ℕ → ℕ) (hmt : ∀ i, Tendsto (m i) atTop atTop) (N : ℕ → ℕ) (hN : Tendsto N atTop atTop) :
    ∀ᵐ ω ∂P, ∀ r : ℕ → Analysis,
      (∀ n, run ord orc (observe inp row width prior (fun i => (List.range (m i n)).map fun j => X i j ω)
        (injectionRate row pdet q Y inp.tObs (N n) ω)) = .ok (r n)) →
      ∃ v : ℕ → ℝ, (∀ᶠ n in atTop, Gives (r n) (v n)) ∧
        Tendsto v atTop (𝓝 (exactLogPosterior ν L pdet inp.tObs logPrior lp - ∑ i, Real.log (evidence ν (L i) (prior i)))) := by
  have hre : ∀ i, reached ν (L i) (prior i) lp = ∫ x, L i x * expR (lp x) ∂ν := fun i => reached_eq (hreach.samples i)
  filter_upwards [limit hT hw hp hreach.injections (fun i => by rw [hre]; exact hp.possible i) width hG m hmt N hN] with ω hω r hr
  obtain ⟨v, hv, hlim⟩ := hω r hr
  refine ⟨v, hv, ?_⟩
  convert hlim using 2
  rw [exactLogPosterior]
  have : ∀ i, Real.log (inp.tObs * (reached ν (L i) (prior i) lp / evidence ν (L i) (prior i))) =
      Real.log (inp.tObs * ∫ x, L i x * expR (lp x) ∂ν) - Real.log (evidence ν (L i) (prior i)) := by
    intro i
    rw [hre, ← mul_div_assoc, Real.log_div (mul_pos hT (hp.possible i)).ne' (hw.evidence_pos i).ne']
  simp only [this, Finset.sum_sub_distrib]
  ring

/-- **C89 (consistency).**  For every analysis, population, set of events and injection campaign whose samples and injections reach the population: almost
surely, as the numbers of posterior samples of the events and the number of injections grow, the log density handed to the sampler converges to the exact
log posterior, up to the evidences of the events, which do not depend on the parameters. -/
theorem C89_consistent (hord : ∀ l, (ord l).Perm l) (ho : Jenks.OracleSorted orc) (hm : Meaningful inp.params) (hx : (keys inp.extra).Nodup)
    (hT : 0 < inp.tObs) [SFinite ν] (hw : World P ν L prior X pdet q Y) (hat : At inp row names value logPrior lp) (hp : Proper ν L pdet lp)
    (hreach : Reaches L prior pdet q lp) (width : ℕ) (m : Fin K → ℕ → ℕ) (hmt : ∀ i, Tendsto (m i) atTop atTop) (N : ℕ → ℕ) (hN : Tendsto N atTop atTop) :
    ∀ᵐ ω ∂P, ∀ r : ℕ → Analysis,
      (∀ n, run ord orc (observe inp row width prior (fun i => (List.range (m i n)).map fun j => X i j ω)
        (injectionRate row pdet q Y inp.tObs (N n) ω)) = .ok (r n)) →
      ∃ v : ℕ → ℝ, (∀ᶠ n in atTop, (r n).labels = names ∧ (r n).flowMC (names.map fun n => fin (value n)) = fin (v n)) ∧
        Tendsto v atTop (𝓝 (exactLogPosterior ν L pdet inp.tObs logPrior lp - ∑ i, Real.log (evidence ν (L i) (prior i)))) :=
  limit_exact hT hw hp hreach width (value_flowMC hord ho hm hx hT hat hp.isLog width) m hmt N hN

/-- **C89 (consistency, numpyro).**  For every analysis, population, set of events and injection campaign whose samples and injections reach the population: almost
surely, as the numbers of posterior samples of the events and the number of injections grow, the log density of the model handed to numpyro converges to the exact
log posterior, up to the evidences of the events, which do not depend on the parameters. -/
theorem C89_consistent_numpyro (hord : ∀ l, (ord l).Perm l) (ho : Jenks.OracleSorted orc) (hm : Meaningful inp.params) (hx : (keys inp.extra).Nodup)
    (hT : 0 < inp.tObs) [SFinite ν] (hw : World P ν L prior X pdet q Y) (hat : At inp row names value logPrior lp) 
    (hmodel : ∀ x, (inp.model (some true) (meaning inp.params inp.extra fun n => fin (value n))).logProb (row x) = lp x) (hp : Proper ν L pdet lp)
    (hreach : Reaches L prior pdet q lp) (width : ℕ) (big : ℝ) (m : Fin K → ℕ → ℕ) (hmt : ∀ i, Tendsto (m i) atTop atTop) (N : ℕ → ℕ) (hN : Tendsto N atTop atTop) :
    ∀ᵐ ω ∂P, ∀ r : ℕ → Analysis,
      (∀ n, run ord orc (observe inp row width prior (fun i => (List.range (m i n)).map fun j => X i j ω)
        (injectionRate row pdet q Y inp.tObs (N n) ω)) = .ok (r n)) →
      ∃ v : ℕ → ℝ, (∀ᶠ n in atTop, (r n).labels = names ∧ (r n).numpyro big (names.map fun n => fin (value n)) = some (fin (v n))) ∧
        Tendsto v atTop (𝓝 (exactLogPosterior ν L pdet inp.tObs logPrior lp - ∑ i, Real.log (evidence ν (L i) (prior i)))) :=
  limit_exact hT hw hp hreach width (value_numpyro hord ho hm hx hT hat hmodel hp.isLog width big) m hmt N hN

/-- **C89 (comparison of two populations).**  The difference between the log densities of two sets of parameter values converges to the difference of
their exact log posteriors. -/
theorem C89_comparison {value' : String → ℝ} {logPrior' : ℝ} {lp' : α → XR} (hord : ∀ l, (ord l).Perm l) (ho : Jenks.OracleSorted orc)
    (hm : Meaningful inp.params) (hx : (keys inp.extra).Nodup) (hT : 0 < inp.tObs) [SFinite ν] (hw : World P ν L prior X pdet q Y)
    (hat : At inp row names value logPrior lp) (hp : Proper ν L pdet lp) (hreach : Reaches L prior pdet q lp)
    (hat' : At inp row names value' logPrior' lp') (hp' : Proper ν L pdet lp') (hreach' : Reaches L prior pdet q lp')
    (width : ℕ) (m : Fin K → ℕ → ℕ) (hmt : ∀ i, Tendsto (m i) atTop atTop) (N : ℕ → ℕ) (hN : Tendsto N atTop atTop) :
    ∀ᵐ ω ∂P, ∀ r : ℕ → Analysis,
      (∀ n, run ord orc (observe inp row width prior (fun i => (List.range (m i n)).map fun j => X i j ω)
        (injectionRate row pdet q Y inp.tObs (N n) ω)) = .ok (r n)) →
      ∃ v : ℕ → ℝ, (∀ᶠ n in atTop, (r n).flowMC (names.map fun n => fin (value n)) - (r n).flowMC (names.map fun n => fin (value' n)) = fin (v n)) ∧
        Tendsto v atTop (𝓝 (exactLogPosterior ν L pdet inp.tObs logPrior lp - exactLogPosterior ν L pdet inp.tObs logPrior' lp')) := by
  filter_upwards [C89_consistent hord ho hm hx hT hw hat hp hreach width m hmt N hN,
    C89_consistent hord ho hm hx hT hw hat' hp' hreach' width m hmt N hN] with ω h1 h2 r hr
  obtain ⟨v, hv, hl⟩ := h1 r hr
  obtain ⟨v', hv', hl'⟩ := h2 r hr
  refine ⟨fun n => v n - v' n, ?_, ?_⟩
  · filter_upwards [hv, hv'] with n a b
    rw [a.2, b.2, sub_fin_fin]
  · have := hl.sub hl'
    convert this using 2
    ring

/-- The mean density, when the analysis almost surely runs. -/
theorem unbiased_ae (hord : ∀ l, (ord l).Perm l) (ho : Jenks.OracleSorted orc) (hm : Meaningful inp.params) (hx : (keys inp.extra).Nodup)
    (hT : 0 < inp.tObs) (hw : World P ν L prior X pdet q Y) (hat : At inp row names value logPrior lp) (hp : Proper ν L pdet lp)
    (hreach : ∀ i x, L i x * expR (lp x) ≠ 0 → 0 < prior i x) (width : ℕ) (m : Fin K → ℕ) (hm1 : ∀ i, 1 ≤ m i) (rate : Likelihood.Model FRow → XR) (μ : ℝ)
    (hμ : rate (inp.model none (meaning inp.params inp.extra fun n => fin (value n))) = fin μ) (r : Ω → Analysis)
    (hr : ∀ᵐ ω ∂P, run ord orc (observe inp row width prior (fun i => (List.range (m i)).map fun j => X i j ω) rate) = .ok (r ω)) :
    Integrable (fun ω => expR ((r ω).flowMC (names.map fun n => fin (value n)))) P ∧
    ∫ ω, expR ((r ω).flowMC (names.map fun n => fin (value n))) ∂P =
      Real.exp logPrior * (∏ i, inp.tObs * (∫ x, L i x * expR (lp x) ∂ν) / evidence ν (L i) (prior i)) * Real.exp (-μ) := by
  set M := inp.model none (meaning inp.params inp.extra fun n => fin (value n)) with hM
  have hMl : ∀ x, M.logProb (row x) = lp x := hat.model
  have hML : ∀ x, IsLog (M.logProb (row x)) := fun x => by rw [hMl]; exact hp.isLog x
  have hwt : ∀ i, Measurable fun x => expR (lp x) / prior i x := fun i => hp.measurable.div (hw.measurable_prior i)
  set f : Fin K → (ℕ → α) → ℝ := fun i x => inp.tObs * ((∑ j ∈ Finset.range (m i), expR (lp (x j)) / prior i (x j)) / m i) with hf
  have hfm : ∀ i, Measurable (f i) := by
    intro i
    refine Measurable.const_mul (Measurable.div_const (Finset.measurable_fun_sum _ fun j _ => ?_) _) _
    exact (hwt i).comp (measurable_pi_apply j)
  have hXm : ∀ i, Measurable fun ω (j : ℕ) => X i j ω := fun i => measurable_pi_lambda _ fun j => hw.observed.measurable i j
  have heq : ∀ᵐ ω ∂P, expR ((r ω).flowMC (names.map fun n => fin (value n))) = Real.exp (logPrior - μ) * ∏ i, f i fun j => X i j ω := by
    filter_upwards [ae_inside hw.observed hw.measurable_L hw.measurable_prior hw.prior_nonneg, hr] with ω hω hr
    have hl := labels_eq hm hat hr
    have hev := observe_events (inp := inp) (row := row) (width := width) (prior := prior) (xs := fun i => (List.range (m i)).map fun j => X i j ω) (rate := rate)
    have key := flowMC_density (inp := observe inp row width prior (fun i => (List.range (m i)).map fun j => X i j ω) rate) hord ho hm hx observe_rows hT
      hr value M rfl hat.passes (by rw [hl]; exact hat.inside) logPrior μ (by rw [hl]; exact hat.prior) hμ (by
        rw [hev]
        intro ev hev p hp
        obtain ⟨i, -, rfl⟩ := List.mem_map.1 hev
        obtain ⟨x, hx, rfl⟩ := List.mem_map.1 hp
        obtain ⟨j, -, rfl⟩ := List.mem_map.1 hx
        exact (weight_eq hML (hω i j)).1)
    rw [hl] at key
    rw [key, hev, List.map_map]
    congr 1
    rw [← List.ofFn_id, List.map_ofFn, List.prod_ofFn]
    refine Finset.prod_congr rfl fun i _ => ?_
    simp only [Function.comp, id]
    rw [(average_eq (prior := prior) hML (i := i) (m := m i) (x := fun j => X i j ω) (hω i)).2]
    simp only [hMl]
    rfl
  have hwm := weight_mean hw.observed hw.measurable_L hw.L_nonneg hw.measurable_prior hw.prior_nonneg hw.evidence_pos hp.measurable hp.seen
  have hfi : ∀ i, Integrable (fun ω => f i fun j => X i j ω) P := fun i =>
    ((integrable_finsetSum _ fun j _ => (hwm i j).1).div_const _).const_mul _
  have hfe : ∀ i, ∫ ω, f i (fun j => X i j ω) ∂P = inp.tObs * (∫ x, L i x * expR (lp x) ∂ν) / evidence ν (L i) (prior i) := by
    intro i
    have hm0 : (m i : ℝ) ≠ 0 := by have := hm1 i; positivity
    simp only [hf]
    rw [integral_const_mul, integral_div, integral_finsetSum _ fun j _ => (hwm i j).1, Finset.sum_congr rfl fun j _ => (hwm i j).2, reached_eq (hreach i)]
    simp only [Finset.sum_const, Finset.card_range, nsmul_eq_mul]
    field_simp
  have hprod : Integrable (fun ω => ∏ i, f i fun j => X i j ω) P := by
    have := hw.observed.events.isProbabilityMeasure
    have hmap := hw.observed.events.map_fun_eq_pi_map fun i => (hXm i).aemeasurable
    have hi : Integrable (fun x : Fin K → ℕ → α => ∏ i, f i (x i)) (P.map fun ω i j => X i j ω) := by
      rw [hmap]
      exact Integrable.fintype_prod fun i => (integrable_map_measure (hfm i).aestronglyMeasurable (hXm i).aemeasurable).2 (hfi i)
    exact hi.comp_measurable (measurable_pi_lambda _ hXm)
  refine ⟨(hprod.const_mul (Real.exp (logPrior - μ))).congr (heq.mono fun ω h => h.symm), ?_⟩
  rw [integral_congr_ae heq, integral_const_mul, hw.observed.events.integral_fun_prod_comp (fun i => (hXm i).aemeasurable)
    fun i => (hfm i).aestronglyMeasurable, Finset.prod_congr rfl fun i _ => hfe i, sub_eq_add_neg, Real.exp_add]
  ring

/-- **C89 (no bias).**  For any numbers of samples, at least one for each event: when the expected number `μ` is known, the density handed to the sampler
(the exponential of the log density) has exactly the right mean over all sets of posterior samples, up to the evidences. -/
theorem C89_unbiased (hord : ∀ l, (ord l).Perm l) (ho : Jenks.OracleSorted orc) (hm : Meaningful inp.params) (hx : (keys inp.extra).Nodup)
    (hT : 0 < inp.tObs) (hw : World P ν L prior X pdet q Y) (hat : At inp row names value logPrior lp) (hp : Proper ν L pdet lp)
    (hreach : ∀ i x, L i x * expR (lp x) ≠ 0 → 0 < prior i x) (width : ℕ) (m : Fin K → ℕ) (hm1 : ∀ i, 1 ≤ m i) (rate : Likelihood.Model FRow → XR) (μ : ℝ)
    (hμ : rate (inp.model none (meaning inp.params inp.extra fun n => fin (value n))) = fin μ) (r : Ω → Analysis)
    (hr : ∀ ω, run ord orc (observe inp row width prior (fun i => (List.range (m i)).map fun j => X i j ω) rate) = .ok (r ω)) :
    Integrable (fun ω => expR ((r ω).flowMC (names.map fun n => fin (value n)))) P ∧
    ∫ ω, expR ((r ω).flowMC (names.map fun n => fin (value n))) ∂P =
      Real.exp logPrior * (∏ i, inp.tObs * (∫ x, L i x * expR (lp x) ∂ν) / evidence ν (L i) (prior i)) * Real.exp (-μ) :=
  unbiased_ae hord ho hm hx hT hw hat hp hreach width m hm1 rate μ hμ r (Eventually.of_forall hr)

/-- **C89 (violated where the samples do not reach the population).**  Without the condition on the reach of the samples the log density converges all the
same, with no sign of anything missing, to the log posterior in which the likelihood of an event is cut off where its prior vanishes. -/
theorem C89_uncovered_violated (hord : ∀ l, (ord l).Perm l) (ho : Jenks.OracleSorted orc) (hm : Meaningful inp.params) (hx : (keys inp.extra).Nodup)
    (hT : 0 < inp.tObs) [SFinite ν] (hw : World P ν L prior X pdet q Y) (hat : At inp row names value logPrior lp) (hp : Proper ν L pdet lp)
    (hreach : ∀ x, expR (lp x) * pdet x ≠ 0 → 0 < q x) (hpos : ∀ i, 0 < ∫ x in {x | 0 < prior i x}, L i x * expR (lp x) ∂ν)
    (i₀ : Fin K) (hcut : ∫ x in {x | 0 < prior i₀ x}, L i₀ x * expR (lp x) ∂ν < ∫ x, L i₀ x * expR (lp x) ∂ν)
    (width : ℕ) (m : Fin K → ℕ → ℕ) (hmt : ∀ i, Tendsto (m i) atTop atTop) (N : ℕ → ℕ) (hN : Tendsto N atTop atTop) :
    ∀ᵐ ω ∂P, ∀ r : ℕ → Analysis,
      (∀ n, run ord orc (observe inp row width prior (fun i => (List.range (m i n)).map fun j => X i j ω)
        (injectionRate row pdet q Y inp.tObs (N n) ω)) = .ok (r n)) →
      ∃ v : ℕ → ℝ, (∀ᶠ n in atTop, (r n).flowMC (names.map fun n => fin (value n)) = fin (v n)) ∧
        ∃ l < exactLogPosterior ν L pdet inp.tObs logPrior lp - ∑ i, Real.log (evidence ν (L i) (prior i)), Tendsto v atTop (𝓝 l) := by
  filter_upwards [limit hT hw hp hreach hpos width (value_flowMC hord ho hm hx hT hat hp.isLog width) m hmt N hN] with ω hω r hr
  obtain ⟨v, hv, hlim⟩ := hω r hr
  refine ⟨v, hv.mono fun n h => h.2, _, ?_, hlim⟩
  rw [exactLogPosterior]
  have hpos : ∀ i, 0 < reached ν (L i) (prior i) lp := hpos
  have hle : ∀ i, reached ν (L i) (prior i) lp ≤ ∫ x, L i x * expR (lp x) ∂ν := fun i =>
    setIntegral_le_integral (hp.seen i) (Eventually.of_forall fun x => mul_nonneg (hw.L_nonneg i x) (expR_nonneg _))
  have h1 : ∀ i, Real.log (inp.tObs * (reached ν (L i) (prior i) lp / evidence ν (L i) (prior i))) =
      Real.log (inp.tObs * reached ν (L i) (prior i) lp) - Real.log (evidence ν (L i) (prior i)) := by
    intro i
    rw [← mul_div_assoc, Real.log_div (mul_pos hT (hpos i)).ne' (hw.evidence_pos i).ne']
  simp only [h1, Finset.sum_sub_distrib]
  have h2 : ∑ i, Real.log (inp.tObs * reached ν (L i) (prior i) lp) < ∑ i, Real.log (inp.tObs * ∫ x, L i x * expR (lp x) ∂ν) := by
    refine Finset.sum_lt_sum (fun i _ => Real.log_le_log (mul_pos hT (hpos i)) (mul_le_mul_of_nonneg_left (hle i) hT.le)) ⟨i₀, Finset.mem_univ _, ?_⟩
    exact Real.log_lt_log (mul_pos hT (hpos i₀)) (mul_lt_mul_of_pos_left hcut hT)
  linarith

/-! ## Example -/

/-- The values at which the example analysis is evaluated. -/
def exValue : String → ℝ := fun n => if n = "a" then 1 / 2 else 1 / 4

theorem exModel {β : Type} (row : β → FRow) (v : Option Bool) (x : β) :
    (Sage.exInputs.model v (meaning Sage.exInputs.params Sage.exInputs.extra fun n => fin (exValue n))).logProb (row x) = fin (7 / 2) := by
  have h1 : meaning Sage.exInputs.params Sage.exInputs.extra (fun n => fin (exValue n)) "rate" = some (some (fin (1 / 2))) := by
    simp [meaning, Sage.exInputs, Sage.exTable, get?, Sage.direct, exValue]
  have h2 : meaning Sage.exInputs.params Sage.exInputs.extra (fun n => fin (exValue n)) "k" = some (some (fin 3)) := by
    simp [meaning, Sage.exInputs, Sage.exTable, get?, Sage.direct]
  have h3 : meaning Sage.exInputs.params Sage.exInputs.extra (fun n => fin (exValue n)) "off" = some none := by
    simp [meaning, Sage.exInputs, Sage.exTable, get?]
  simp only [Sage.exInputs] at h1 h2 h3 ⊢
  simp only [h1, h2, h3]
  rw [add_fin_fin]
  norm_num

theorem exAt {β : Type} (row : β → FRow) : At Sage.exInputs row ["a", "b"] exValue (-Real.log (1 / 2)) (fun _ => fin (7 / 2)) where
  nodup := by decide +kernel
  sorted := by decide +kernel
  columns := by
    intro n
    simp only [List.mem_cons, List.not_mem_nil, or_false, Sampled, Sage.exInputs]
    constructor
    · rintro (rfl | rfl)
      · exact Or.inl ⟨Sage.exA, by simp [Sage.exTable]⟩
      · exact Or.inr ⟨true, Sage.exB, _, by simp [Sage.exTable]; rfl⟩
    · rintro (⟨b, hb⟩ | ⟨ip, f, a, hb⟩)
      · rcases Sage.exTable_mem hb with h | h | h | h <;> simp at h
        exact Or.inl h.1
      · rcases Sage.exTable_mem hb with h | h | h | h <;> simp at h
        exact Or.inr h.1
  inside := by
    intro n hn
    simp only [List.mem_cons, List.not_mem_nil, or_false] at hn
    rcases hn with rfl | rfl <;> simp [inPrior, Sage.priorOf, Sage.exInputs, Sage.exTable, get?, Sage.exA, Sage.exB, exValue] <;> norm_num
  passes := by
    intro fns hf f hm
    cases hf
    simp only [List.mem_singleton] at hm
    subst hm
    simp [meaning, Sage.exInputs, get?]
  prior := by
    rw [XR.sum_eq]
    simp [logPriorOf, Sage.priorOf, Sage.exInputs, Sage.exTable, get?, Sage.exA, Sage.exB, exValue]
  model := exModel row none

/-- The example analysis runs on one event with any number of samples. -/
theorem exRuns {β : Type} (row : β → FRow) (prior : Fin 1 → β → ℝ) (xs : Fin 1 → List β) (rate : Likelihood.Model FRow → XR) :
    ∃ r, run id Jenks.exOracle (observe Sage.exInputs row 1 prior xs rate) = .ok r := by
  obtain ⟨s, hs, hn⟩ := Sage.exSetup
  have : ∃ c bs, Likelihood.readData Jenks.exOracle (observe Sage.exInputs row 1 prior xs rate).data
      (observe Sage.exInputs row 1 prior xs rate).refs (some 1) 3 = .ok (c, bs) := by
    unfold Likelihood.readData
    rw [if_neg (by simp [observe])]
    have : ∃ a b m, Jenks.padAndStack Jenks.exOracle (fun w => List.replicate w (0 : XR))
        [(observe Sage.exInputs row 1 prior xs rate).data,
         (observe Sage.exInputs row 1 prior xs rate).refs] (some 1) 3 = .ok ([a, b], m) := by
      rw [Jenks.padAndStack, if_neg (by norm_num)]
      exact ⟨_, _, _, rfl⟩
    obtain ⟨a, b, m, h⟩ := this
    rw [h]
    exact ⟨_, _, rfl⟩
  obtain ⟨c, bs, hd⟩ := this
  refine (Sage.C82_stops_iff (inp := observe Sage.exInputs row 1 prior xs rate) (fun l => List.Perm.refl l)
    Sage.exTable_meaningful (by change (keys Sage.exInputs.extra).Nodup; decide +kernel) s hs c bs hd).2 ?_
  rintro ⟨n, hn, h⟩
  have hn : n = "N" ∨ n = "off" := by simpa [observe, Sage.exInputs, keys] using hn
  rcases hn with rfl | rfl <;> simp [observe, Sage.exInputs, Sampled, Sage.exTable] at h

/-- One event and injections, all uniform on `[0, 1)`; the conditions of `C89_consistent` and `C89_unbiased` hold for the example analysis, which runs on
any number of samples. -/
example : ∃ (Ω : Type) (_ : MeasurableSpace Ω) (P : Measure Ω) (X : Fin 1 → ℕ → Ω → ℝ) (Y : ℕ → Ω → ℝ × ℝ),
    World P PoissonMean.unit (fun _ _ => 1) (fun _ _ => 1) X (fun _ => 1 / 2) (fun _ => 1) Y ∧
    Proper PoissonMean.unit (fun (_ : Fin 1) _ => 1) (fun _ => 1 / 2) (fun _ => fin (7 / 2)) ∧
    Reaches (fun (_ : Fin 1) (_ : ℝ) => 1) (fun _ _ => 1) (fun _ => 1 / 2) (fun _ => 1) (fun _ => fin (7 / 2)) ∧
    At Sage.exInputs (fun x : ℝ => [fin x]) ["a", "b"] exValue (-Real.log (1 / 2)) (fun _ => fin (7 / 2)) ∧
    exactLogPosterior PoissonMean.unit (fun (_ : Fin 1) _ => 1) (fun _ => 1 / 2) 2 (-Real.log (1 / 2)) (fun _ => fin (7 / 2)) =
      2 * Real.log 2 + 7 / 2 - Real.exp (7 / 2) ∧
    ∀ᵐ ω ∂P, ∃ r : ℕ → Analysis, ∃ v : ℕ → ℝ,
      (∀ n, run id Jenks.exOracle (observe Sage.exInputs (fun x : ℝ => [fin x]) 1 (fun _ _ => 1) (fun i => (List.range n).map fun j => X i j ω)
        (injectionRate (fun x : ℝ => [fin x]) (fun _ => 1 / 2) (fun _ => 1) Y 2 n ω)) = .ok (r n)) ∧
      (∀ᶠ n in atTop, (r n).flowMC [fin (1 / 2), fin (1 / 4)] = fin (v n)) ∧ Tendsto v atTop (𝓝 (2 * Real.log 2 + 7 / 2 - Real.exp (7 / 2))) := by
  have hu : IsProbabilityMeasure PoissonMean.unit := ⟨by simp [PoissonMean.unit]⟩
  have hev : evidence PoissonMean.unit (fun _ : ℝ => 1) (fun _ => 1) = 1 := by simp [evidence]
  have hone : (PoissonMean.unit.withDensity fun _ : ℝ => ENNReal.ofReal 1) = PoissonMean.unit := by
    simp only [ENNReal.ofReal_one]; exact withDensity_one
  have hind : iIndepFun (fun (i : ℕ) (ω : ℕ → ℝ × ℝ) => ω i) (Measure.infinitePi fun _ => PoissonMean.unit.prod PoissonMean.unit) :=
    iIndepFun_infinitePi (P := fun _ : ℕ => PoissonMean.unit.prod PoissonMean.unit) (X := fun _ x => x) (fun _ => measurable_id)
  have hworld : World (Measure.infinitePi fun _ : ℕ => PoissonMean.unit.prod PoissonMean.unit) PoissonMean.unit (fun _ _ => 1) (fun _ _ => 1)
      (fun (_ : Fin 1) j (ω : ℕ → ℝ × ℝ) => (ω j).1) (fun _ => 1 / 2) (fun _ => 1) (fun i ω => ω i) := by
    refine ⟨⟨fun i j => measurable_fst.comp (measurable_pi_apply j), fun i j => ?_, fun i => hind.comp (fun _ => Prod.fst) fun _ => measurable_fst,
      iIndepFun.of_subsingleton⟩, ⟨fun i => measurable_pi_apply i, fun i => ?_, hind⟩, fun _ => measurable_const, fun _ _ => zero_le_one,
      fun _ => measurable_const, fun _ _ => zero_le_one, fun _ => by rw [hev]; exact one_pos, measurable_const, fun _ => zero_le_one, measurable_const,
      by intro x; norm_num, by intro x; norm_num⟩
    · have : (fun ω : ℕ → ℝ × ℝ => (ω j).1) = Prod.fst ∘ fun ω => ω j := rfl
      rw [this, ← Measure.map_map measurable_fst (measurable_pi_apply j),
        show (Measure.infinitePi fun _ : ℕ => PoissonMean.unit.prod PoissonMean.unit).map (fun ω => ω j) = PoissonMean.unit.prod PoissonMean.unit from
          Measure.infinitePi_map_eval _ j, hev]
      rw [Measure.map_fst_prod]
      simp
    · rw [hone]; exact Measure.infinitePi_map_eval _ i
  have hproper : Proper PoissonMean.unit (fun (_ : Fin 1) _ => 1) (fun _ => 1 / 2) (fun _ => fin (7 / 2)) := by
    refine ⟨fun _ => by simp [IsLog], measurable_const, fun _ => integrable_const _, integrable_const _, fun _ => ?_⟩
    simp [expR_fin, Real.exp_pos]
  have hreach : Reaches (fun (_ : Fin 1) (_ : ℝ) => 1) (fun _ _ => 1) (fun _ => 1 / 2) (fun _ => 1) (fun _ => fin (7 / 2)) :=
    ⟨fun _ _ _ => one_pos, fun _ _ => one_pos⟩
  have hexact : exactLogPosterior PoissonMean.unit (fun (_ : Fin 1) _ => 1) (fun _ => 1 / 2) 2 (-Real.log (1 / 2)) (fun _ => fin (7 / 2)) =
      2 * Real.log 2 + 7 / 2 - Real.exp (7 / 2) := by
    simp [exactLogPosterior, PoissonMean.expectedDetections, expR_fin]
    rw [Real.log_mul (by norm_num) (Real.exp_pos _).ne', Real.log_exp]
    ring
  refine ⟨ℕ → ℝ × ℝ, inferInstance, _, _, _, hworld, hproper, hreach, exAt _, hexact, ?_⟩
  filter_upwards [C89_consistent (ord := id) (fun l => List.Perm.refl l) Jenks.exOracle_sorted Sage.exTable_meaningful
    (by decide +kernel) (by norm_num [Sage.exInputs]) hworld (exAt _) hproper hreach 1 (fun _ n => n) (fun _ => tendsto_id) (fun n => n) tendsto_id] with ω hω
  choose r hr using fun n : ℕ => exRuns (fun x : ℝ => [fin x]) (fun _ _ => 1) (fun i => (List.range n).map fun j => (ω j).1)
    (injectionRate (fun x : ℝ => [fin x]) (fun _ => 1 / 2) (fun _ => 1) (fun i (ω : ℕ → ℝ × ℝ) => ω i) 2 n ω)
  obtain ⟨v, hv, hl⟩ := hω r hr
  refine ⟨r, v, hr, hv.mono fun n h => ?_, ?_⟩
  · have := h.2
    simpa [exValue] using this
  · rw [show Sage.exInputs.tObs = 2 from rfl, hexact] at hl
    simpa [hev] using hl

/-- The further hypothesis of `C89_consistent_numpyro` for the same analysis. -/
example (x : ℝ) : (Sage.exInputs.model (some true) (meaning Sage.exInputs.params Sage.exInputs.extra fun n => fin (exValue n))).logProb [fin x] = fin (7 / 2) :=
  exModel (fun x : ℝ => [fin x]) (some true) x

/-- Two places, one of which the prior of the samples leaves out; the conditions of `C89_uncovered_violated` hold. -/
example : ∃ (Ω : Type) (_ : MeasurableSpace Ω) (P : Measure Ω) (X : Fin 1 → ℕ → Ω → Bool) (Y : ℕ → Ω → Bool × ℝ) (here : Bool → ℝ),
    World P Measure.count (fun _ _ => 1) (fun _ => here) X (fun x => here x / 2) here Y ∧
    Proper Measure.count (fun (_ : Fin 1) _ => 1) (fun x => here x / 2) (fun _ => fin (7 / 2)) ∧
    At Sage.exInputs (fun x : Bool => [fin (here x)]) ["a", "b"] exValue (-Real.log (1 / 2)) (fun _ => fin (7 / 2)) ∧
    (∀ x, expR (fin (7 / 2)) * (here x / 2) ≠ 0 → 0 < here x) ∧
    0 < ∫ _x in {x | 0 < here x}, 1 * expR (fin (7 / 2)) ∂Measure.count ∧
    ∫ _x in {x | 0 < here x}, 1 * expR (fin (7 / 2)) ∂Measure.count < ∫ _x : Bool, 1 * expR (fin (7 / 2)) ∂Measure.count ∧
    ∀ n ω, ∃ r, run id Jenks.exOracle (observe Sage.exInputs (fun x : Bool => [fin (here x)]) 1 (fun _ => here) (fun i => (List.range n).map fun j => X i j ω)
        (injectionRate (fun x : Bool => [fin (here x)]) (fun x => here x / 2) here Y 2 n ω)) = .ok r := by
  have hu : IsProbabilityMeasure PoissonMean.unit := ⟨by simp [PoissonMean.unit]⟩
  let here : Bool → ℝ := fun x => if x then 1 else 0
  have h0 : ∀ x, 0 ≤ here x := by intro x; cases x <;> simp [here]
  have hm : Measurable here := measurable_of_finite _
  have hset : {x | 0 < here x} = {true} := by ext x; cases x <;> simp [here]
  have hev : evidence Measure.count (fun _ : Bool => 1) here = 1 := by simp [evidence, here, integral_fintype]
  have hlaw : (Measure.count.withDensity fun x => ENNReal.ofReal (here x)) = Measure.dirac true := by
    ext s hs
    rw [withDensity_apply _ hs, ← lintegral_indicator hs, lintegral_count, tsum_bool, Measure.dirac_apply' _ hs]
    simp [here, Set.indicator]
  have hind : iIndepFun (fun (i : ℕ) (ω : ℕ → ℝ) => ω i) (Measure.infinitePi fun _ => PoissonMean.unit) :=
    iIndepFun_infinitePi (P := fun _ : ℕ => PoissonMean.unit) (X := fun _ x => x) (fun _ => measurable_id)
  have htrue : Measurable fun u : ℝ => (true, u) := measurable_const.prodMk measurable_id
  have hworld : World (Measure.infinitePi fun _ : ℕ => PoissonMean.unit) Measure.count (fun _ _ => 1) (fun _ => here)
      (fun (_ : Fin 1) _ (_ : ℕ → ℝ) => true) (fun x => here x / 2) here (fun i ω => (true, ω i)) := by
    refine ⟨⟨fun i j => measurable_const, fun i j => ?_, fun i => hind.comp (fun _ _ => true) fun _ => measurable_const, iIndepFun.of_subsingleton⟩,
      ⟨fun i => htrue.comp (measurable_pi_apply i), fun i => ?_, hind.comp (fun _ u => (true, u)) fun _ => htrue⟩, fun _ => measurable_const,
      fun _ _ => zero_le_one, fun _ => hm, fun _ => h0, fun _ => by rw [hev]; exact one_pos, hm, h0, hm.div_const _, fun x => by have := h0 x; positivity,
      by intro x; cases x <;> simp [here]; norm_num⟩
    · rw [hev]
      simp [hlaw]
    · rw [hlaw, show (fun ω : ℕ → ℝ => (true, ω i)) = (fun u => (true, u)) ∘ fun ω => ω i from rfl, ← Measure.map_map htrue (measurable_pi_apply i),
        show (Measure.infinitePi fun _ : ℕ => PoissonMean.unit).map (fun ω => ω i) = PoissonMean.unit from Measure.infinitePi_map_eval _ i,
        Measure.dirac_prod]
  have hE := Real.exp_pos (7 / 2)
  refine ⟨ℕ → ℝ, inferInstance, _, _, _, here, hworld, ⟨fun _ => by simp [IsLog], measurable_const, fun _ => Integrable.of_finite, Integrable.of_finite,
    fun _ => ?_⟩, exAt _, ?_, ?_, ?_, fun n ω => exRuns _ _ _ _⟩
  · simp [expR_fin, integral_fintype, hE]
  · intro x; cases x <;> simp [here]
  · rw [hset, integral_singleton, Measure.real, Measure.count_singleton]; simp [expR_fin, hE]
  · rw [hset, integral_singleton, integral_fintype Integrable.of_finite]; simp [expR_fin, hE, Measure.real]

end
end GW.Hierarchy
