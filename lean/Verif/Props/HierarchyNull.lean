import Verif.Lemmas.HierarchyNull

/-! # C89 for population models that are right at almost every event

A population model may be wrong (`nan`, or `+inf`) at events that have probability zero, such as events whose primary mass equals the lowest one. -/

namespace GW.Hierarchy
open GW XR MeasureTheory ProbabilityTheory Filter Topology PyDict
open GW.Likelihood (FRow)
open GW.Sage (Inputs Analysis Meaningful meaning run)

noncomputable section
open Classical

variable {α Ω : Type} [MeasurableSpace α] [MeasurableSpace Ω] {K : ℕ} {P : Measure Ω} {ν : Measure α} {L prior : Fin K → α → ℝ} {X : Fin K → ℕ → Ω → α}
  {pdet q : α → ℝ} {Y : ℕ → Ω → α × ℝ} {ord : List String → List String} {orc : Jenks.Oracle} {inp : Inputs} {row : α → FRow}
  {names : List String} {value : String → ℝ} {logPrior : ℝ} {lp : α → XR} {G : Set α}

theorem exact_retract (hG : MeasurableSet G) (x₀ : G) (hnull : ∀ᵐ x ∂ν, x ∈ G) (T : ℝ) :
    exactLogPosterior (ν.map (retract G x₀)) (fun i (x : G) => L i x) (fun x : G => pdet x) T logPrior (fun x : G => lp x) -
        ∑ i, Real.log (evidence (ν.map (retract G x₀)) (fun x : G => L i x) fun x : G => prior i x) =
      exactLogPosterior ν L pdet T logPrior lp - ∑ i, Real.log (evidence ν (L i) (prior i)) := by
  have e1 : ∀ i, ∫ x : G, L i x * expR (lp x) ∂(ν.map (retract G x₀)) = ∫ x, L i x * expR (lp x) ∂ν := fun i => integral_retract hG x₀ hnull fun x => L i x * expR (lp x)
  have e2 : ∀ i, ∫ x : G, L i x * prior i x ∂(ν.map (retract G x₀)) = ∫ x, L i x * prior i x ∂ν := fun i => integral_retract hG x₀ hnull fun x => L i x * prior i x
  have e3 : ∫ x : G, expR (lp x) * pdet x ∂(ν.map (retract G x₀)) = ∫ x, expR (lp x) * pdet x ∂ν := integral_retract hG x₀ hnull fun x => expR (lp x) * pdet x
  simp only [exactLogPosterior, evidence, PoissonMean.expectedDetections, e1, e2, e3]

/-- **C89 (consistency, almost every event).**  The log density handed to the sampler converges to the exact log posterior also when the population model
has the log differential rate `lp` only at the events of a set `G` that almost every event belongs to. -/
theorem C89_consistent_almost_everywhere (hord : ∀ l, (ord l).Perm l) (ho : Jenks.OracleSorted orc) (hm : Meaningful inp.params) (hx : (keys inp.extra).Nodup)
    (hT : 0 < inp.tObs) [SFinite ν] (hG : MeasurableSet G) (hnull : ∀ᵐ x ∂ν, x ∈ G) (hw : World P ν L prior X pdet q Y)
    (hat : At inp (fun x : G => row x) names value logPrior fun x : G => lp x) (hp : Proper ν L pdet lp)
    (hreach : Reaches L prior pdet q lp) (width : ℕ) (m : Fin K → ℕ → ℕ) (hmt : ∀ i, Tendsto (m i) atTop atTop) (N : ℕ → ℕ) (hN : Tendsto N atTop atTop) :
    ∀ᵐ ω ∂P, ∀ r : ℕ → Analysis,
      (∀ n, run ord orc (observe inp row width prior (fun i => (List.range (m i n)).map fun j => X i j ω)
        (injectionRate row pdet q Y inp.tObs (N n) ω)) = .ok (r n)) →
      ∃ v : ℕ → ℝ, (∀ᶠ n in atTop, (r n).labels = names ∧ (r n).flowMC (names.map fun n => fin (value n)) = fin (v n)) ∧
        Tendsto v atTop (𝓝 (exactLogPosterior ν L pdet inp.tObs logPrior lp - ∑ i, Real.log (evidence ν (L i) (prior i)))) := by
  obtain ⟨x₀⟩ := hw.nonempty hnull
  have key := C89_consistent hord ho hm hx hT (hw.retract hG x₀ hnull) hat (hp.retract hG x₀ hnull)
    ⟨fun i x => hreach.samples i x, fun x => hreach.injections x⟩ width m hmt N hN
  rw [exact_retract hG x₀ hnull] at key
  filter_upwards [key, hw.ae_mem hnull] with ω h hω r hr
  refine h r fun n => ?_
  rw [injectionRate_retract hω.2, observe_retract hω.1]
  exact hr n

/-- **C89 (consistency, numpyro, almost every event).** -/
theorem C89_consistent_numpyro_almost_everywhere (hord : ∀ l, (ord l).Perm l) (ho : Jenks.OracleSorted orc) (hm : Meaningful inp.params) (hx : (keys inp.extra).Nodup)
    (hT : 0 < inp.tObs) [SFinite ν] (hG : MeasurableSet G) (hnull : ∀ᵐ x ∂ν, x ∈ G) (hw : World P ν L prior X pdet q Y)
    (hat : At inp (fun x : G => row x) names value logPrior fun x : G => lp x)
    (hmodel : ∀ x ∈ G, (inp.model (some true) (meaning inp.params inp.extra fun n => fin (value n))).logProb (row x) = lp x) (hp : Proper ν L pdet lp)
    (hreach : Reaches L prior pdet q lp) (width : ℕ) (big : ℝ) (m : Fin K → ℕ → ℕ) (hmt : ∀ i, Tendsto (m i) atTop atTop) (N : ℕ → ℕ) (hN : Tendsto N atTop atTop) :
    ∀ᵐ ω ∂P, ∀ r : ℕ → Analysis,
      (∀ n, run ord orc (observe inp row width prior (fun i => (List.range (m i n)).map fun j => X i j ω)
        (injectionRate row pdet q Y inp.tObs (N n) ω)) = .ok (r n)) →
      ∃ v : ℕ → ℝ, (∀ᶠ n in atTop, (r n).labels = names ∧ (r n).numpyro big (names.map fun n => fin (value n)) = some (fin (v n))) ∧
        Tendsto v atTop (𝓝 (exactLogPosterior ν L pdet inp.tObs logPrior lp - ∑ i, Real.log (evidence ν (L i) (prior i)))) := by
  obtain ⟨x₀⟩ := hw.nonempty hnull
  have key := C89_consistent_numpyro hord ho hm hx hT (hw.retract hG x₀ hnull) hat (fun x => hmodel x x.2) (hp.retract hG x₀ hnull)
    ⟨fun i x => hreach.samples i x, fun x => hreach.injections x⟩ width big m hmt N hN
  rw [exact_retract hG x₀ hnull] at key
  filter_upwards [key, hw.ae_mem hnull] with ω h hω r hr
  refine h r fun n => ?_
  rw [injectionRate_retract hω.2, observe_retract hω.1]
  exact hr n

/-- **C89 (no bias, almost every event).** -/
theorem C89_unbiased_almost_everywhere (hord : ∀ l, (ord l).Perm l) (ho : Jenks.OracleSorted orc) (hm : Meaningful inp.params) (hx : (keys inp.extra).Nodup)
    (hT : 0 < inp.tObs) [SFinite ν] (hG : MeasurableSet G) (hnull : ∀ᵐ x ∂ν, x ∈ G) (hw : World P ν L prior X pdet q Y)
    (hat : At inp (fun x : G => row x) names value logPrior fun x : G => lp x) (hp : Proper ν L pdet lp)
    (hreach : ∀ i x, L i x * expR (lp x) ≠ 0 → 0 < prior i x) (width : ℕ) (m : Fin K → ℕ) (hm1 : ∀ i, 1 ≤ m i) (rate : Likelihood.Model FRow → XR) (μ : ℝ)
    (hμ : rate (inp.model none (meaning inp.params inp.extra fun n => fin (value n))) = fin μ) (r : Ω → Analysis)
    (hr : ∀ ω, run ord orc (observe inp row width prior (fun i => (List.range (m i)).map fun j => X i j ω) rate) = .ok (r ω)) :
    Integrable (fun ω => expR ((r ω).flowMC (names.map fun n => fin (value n)))) P ∧
    ∫ ω, expR ((r ω).flowMC (names.map fun n => fin (value n))) ∂P =
      Real.exp logPrior * (∏ i, inp.tObs * (∫ x, L i x * expR (lp x) ∂ν) / evidence ν (L i) (prior i)) * Real.exp (-μ) := by
  obtain ⟨x₀⟩ := hw.nonempty hnull
  have e1 : ∀ i, ∫ x : G, L i x * expR (lp x) ∂(ν.map (retract G x₀)) = ∫ x, L i x * expR (lp x) ∂ν := fun i => integral_retract hG x₀ hnull fun x => L i x * expR (lp x)
  have e2 : ∀ i, evidence (ν.map (retract G x₀)) (fun x : G => L i x) (fun x : G => prior i x) = evidence ν (L i) (prior i) :=
    fun i => integral_retract hG x₀ hnull fun x => L i x * prior i x
  have key := unbiased_ae hord ho hm hx hT (hw.retract hG x₀ hnull) hat (hp.retract hG x₀ hnull) (fun i x => hreach i x) width m hm1 rate μ hμ r (by
    filter_upwards [hw.ae_mem hnull] with ω hω
    rw [observe_retract hω.1]
    exact hr ω)
  simp only [e1, e2] at key
  exact key

end
end GW.Hierarchy
