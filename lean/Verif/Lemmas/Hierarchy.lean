import Verif.Spec.Hierarchy
import Verif.Props.Survey
import Verif.Props.Sage
import Mathlib.Probability.StrongLaw
import Mathlib.Probability.Independence.Integration

/-! # Importance weights of posterior samples -/

namespace GW.Hierarchy
open GW XR MeasureTheory ProbabilityTheory Filter Topology PyDict
open GW.Likelihood (FRow inputEvents mcAverage)
open GW.Sage (Inputs Analysis Meaningful Sampled RowsMatch meaning inPrior logPriorOf run)

noncomputable section
open Classical

variable {α Ω : Type} [MeasurableSpace α] [MeasurableSpace Ω] {K : ℕ} {P : Measure Ω} {ν : Measure α} {L prior : Fin K → α → ℝ} {X : Fin K → ℕ → Ω → α}

/-- What the samples of an event with these likelihood and prior can see of the population. -/
def reached (ν : Measure α) (L prior : α → ℝ) (lp : α → XR) : ℝ := ∫ x in {x | 0 < prior x}, L x * expR (lp x) ∂ν

theorem reached_eq {L prior : α → ℝ} {lp : α → XR} (hcov : ∀ x, L x * expR (lp x) ≠ 0 → 0 < prior x) :
    reached ν L prior lp = ∫ x, L x * expR (lp x) ∂ν := by
  unfold reached
  rw [setIntegral_eq_integral_of_forall_compl_eq_zero]
  intro x hx
  by_contra hne
  exact hx (hcov x hne)

section weights
variable (h : Observed P ν L prior X) (hL : ∀ i, Measurable (L i)) (hL0 : ∀ i x, 0 ≤ L i x) (hπ : ∀ i, Measurable (prior i)) (hπ0 : ∀ i x, 0 ≤ prior i x)
  (hZ : ∀ i, 0 < evidence ν (L i) (prior i))
include h hL hπ hπ0

/-- Almost surely all samples lie where their prior is positive. -/
theorem ae_inside : ∀ᵐ ω ∂P, ∀ i j, 0 < prior i (X i j ω) := by
  rw [ae_all_iff]; intro i
  rw [ae_all_iff]; intro j
  have h1 : ∀ᵐ x ∂(ν.withDensity fun x => ENNReal.ofReal (L i x * prior i x / evidence ν (L i) (prior i))), 0 < prior i x := by
    have hd : Measurable fun x => L i x * prior i x / evidence ν (L i) (prior i) := ((hL i).mul (hπ i)).div_const _
    rw [ae_withDensity_iff hd.ennreal_ofReal]
    refine Eventually.of_forall fun x hx => lt_of_le_of_ne (hπ0 i x) fun h0 => hx ?_
    rw [← h0]; simp
  rw [← h.law i j] at h1
  exact ae_of_ae_map (h.measurable i j).aemeasurable h1

variable {lp : α → XR} (hr : Measurable fun x => expR (lp x))
include hL0 hZ hr

/-- The mean weight of a sample. -/
theorem weight_mean (hint : ∀ i, Integrable (fun x => L i x * expR (lp x)) ν) (i : Fin K) (j : ℕ) :
    Integrable (fun ω => expR (lp (X i j ω)) / prior i (X i j ω)) P ∧
    ∫ ω, expR (lp (X i j ω)) / prior i (X i j ω) ∂P = reached ν (L i) (prior i) lp / evidence ν (L i) (prior i) := by
  have hw : Measurable fun x => expR (lp x) / prior i x := hr.div (hπ i)
  have hd : Measurable fun x => L i x * prior i x / evidence ν (L i) (prior i) := ((hL i).mul (hπ i)).div_const _
  have hd0 : ∀ x, 0 ≤ L i x * prior i x / evidence ν (L i) (prior i) := fun x => div_nonneg (mul_nonneg (hL0 i x) (hπ0 i x)) (hZ i).le
  have hS : MeasurableSet {x | 0 < prior i x} := measurableSet_lt measurable_const (hπ i)
  have hpt : (fun x => L i x * prior i x / evidence ν (L i) (prior i) * (expR (lp x) / prior i x)) =
      fun x => ({x | 0 < prior i x}.indicator (fun x => L i x * expR (lp x)) x) / evidence ν (L i) (prior i) := by
    funext x
    by_cases hx : 0 < prior i x
    · rw [Set.indicator_of_mem (show x ∈ {x | 0 < prior i x} from hx)]
      field_simp
    · rw [Set.indicator_of_notMem (show x ∉ {x | 0 < prior i x} from hx), show prior i x = 0 from le_antisymm (not_lt.1 hx) (hπ0 i x)]
      simp
  have h1 : Integrable (fun x => expR (lp x) / prior i x) (P.map (X i j)) := by
    rw [h.law i j, integrable_withDensity_iff_integrable_smul' hd.ennreal_ofReal (by simp)]
    simp only [ENNReal.toReal_ofReal (hd0 _), smul_eq_mul, hpt]
    exact ((hint i).indicator hS).div_const _
  refine ⟨h1.comp_measurable (h.measurable i j), ?_⟩
  have h2 := integral_map (μ := P) (h.measurable i j).aemeasurable (f := fun x => expR (lp x) / prior i x) hw.aestronglyMeasurable
  rw [← h2, h.law i j, integral_withDensity_eq_integral_toReal_smul hd.ennreal_ofReal (by simp)]
  simp only [ENNReal.toReal_ofReal (hd0 _), smul_eq_mul, hpt]
  rw [integral_div, integral_indicator hS, reached]

/-- The strong law for every event. -/
theorem weight_limit (hint : ∀ i, Integrable (fun x => L i x * expR (lp x)) ν) :
    ∀ᵐ ω ∂P, ∀ i, Tendsto (fun n : ℕ => (∑ j ∈ Finset.range n, expR (lp (X i j ω)) / prior i (X i j ω)) / n) atTop
      (𝓝 (reached ν (L i) (prior i) lp / evidence ν (L i) (prior i))) := by
  rw [ae_all_iff]; intro i
  have hw : Measurable fun x => expR (lp x) / prior i x := hr.div (hπ i)
  have hm := weight_mean h hL hL0 hπ hπ0 hZ hr hint i
  have := strong_law_ae_real (μ := P) (fun j ω => expR (lp (X i j ω)) / prior i (X i j ω)) (hm 0).1
    (fun a b hab => ((h.samples i).indepFun hab).comp hw hw) (fun j => by
      refine ⟨(hw.comp (h.measurable i j)).aemeasurable, (hw.comp (h.measurable i 0)).aemeasurable, ?_⟩
      change P.map ((fun x => expR (lp x) / prior i x) ∘ X i j) = P.map ((fun x => expR (lp x) / prior i x) ∘ X i 0)
      rw [← Measure.map_map hw (h.measurable i j), h.law i j, ← h.law i 0, Measure.map_map hw (h.measurable i 0)])
  rw [(hm 0).2] at this
  exact this

end weights

/-! ## What the analysis sees -/

theorem sum_range (f : ℕ → ℝ) (m : ℕ) : ((List.range m).map f).sum = ∑ j ∈ Finset.range m, f j := by
  induction m with
  | zero => simp
  | succ m ih => rw [List.range_succ, List.map_append, List.sum_append, ih, Finset.sum_range_succ]; simp

section observe
variable {inp : Inputs} {row : α → FRow} {width : ℕ} {xs : Fin K → List α} {rate : Likelihood.Model FRow → XR}

omit [MeasurableSpace α] in
theorem observe_rows : RowsMatch (observe inp row width prior xs rate) := by
  intro i
  simp only [observe, Jenks.pick, List.getD_eq_getElem?_getD, List.getElem?_map]
  cases (List.finRange K)[i]? <;> simp

omit [MeasurableSpace α] in
theorem observe_events : inputEvents (observe inp row width prior xs rate).data (observe inp row width prior xs rate).refs =
    (List.finRange K).map fun i => (xs i).map fun x => (row x, log (fin (prior i x))) := by
  simp only [inputEvents, observe]
  rw [List.zip_map', List.map_map]
  refine List.map_congr_left fun i _ => ?_
  simp only [Function.comp, List.map_map]
  rw [List.zip_map']
  rfl

omit [MeasurableSpace α] in
theorem weight_eq {M : Likelihood.Model FRow} (hM : ∀ x, IsLog (M.logProb (row x))) {i : Fin K} {x : α} (hx : 0 < prior i x) :
    IsLog (M.logProb (row x) - log (fin (prior i x))) ∧ expR (M.logProb (row x) - log (fin (prior i x))) = expR (M.logProb (row x)) / prior i x := by
  refine ⟨?_, PoissonMean.expR_sub_log (hM x).2 hx⟩
  rw [log_fin_pos hx]
  have := hM x
  cases h : M.logProb (row x) <;> simp_all [IsLog]

omit [MeasurableSpace α] in
theorem average_eq {M : Likelihood.Model FRow} (hM : ∀ x, IsLog (M.logProb (row x))) {i : Fin K} {m : ℕ} {x : ℕ → α} (hx : ∀ j, 0 < prior i (x j)) :
    (((List.range m).map x).map fun x => (row x, log (fin (prior i x)))).map (fun p => expR (M.logProb p.1 - p.2)) =
      (List.range m).map (fun j => expR (M.logProb (row (x j))) / prior i (x j)) ∧
    mcAverage M.logProb (((List.range m).map x).map fun x => (row x, log (fin (prior i x)))) =
      (∑ j ∈ Finset.range m, expR (M.logProb (row (x j))) / prior i (x j)) / m := by
  have h1 : (((List.range m).map x).map fun x => (row x, log (fin (prior i x)))).map (fun p => expR (M.logProb p.1 - p.2)) =
      (List.range m).map (fun j => expR (M.logProb (row (x j))) / prior i (x j)) := by
    rw [List.map_map, List.map_map]
    exact List.map_congr_left fun j _ => (weight_eq hM (hx j)).2
  refine ⟨h1, ?_⟩
  unfold mcAverage
  rw [h1, sum_range]
  simp

end observe

/-! ## The exponential of the log density -/

/-- The density handed to the sampler, on the linear scale; zero if an event is impossible. -/
theorem flowMC_density {ord : List String → List String} {orc : Jenks.Oracle} {inp : Inputs} {r : Analysis}
    (hord : ∀ l, (ord l).Perm l) (ho : Jenks.OracleSorted orc) (hm : Meaningful inp.params) (hx : (keys inp.extra).Nodup)
    (hrows : RowsMatch inp) (hT : 0 < inp.tObs) (h : run ord orc inp = .ok r) (value : String → ℝ) (M : Likelihood.Model FRow)
    (hM : M = inp.model none (meaning inp.params inp.extra fun n => fin (value n)))
    (hwhere : ∀ fns, inp.whereFns = some fns → ∀ f ∈ fns, f (meaning inp.params inp.extra fun n => fin (value n)) = true)
    (hin : ∀ n ∈ r.labels, inPrior inp.params (fun n => fin (value n)) n = true)
    (lp μ : ℝ) (hlp : XR.sum (r.labels.map (logPriorOf inp.params fun n => fin (value n))) = fin lp) (hμ : inp.rate M = fin μ)
    (hlog : ∀ ev ∈ inputEvents inp.data inp.refs, ∀ p ∈ ev, (M.logProb p.1 - p.2).IsLog) :
    expR (r.flowMC (r.labels.map fun n => fin (value n))) =
      Real.exp (lp - μ) * ((inputEvents inp.data inp.refs).map fun ev => inp.tObs * mcAverage M.logProb ev).prod := by
  have hnn : ∀ ev : List (FRow × XR), 0 ≤ (ev.map fun p => (M.logProb p.1 - p.2).expR).sum := fun ev =>
    List.sum_nonneg fun y hy => by obtain ⟨p, -, rfl⟩ := List.mem_map.1 hy; exact expR_nonneg _
  by_cases hpos : ∀ ev ∈ inputEvents inp.data inp.refs, 0 < (ev.map fun p => (M.logProb p.1 - p.2).expR).sum
  · rw [Sage.C82_flowMC_value hord ho hm hx hrows hT h value M hM hwhere hin lp μ hlp hμ hlog hpos, expR_fin,
      show lp + ((inputEvents inp.data inp.refs).map fun ev => Real.log (inp.tObs * mcAverage M.logProb ev)).sum - μ =
        (lp - μ) + ((inputEvents inp.data inp.refs).map fun ev => Real.log (inp.tObs * mcAverage M.logProb ev)).sum by ring, Real.exp_add]
    congr 1
    have hp : ∀ ev ∈ inputEvents inp.data inp.refs, 0 < inp.tObs * mcAverage M.logProb ev := by
      intro ev hev
      have h0 := hpos ev hev
      refine mul_pos hT (div_pos h0 ?_)
      rcases ev with _ | ⟨a, l⟩
      · simp at h0
      · simp only [List.length_cons]; positivity
    generalize inputEvents inp.data inp.refs = evs at hp
    clear hpos hlog
    induction evs with
    | nil => simp
    | cons e es ih =>
      simp only [List.map_cons, List.sum_cons, List.prod_cons]
      rw [Real.exp_add, Real.exp_log (hp e (by simp)), ih (fun ev hev => hp ev (by simp [hev]))]
  · push Not at hpos
    obtain ⟨ev, hev, h0⟩ := hpos
    have h0 := le_antisymm h0 (hnn ev)
    have hzero : ((inputEvents inp.data inp.refs).map fun ev => inp.tObs * mcAverage M.logProb ev).prod = 0 := by
      rw [List.prod_eq_zero_iff]
      refine List.mem_map.2 ⟨ev, hev, ?_⟩
      simp [mcAverage, h0]
    rw [hzero, mul_zero]
    obtain ⟨s, pr, c, bs, hs, hp, hd, hdis, rfl⟩ := Sage.run_ok h
    have hargs := Sage.args_meaning (pr := pr) (c := c) hm hx hs hdis none fun n => fin (value n)
    have hdist : (Sage.closure inp none s pr c).distFn ((Sage.closure inp none s pr c).args (s.names.map fun n => fin (value n))) = M := by
      rw [hM, ← hargs]; rfl
    have hperm := (Likelihood.C07_read_data_keeps_events orc ho inp.data inp.refs hrows inp.nBuckets inp.threshold c bs hd).1
    have := Likelihood.C06_impossible_event_rejected (Sage.closure inp none s pr c) (s.names.map fun n => fin (value n)) bs
      (by rw [hdist]; exact fun ev hev => hlog ev (hperm.mem_iff.1 hev)) ev (hperm.mem_iff.2 hev) (by
        rw [hdist]
        intro p hp
        have hz : (M.logProb p.1 - p.2).expR = 0 := by
          have hall : ∀ y ∈ ev.map fun p => (M.logProb p.1 - p.2).expR, y = 0 := fun y hy =>
            List.all_zero_of_le_zero_le_of_sum_eq_zero (l := ev.map fun p => (M.logProb p.1 - p.2).expR) (by
              intro y hy; obtain ⟨p, -, rfl⟩ := List.mem_map.1 hy; exact expR_nonneg _) h0 hy
          exact hall _ (List.mem_map_of_mem hp)
        have := hlog ev hev p hp
        cases hq : M.logProb p.1 - p.2 with
        | fin a => rw [hq, expR_fin] at hz; exact absurd hz (Real.exp_pos a).ne'
        | ninf => rfl
        | pinf => rw [hq] at this; exact absurd rfl this.2
        | nan => rw [hq] at this; exact absurd rfl this.1)
    simp only
    rw [this]
    rfl

end
end GW.Hierarchy
