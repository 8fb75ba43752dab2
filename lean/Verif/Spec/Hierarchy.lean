import Verif.Spec.Sage
import Verif.Spec.Survey

/-! # The posterior of a population, and what an analysis is given to estimate it

The exact log posterior of a Poisson population analysis, and the data sets (posterior samples of the events, found injections) that estimate it. -/

namespace GW.Hierarchy
open GW XR MeasureTheory ProbabilityTheory
open GW.Likelihood (FRow)
open GW.PoissonMean (foundInjections injectionMean)

noncomputable section
open Classical

variable {α Ω : Type} [MeasurableSpace α] [MeasurableSpace Ω] {K : ℕ}

/-- The evidence of an event with likelihood `L` under the prior `prior` its posterior samples were made with. -/
def evidence (ν : Measure α) (L prior : α → ℝ) : ℝ := ∫ x, L x * prior x ∂ν

/-- Posterior samples of `K` events: the samples `X i j` of event `i` are drawn independently from its posterior `L i · prior i / evidence`, and
different events have nothing to do with each other. -/
structure Observed (P : Measure Ω) (ν : Measure α) (L prior : Fin K → α → ℝ) (X : Fin K → ℕ → Ω → α) : Prop where
  measurable : ∀ i j, Measurable (X i j)
  law : ∀ i j, P.map (X i j) = ν.withDensity fun x => ENNReal.ofReal (L i x * prior i x / evidence ν (L i) (prior i))
  samples : ∀ i, iIndepFun (X i) P
  events : iIndepFun (fun (i : Fin K) ω (j : ℕ) => X i j ω) P

/-- The analysis `inp` applied to the posterior samples `xs i` of the events `i`: the coordinates of a sample are `row`, the reference prior is the prior
the samples were made with, the expected number is estimated with `rate`. -/
def observe (inp : Sage.Inputs) (row : α → FRow) (width : ℕ) (prior : Fin K → α → ℝ) (xs : Fin K → List α) (rate : Likelihood.Model FRow → XR) : Sage.Inputs :=
  { inp with
    data := (List.finRange K).map fun i => ⟨(xs i).map row, width⟩
    refs := (List.finRange K).map fun i => ⟨(xs i).map fun x => [log (fin (prior i x))], 1⟩
    rate := rate }

/-- The estimate of the expected number from the found ones among `N` injections. -/
def injectionRate (row : α → FRow) (pdet q : α → ℝ) (Y : ℕ → Ω → α × ℝ) (T : ℝ) (N : ℕ) (ω : Ω) (M : Likelihood.Model FRow) : XR :=
  injectionMean T N ((foundInjections pdet Y N ω).map fun x => M.logProb (row x)) ((foundInjections pdet Y N ω).map fun x => log (fin (q x)))

/-- The exact log posterior, up to the evidence of the whole data set: `log prior + Σ over events of log(T ∫ L_i ρ) - T ∫ ρ p_det`, for the differential
rate `ρ = exp ∘ lp`. -/
def exactLogPosterior (ν : Measure α) (L : Fin K → α → ℝ) (pdet : α → ℝ) (T logPrior : ℝ) (lp : α → XR) : ℝ :=
  logPrior + ∑ i, Real.log (T * ∫ x, L i x * expR (lp x) ∂ν) - PoissonMean.expectedDetections ν pdet T lp

/-- A set of observations: posterior samples of the events and an injection campaign, with measurable, non-negative likelihoods, priors, injection density
and detection probabilities, and positive evidences. -/
structure World (P : Measure Ω) (ν : Measure α) (L prior : Fin K → α → ℝ) (X : Fin K → ℕ → Ω → α) (pdet q : α → ℝ) (Y : ℕ → Ω → α × ℝ) : Prop where
  observed : Observed P ν L prior X
  campaign : PoissonMean.Campaign P ν q Y
  measurable_L : ∀ i, Measurable (L i)
  L_nonneg : ∀ i x, 0 ≤ L i x
  measurable_prior : ∀ i, Measurable (prior i)
  prior_nonneg : ∀ i x, 0 ≤ prior i x
  evidence_pos : ∀ i, 0 < evidence ν (L i) (prior i)
  measurable_q : Measurable q
  q_nonneg : ∀ x, 0 ≤ q x
  measurable_pdet : Measurable pdet
  pdet_nonneg : ∀ x, 0 ≤ pdet x
  pdet_le_one : ∀ x, pdet x ≤ 1

/-- A population with log differential rate `lp` whose exact likelihood is a positive number. -/
structure Proper (ν : Measure α) (L : Fin K → α → ℝ) (pdet : α → ℝ) (lp : α → XR) : Prop where
  isLog : ∀ x, IsLog (lp x)
  measurable : Measurable fun x => expR (lp x)
  seen : ∀ i, Integrable (fun x => L i x * expR (lp x)) ν
  detected : Integrable (fun x => expR (lp x) * pdet x) ν
  possible : ∀ i, 0 < ∫ x, L i x * expR (lp x) ∂ν

/-- The samples and the injections reach wherever the population can be seen. -/
structure Reaches (L prior : Fin K → α → ℝ) (pdet q : α → ℝ) (lp : α → XR) : Prop where
  samples : ∀ i x, L i x * expR (lp x) ≠ 0 → 0 < prior i x
  injections : ∀ x, expR (lp x) * pdet x ≠ 0 → 0 < q x

/-- The analysis `inp` evaluated at the parameter values `value`: its columns are `names`, the sampled parameters in alphabetical order, the values lie
within the priors and pass the where-functions, the log prior is `logPrior`, and the population model has the log differential rate `lp`. -/
structure At (inp : Sage.Inputs) (row : α → FRow) (names : List String) (value : String → ℝ) (logPrior : ℝ) (lp : α → XR) : Prop where
  nodup : names.Nodup
  sorted : names.Pairwise (· ≤ ·)
  columns : ∀ n, n ∈ names ↔ Sage.Sampled inp.params n
  inside : ∀ n ∈ names, Sage.inPrior inp.params (fun n => fin (value n)) n = true
  passes : ∀ fns, inp.whereFns = some fns → ∀ f ∈ fns, f (Sage.meaning inp.params inp.extra fun n => fin (value n)) = true
  prior : XR.sum (names.map (Sage.logPriorOf inp.params fun n => fin (value n))) = fin logPrior
  model : ∀ x, (inp.model none (Sage.meaning inp.params inp.extra fun n => fin (value n))).logProb (row x) = lp x

end
end GW.Hierarchy
