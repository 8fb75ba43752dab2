import Verif.Spec.Monk
import Verif.Spec.Survey

/-! # The exact posterior of a population of Gaussian events, and the draws that estimate it -/

namespace GW.Monk
open GW XR MeasureTheory ProbabilityTheory Matrix
open GW.PoissonMean (foundInjections injectionMean)

noncomputable section

variable {d : ℕ} {Ω : Type} [MeasurableSpace Ω]

/-- Standard normal vectors: for every key a sequence of independent ones; the sequences of different keys have nothing to do with each other. -/
structure Normals (P : Measure Ω) (Z : Key → ℕ → Ω → (Fin d → ℝ)) : Prop where
  measurable : ∀ k t, Measurable (Z k t)
  law : ∀ k t, P.map (Z k t) = volume.withDensity fun z => ENNReal.ofReal (stdNormal z)
  indep : ∀ k, iIndepFun (Z k) P
  keys : iIndepFun (fun (k : Key) ω (t : ℕ) => Z k t ω) P

/-- The first `n` vectors of every key. -/
def firstDraws (Z : Key → ℕ → Ω → (Fin d → ℝ)) (n : ℕ) (ω : Ω) (k : Key) : List (Fin d → ℝ) := (List.range n).map fun t => Z k t ω

/-- The log density of the population at these values of the sampled parameters. -/
def population (inp : Inputs d) (value : String → ℝ) : (Fin d → ℝ) → XR := inp.model (Sage.meaning inp.params inp.extra fun n => fin (value n))

/-- The exact log posterior: `log prior + Σ over events of log(T ∫ ρ N(m, S)) - μ`, for the differential rate `ρ = exp ∘ lp` and the expected number `μ`. -/
def exactLogPosterior (evs : List ((Fin d → ℝ) × Matrix (Fin d) (Fin d) ℝ)) (T logPrior : ℝ) (lp : (Fin d → ℝ) → XR) (μ : ℝ) : ℝ :=
  logPrior + (evs.map fun e => Real.log (T * ∫ x, expR (lp x) * gauss e.1 e.2 x)).sum - μ

/-- The columns are `names`, the sampled parameters in alphabetical order, the values lie within the priors and the log prior is `logPrior`. -/
structure At (inp : Inputs d) (names : List String) (value : String → ℝ) (logPrior : ℝ) : Prop where
  nodup : names.Nodup
  sorted : names.Pairwise (· ≤ ·)
  columns : ∀ n, n ∈ names ↔ Sage.Sampled inp.params n
  inside : ∀ n ∈ names, Sage.inPrior inp.params (fun n => fin (value n)) n = true
  prior : XR.sum (names.map (Sage.logPriorOf inp.params fun n => fin (value n))) = fin logPrior

/-- A population with log differential rate `lp` under which every event has a positive likelihood. -/
structure Proper (lp : (Fin d → ℝ) → XR) (evs : List ((Fin d → ℝ) × Matrix (Fin d) (Fin d) ℝ)) : Prop where
  isLog : ∀ x, IsLog (lp x)
  measurable : Measurable fun x => expR (lp x)
  seen : ∀ e ∈ evs, Integrable fun x => expR (lp x) * gauss e.1 e.2 x
  possible : ∀ e ∈ evs, 0 < ∫ x, expR (lp x) * gauss e.1 e.2 x

/-- The estimate of the expected number from the found ones among `N` injections. -/
def injectionRate (inp : Inputs d) (pdet q : (Fin d → ℝ) → ℝ) (Y : ℕ → Ω → (Fin d → ℝ) × ℝ) (N : ℕ) (ω : Ω) (kw : Sage.Kwargs) : XR :=
  injectionMean inp.tObs N ((foundInjections pdet Y N ω).map fun x => inp.model kw x) ((foundInjections pdet Y N ω).map fun x => log (fin (q x)))

end
end GW.Monk
