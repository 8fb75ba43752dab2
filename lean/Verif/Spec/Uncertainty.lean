import Verif.Spec.Hierarchy
import Verif.Model.SageVariance
import Mathlib.Probability.Distributions.Gaussian.Real

/-! # The uncertainty of an estimated log posterior -/

namespace GW.Hierarchy
open GW XR MeasureTheory ProbabilityTheory
open GW.Likelihood (FRow)
open GW.PoissonMean (foundInjections injectionVariance)

noncomputable section
open Classical

variable {α Ω : Type} [MeasurableSpace α] [MeasurableSpace Ω] {K : ℕ}

/-- The estimate of the variance of the expected number from the found ones among `N` injections. -/
def injectionRateVariance (row : α → FRow) (pdet q : α → ℝ) (Y : ℕ → Ω → α × ℝ) (T : ℝ) (N : ℕ) (ω : Ω) (M : Likelihood.Model FRow) : XR :=
  injectionVariance T N ((foundInjections pdet Y N ω).map fun x => M.logProb (row x)) ((foundInjections pdet Y N ω).map fun x => log (fin (q x)))

/-- The relative variance of the weight `ρ / π` of a posterior sample of an event, for the differential rate `ρ = exp ∘ lp`. -/
def weightVariance (ν : Measure α) (L prior : α → ℝ) (lp : α → XR) : ℝ :=
  evidence ν L prior * (∫ x, L x * expR (lp x) ^ 2 / prior x ∂ν) / (∫ x, L x * expR (lp x) ∂ν) ^ 2 - 1

/-- The variance of the contribution `T ρ / q` of one injection, counted if it is found. -/
def injectionWeightVariance (ν : Measure α) (pdet q : α → ℝ) (T : ℝ) (lp : α → XR) : ℝ :=
  T ^ 2 * ((∫ x, expR (lp x) ^ 2 / q x * pdet x ∂ν) - (∫ x, expR (lp x) * pdet x ∂ν) ^ 2)

/-- The variance of the log posterior estimated with `m i` samples of event `i` and `N` injections, to leading order. -/
def leadingVariance (ν : Measure α) (L prior : Fin K → α → ℝ) (pdet q : α → ℝ) (T : ℝ) (lp : α → XR) (m : Fin K → ℕ) (N : ℕ) : ℝ :=
  (∑ i, weightVariance ν (L i) (prior i) lp / m i) + injectionWeightVariance ν pdet q T lp / N

/-- The samples of the events and the injections have nothing to do with each other, and the weights have finite variances that are not zero. -/
structure Varied (P : Measure Ω) (ν : Measure α) (L prior : Fin K → α → ℝ) (X : Fin K → ℕ → Ω → α) (pdet q : α → ℝ) (Y : ℕ → Ω → α × ℝ) (T : ℝ)
    (lp : α → XR) : Prop where
  apart : IndepFun (fun ω i j => X i j ω) (fun ω j => Y j ω) P
  samples : ∀ i, Integrable (fun x => L i x * expR (lp x) ^ 2 / prior i x) ν
  injections : Integrable (fun x => expR (lp x) ^ 2 / q x * pdet x) ν
  samples_vary : ∀ i, 0 < weightVariance ν (L i) (prior i) lp
  injections_vary : 0 < injectionWeightVariance ν pdet q T lp

end
end GW.Hierarchy
