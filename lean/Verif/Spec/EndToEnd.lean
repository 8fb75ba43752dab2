import Verif.Spec.Hierarchy
import Verif.Spec.HybridDensity
import Verif.Model.HybridSage

/-! # The exact posterior of the `n_pls_m_gs` analysis

Events are vectors with one real entry for each column of the analysis; the population is the sum over its components of the rate times the documented
density. -/

namespace GW.EndToEnd
open GW XR MeasureTheory GW.PyDict GW.Hybrids
open GW.Likelihood (FRow)

noncomputable section
open Classical

/-- An event: one number for each column. -/
abbrev Event (columns : List String) : Type := Fin columns.length → ℝ

/-- The quantity with the given name. -/
def quantity {columns : List String} (x : Event columns) (name : String) : ℝ :=
  if h : columns.idxOf name < columns.length then x ⟨columns.idxOf name, h⟩ else 0

/-- An event as a row of the data. -/
def row {columns : List String} (x : Event columns) : FRow := (List.ofFn x).map fin

/-- Mergers per unit of everything: `Σ over components of exp(log rate) · Π over factors of their density at their own quantities`. -/
def rate (dV : ℝ → ℝ) {columns : List String} (m : Mixture) (laws : List (List Law)) (x : Event columns) : ℝ :=
  (List.zipWith (fun r p => Real.exp r * p) m.logRates (List.zipWith (namedDensity dV (quantity x)) m.components laws)).sum

/-- Values for the sampled parameters of a prior table: the sampled names in alphabetical order, the value of each within its prior, and the log prior
density of them all. -/
structure Point (params : Dict String (Guru.PVal XR)) (names : List String) (value : String → ℝ) (logPrior : ℝ) : Prop where
  nodup : names.Nodup
  sorted : names.Pairwise (· ≤ ·)
  columns : ∀ n, n ∈ names ↔ Sage.Sampled params n
  inside : ∀ n ∈ names, Sage.inPrior params (fun n => fin (value n)) n = true
  prior : XR.sum (names.map (Sage.logPriorOf params fun n => fin (value n))) = fin logPrior

/-- The hyper-parameters the prior table means at those values. -/
def told (params : Dict String (Guru.PVal XR)) (o : Flag → Bool) (Npl Ng : Nat) (value : String → ℝ) : Dict String ℝ :=
  hyperParameters (sageModelParameters o Npl Ng) (Sage.meaning params (sageExtra o Npl Ng) fun n => fin (value n))

/-- `log prior + Σ over events of log(T ∫ L ρ) - T ∫ ρ p_det`. -/
def logPosterior {α : Type} [MeasureSpace α] {K : ℕ} (L : Fin K → α → ℝ) (pdet : α → ℝ) (T logPrior : ℝ) (ρ : α → ℝ) : ℝ :=
  logPrior + ∑ i, Real.log (T * ∫ x, L i x * ρ x) - T * ∫ x, ρ x * pdet x

end
end GW.EndToEnd
