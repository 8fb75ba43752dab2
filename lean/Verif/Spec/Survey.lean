import Verif.Model.PoissonMean
import Verif.Lemmas.XR
import Mathlib.MeasureTheory.Measure.Lebesgue.Basic
import Mathlib.MeasureTheory.Integral.Bochner.Set
import Mathlib.Probability.Independence.Basic

/-! # What the expected-number estimators estimate -/

namespace GW.PoissonMean
open GW XR MeasureTheory ProbabilityTheory

noncomputable section
open Classical

variable {α Ω : Type} [MeasurableSpace α] [MeasurableSpace Ω]

/-- A uniform number on `[0, 1)`. -/
def unit : Measure ℝ := volume.restrict (Set.Ico 0 1)

/-- An injection campaign: the injections `(Y i).1` are drawn independently with density `q` (with respect to `ν`), and an injection at `x` is found
with probability `pdet x`, independently of everything else; `(Y i).2` is the uniform number that decides. -/
structure Campaign (P : Measure Ω) (ν : Measure α) (q : α → ℝ) (Y : ℕ → Ω → α × ℝ) : Prop where
  measurable : ∀ i, Measurable (Y i)
  law : ∀ i, P.map (Y i) = (ν.withDensity fun x => ENNReal.ofReal (q x)).prod unit
  independent : iIndepFun Y P

/-- The found ones among the first `N` injections. -/
def foundInjections (pdet : α → ℝ) (Y : ℕ → Ω → α × ℝ) (N : ℕ) (ω : Ω) : List α :=
  ((List.range N).filter fun i => decide ((Y i ω).2 < pdet (Y i ω).1)).map fun i => (Y i ω).1

/-- The expected number of detections in time `T` of a population with differential rate `exp ∘ lp`. -/
def expectedDetections (ν : Measure α) (pdet : α → ℝ) (T : ℝ) (lp : α → XR) : ℝ := T * ∫ x, expR (lp x) * pdet x ∂ν

/-- Draws from the components of a population: the `j`-th draw `X k j` from component `k` follows the law `Q k`, and any two draws are independent. -/
structure Draws {K : ℕ} (P : Measure Ω) (Q : Fin K → Measure α) (X : Fin K → ℕ → Ω → α) : Prop where
  measurable : ∀ k j, Measurable (X k j)
  law : ∀ k j, P.map (X k j) = Q k
  independent : Pairwise fun a b : Fin K × ℕ => IndepFun (X a.1 a.2) (X b.1 b.2) P

/-- The expected number of detections in time `T` when component `k` has the rate `exp (logR k)` and the law `Q k`, and the sensitivity at `x` is
`exp (logVT x)`. -/
def expectedFromComponents {K : ℕ} (Q : Fin K → Measure α) (logR : Fin K → ℝ) (T : ℝ) (logVT : α → XR) : ℝ :=
  T * ∑ k, Real.exp (logR k) * ∫ x, expR (logVT x) ∂(Q k)

end
end GW.PoissonMean
