import Mathlib.Analysis.SpecialFunctions.Exp

/-!
# Sampling, mean and variance of ScaledMixture

Model of `sample_with_intermediates`, `mean` and `variance`, `/repo/src/gwkokab/models/utils/_scaledmixture.py:128–225`.

Simplifications: one batch element and one draw; the log scales are finite reals, arithmetic is exact; the component samples and the uniform number behind
the index are arguments (the code gets them from different keys).  `mean` and `variance` are those of one coordinate of the event.
-/

namespace GW.Mixture

noncomputable section
open Classical

variable {n : ℕ} {α : Type}

/-- `jax.nn.softmax(log_scales)` (line 219): the largest entry is subtracted first. -/
def softmax (l : Fin (n + 1) → ℝ) (i : Fin (n + 1)) : ℝ :=
  let M := Finset.univ.sup' ⟨0, Finset.mem_univ _⟩ l
  Real.exp (l i - M) / ∑ j, Real.exp (l j - M)

/-- `jnp.cumsum(p)`.  Source: inside `jax.random.choice`/`categorical`, used at gwkokab/models/utils/_scaledmixture.py lines 203–231. -/
def cumsum (p : Fin (n + 1) → ℝ) (k : Fin (n + 1)) : ℝ := ∑ j with j ≤ k, p j

/-- numpyro's `categorical(key, p, shape)`: `jnp.sum(jnp.cumsum(p) < r)` for a uniform number `r` (lines 217–221). -/
def categorical (p : Fin (n + 1) → ℝ) (u : ℝ) : ℕ := (Finset.univ.filter fun k => cumsum p k < u).card

/-- `sample_with_intermediates` (lines 203–231): the selected component sample and the index.  An index out of range (never reached) selects nothing. -/
def sampleWithIntermediates (l : Fin (n + 1) → ℝ) (samples : Fin (n + 1) → α) (u : ℝ) : Option α × ℕ :=
  let index := categorical (softmax l) u
  (if h : index < n + 1 then some (samples ⟨index, h⟩) else none, index)

/-- `sample` (lines 233–234). -/
def sample (l : Fin (n + 1) → ℝ) (samples : Fin (n + 1) → α) (u : ℝ) : Option α := (sampleWithIntermediates l samples u).1

/-- `mean` (lines 171–176). -/
def mean (l componentMean : Fin (n + 1) → ℝ) : ℝ := ∑ i, Real.exp (l i) * componentMean i

/-- `variance` (lines 178–189). -/
def variance (l componentMean componentVariance : Fin (n + 1) → ℝ) : ℝ :=
  let meanCondVar := ∑ i, Real.exp (l i) * componentVariance i
  let sqDeviation := fun i => (componentMean i - mean l componentMean) ^ 2
  let varCondMean := ∑ i, Real.exp (l i) * sqDeviation i
  meanCondVar + varCondMean

end

end GW.Mixture
