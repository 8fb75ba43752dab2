import Verif.Model.XRMath
import Verif.Model.Tools

/-!
# Expected-rate estimators (gwkokab/poisson_mean)

`_injection_based.py` lines 71–132, `_neural_vt.py`, `_neural_pdet.py` (the choice between them is in Verif.Model.Selection).

Simplifications: `jax.lax.map(f, xs, batch_size)` is `map f xs`; a network is an arbitrary function; the samples of the components are given.
-/

namespace GW.PoissonMean
open GW XR

noncomputable section
open Classical

/-! ## Injections -/

/-- `safe_log_prob`, _injection_based.py:72–84 and 97–109: model values minus log weights, NaN and `-inf` replaced by `-inf`. -/
def safeLogProb (modelLp logW : List XR) : List XR :=
  (List.zipWith (fun m w => m - w) modelLp logW).map fun t => if t.isNegInf || t.isNan then ninf else t

/-- `jnn.logsumexp(safe_log_prob, where=~isneginf(safe_log_prob))`, lines 86–90, 111–115. -/
def lse1 (s : List XR) : XR := logsumexpWhere (s.map fun a => (a, !a.isNegInf))

/-- `jnn.logsumexp(2 * safe_log_prob, where=…)`, lines 116–120. -/
def lse2 (s : List XR) : XR := logsumexpWhere (s.map fun a => (fin 2 * a, !a.isNegInf))

/-- `_poisson_mean`, lines 71–93. -/
def injectionMean (T N : ℝ) (modelLp logW : List XR) : XR := (fin T * exp (lse1 (safeLogProb modelLp logW))) / fin N

/-- `_variance_of_estimator`, lines 95–132. -/
def injectionVariance (T N : ℝ) (modelLp logW : List XR) : XR :=
  let s := safeLogProb modelLp logW
  let term2 := exp (fin 2 * log (fin T) - fin 3 * log (fin N) + fin 2 * lse1 s)
  let term1 := exp (fin 2 * log (fin T) - fin 2 * log (fin N) + lse2 s)
  term1 - term2

/-! ## Neural estimators -/

/-- Errors of the constructors, _neural_vt.py:31–58 and _neural_pdet.py:32–59 (type checks of the arguments are not modelled). -/
inductive Err where
  | emptyParameters
  | badBatchSize
  | missingName
deriving DecidableEq, Repr

/-- `shuffle_indices` with the checks before it, _neural_vt.py:31–60, _neural_pdet.py:32–61. -/
def shuffleIndices (parameters names : List String) (batchSize : Option ℤ) : Except Err (List ℕ) :=
  if parameters = [] then .error .emptyParameters
  else if (match batchSize with | some b => decide (b < 1) | none => false) then .error .badBatchSize
  else if names.any fun n => !parameters.contains n then .error .missingName
  else .ok (names.map fun n => parameters.idxOf n)

/-- `x[..., shuffle_indices]` for one row.  Source: gwkokab/poisson_mean/_neural_pdet.py line 65. -/
def takeColumns (idx : List ℕ) (x : List XR) : List XR := idx.map fun i => x.getD i nan

/-- `log_vt` for one row, _neural_vt.py:62–67: the network output is the log of VT. -/
def logVT (idx : List ℕ) (net : List XR → XR) (x : List XR) : XR := net (takeColumns idx x)

/-- `log_pdet` for one row, _neural_pdet.py:63–71. -/
def logPdet (idx : List ℕ) (net : List XR → XR) (x : List XR) : XR :=
  let y := net (takeColumns idx x)
  let mask := decide (le y (fin 0))
  let safe := select mask (fin 1) y
  select mask ninf (log safe)

/-- `_poisson_mean`, _neural_vt.py:69–76; `comps` lists, per component, the log rate and the `log_vt` of its samples. -/
def vtMean (T : ℝ) (num : ℕ) (comps : List (XR × List XR)) : XR := (fin T / fin num) * XR.sum (comps.map fun c => exp (c.1 + logsumexp c.2))

/-- `_variance_of_estimator`, _neural_vt.py:78–95. -/
def vtVariance (T : ℝ) (num : ℕ) (comps : List (XR × List XR)) : XR :=
  XR.sum (comps.map fun c =>
    let term2 := exp (fin 2 * log (fin T) - fin 3 * log (fin num) + fin 2 * c.1 + fin 2 * logsumexp c.2)
    let term1 := exp (fin 2 * log (fin T) - fin 2 * log (fin num) + fin 2 * c.1 + logsumexp (c.2.map fun v => fin 2 * v))
    term1 - term2)

/-- A marginal of a component, as far as `redshift_log_norm` looks at it: the class name and the value of `log_norm()`.
Source: gwkokab/poisson_mean/_neural_pdet.py lines 78–88. -/
structure Marginal where
  cls : String
  logNorm : XR

/-- The entry of `redshift_log_norm` for one component, _neural_pdet.py:78–88: `none` if the component is not a `JointDistribution`. -/
def redshiftLogNorm : Option (List Marginal) → XR
  | none => fin 0
  | some ms => match ms.find? fun m => m.cls = "PowerlawRedshift" with
    | some m => m.logNorm
    | none => fin 0

/-- `_poisson_mean`, _neural_pdet.py:73–95: components with their log rate, `redshift_log_norm` and `log_pdet` values. -/
def pdetMean (T : ℝ) (num : ℕ) (comps : List (XR × Option (List Marginal) × List XR)) : XR :=
  (fin T / fin num) * XR.sum (comps.map fun c => exp (c.1 + redshiftLogNorm c.2.1 + logsumexp c.2.2))

/-- `_variance_of_estimator`, _neural_pdet.py:97–130. -/
def pdetVariance (T : ℝ) (num : ℕ) (comps : List (XR × Option (List Marginal) × List XR)) : XR :=
  XR.sum (comps.map fun c =>
    let term2 := exp (fin 2 * log (fin T) - fin 3 * log (fin num) + fin 2 * c.1 + fin 2 * redshiftLogNorm c.2.1 + fin 2 * logsumexp c.2.2)
    let term1 := exp (fin 2 * log (fin T) - fin 2 * log (fin num) + fin 2 * c.1 + fin 2 * redshiftLogNorm c.2.1 + logsumexp (c.2.2.map fun v => fin 2 * v))
    term1 - term2)

end

end GW.PoissonMean
