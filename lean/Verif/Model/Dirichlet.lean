import Verif.Model.XR
import Verif.Model.PyDict
import Verif.Model.Tools
import Mathlib.Analysis.SpecialFunctions.Pow.Real

/-!
# Dirichlet elements

Model of `_DirichletElement` and `DirichletElement`, `/repo/src/gwkanal/utils/priors.py`.
-/

namespace GW.Dirichlet
open PyDict (Dict get?)
open GW.Tools (Err)

noncomputable section
open Classical

/-- `jax.scipy.special.xlog1py(x, y)`: `x * log1p(y)`, and `0` for `x = 0`.  Source: gwkanal/utils/priors.py lines 50–51. -/
def xlog1py (x : ℝ) (y : XR) : XR := if x = 0 ∧ y ≠ XR.nan then 0 else XR.fin x * XR.log1p y

/-- `_DirichletElement.log_prob` without the support check (lines 48-52). -/
def logProbRaw (order nDim sum value : ℝ) : XR :=
  let constant := nDim - order - 1
  let unnorm := xlog1py (constant - 1) (XR.fin (-sum - value))
  let logNorm := xlog1py constant (XR.fin (-sum)) - XR.log (XR.fin constant)
  unnorm - logNorm

/-- `@validate_sample`: outside `interval(0, 1 - sum)` (line 44-46) the value is `-inf` when arguments are validated. -/
def logProb (validate : Bool) (order nDim sum value : ℝ) : XR :=
  if validate ∧ ¬ (0 ≤ value ∧ value ≤ 1 - sum) then XR.ninf else logProbRaw order nDim sum value

/-- `_DirichletElement.sample` for one uniform number `u` (lines 54-57). -/
def sample (order nDim sum u : ℝ) : ℝ := (1 - sum) * (1 - u ^ (1 / (nDim - order - 1)))

/-- What `DirichletElement` returns: a point mass, or an element with its order, dimension and sum.  Source: gwkanal/utils/priors.py lines 122–130. -/
inductive Elem where
  | delta (v : ℝ)
  | element (order nDim sum : ℝ)

/-- `DirichletElement(order, n_dimensions, **kwargs)` (lines 60-130). -/
def dirichletElement (order nDim : Int) (kwargs : Dict String ℝ) : Except Err Elem :=
  if order < 0 then .error .valueError
  else if nDim < 2 then .error .valueError
  else match (List.range order.toNat).mapM fun i => get? kwargs ("concentration" ++ toString i) with
    | none => .error .key
    | some concentrations =>
      let sum := concentrations.foldl (· + ·) 0
      if order = nDim - 1 then .ok (.delta (1 - sum)) else .ok (.element order nDim sum)

end

end GW.Dirichlet
