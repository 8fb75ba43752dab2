import Verif.Model.PyDict
import Verif.Model.Tools
import Mathlib.Data.Real.Basic
import Mathlib.Algebra.BigOperators.Group.Finset.Basic
import Mathlib.Analysis.SpecialFunctions.Exp

/-!
# Posterior predictive densities

Model of `/repo/src/gwkanal/utils/ppd.py`.  Numbers are exact reals; an array is a shape and a function of index lists.
-/

namespace GW.Ppd
open PyDict (Dict get?)
open GW.Tools (Err)

/-! ## `wipe_log_rate` -/

/-- `key.startswith("log_rate")`.  Source: gwkanal/utils/ppd.py line 40. -/
def isRate (key : String) : Bool := "log_rate".toList.isPrefixOf key.toList

/-- `np.delete(rows, index, axis=-1)` for a matrix given by its rows; an index beyond the width is an `IndexError`.
Source: gwkanal/utils/ppd.py line 43. -/
def deleteColumn {V} (width : Nat) (rows : List (List V)) (index : Nat) : Except Err (List (List V)) :=
  if index < width then .ok (rows.map (·.eraseIdx index)) else .error .index

/-- One pass of the loop body of `wipe_log_rate` (lines 39-46): state is the matrix width, its rows, the mapping and the constants. -/
def wipeStep {V} (zero : V) (key : String) (st : Nat × List (List V) × Dict String Nat × Dict String V) :
    Except Err (Nat × List (List V) × Dict String Nat × Dict String V) :=
  let (width, rows, mapping, constants) := st
  if isRate key then
    match get? mapping key with
    | none => .error .key
    | some index =>
      let mapping := mapping.filter fun p => p.1 ≠ key
      match deleteColumn width rows index with
      | .error e => .error e
      | .ok rows =>
        .ok (width - 1, rows, mapping.map fun p => (p.1, if p.2 > index then p.2 - 1 else p.2), PyDict.set constants key zero)
  else .ok st

/-- The loop over the keys, gwkanal/utils/ppd.py lines 39–50. -/
def wipeLoop {V} (zero : V) : List String → Nat × List (List V) × Dict String Nat × Dict String V →
    Except Err (Nat × List (List V) × Dict String Nat × Dict String V)
  | [], st => .ok st
  | key :: ks, st =>
    match wipeStep zero key st with
    | .error e => .error e
    | .ok st => wipeLoop zero ks st

/-- `wipe_log_rate` (lines 18-47): returns also the mapping, which the code updates in place. -/
def wipeLogRate {V} (zero : V) (width : Nat) (rows : List (List V)) (mapping : Dict String Nat) (constants : Dict String V) :
    Except Err (Nat × List (List V) × Dict String Nat × Dict String V) :=
  wipeLoop zero (PyDict.keys mapping) (width, rows, mapping, constants)

/-! ## Grids, marginals and files -/

/-- `(start, end, num_points)`.  Source: gwkanal/utils/ppd.py lines 65 and 126. -/
structure Domain where
  start : ℝ
  stop : ℝ
  points : Nat

/-- `jnp.linspace(start, end, num_points)[i]`.  Source: gwkanal/utils/ppd.py lines 132 and 234. -/
noncomputable def Domain.at (d : Domain) (i : Nat) : ℝ := d.start + i * ((d.stop - d.start) / (d.points - 1 : ℕ))

/-- An array: shape and entries, gwkanal/utils/ppd.py lines 100–158. -/
structure Arr where
  shape : List Nat
  val : List Nat → ℝ

/-- The trapezoidal rule over the grid of `d`.  Source: gwkanal/utils/ppd.py lines 130–134. -/
noncomputable def trapz (d : Domain) (f : Nat → ℝ) : ℝ :=
  ∑ t ∈ Finset.range (d.points - 1), (d.at (t + 1) - d.at t) / 2 * (f (t + 1) + f t)

/-- `jnp.trapezoid(y, linspace(...), axis=axis)`.  Simplification: grids that do not match the axis are an error even where
broadcasting would accept them.  Source: gwkanal/utils/ppd.py lines 130–134. -/
noncomputable def trapezoid (y : Arr) (d : Domain) (axis : Nat) : Except Err Arr :=
  if y.shape[axis]? = some d.points then
    .ok ⟨y.shape.eraseIdx axis, fun idx => trapz d fun t => y.val (idx.insertIdx axis t)⟩
  else .error .valueError

/-- The loop of `_compute_marginal_probs` (lines 124-136). -/
noncomputable def marginalLoop (axis : Nat) : List Domain → Nat → Nat → Arr → Except Err Arr
  | [], _, _, y => .ok y
  | d :: ds, i, j, y =>
    if i = axis then marginalLoop axis ds (i + 1) j y
    else match trapezoid y d (i - j) with
      | .error e => .error e
      | .ok y => marginalLoop axis ds (i + 1) (j + 1) y

/-- `_compute_marginal_probs` (lines 99-137). -/
noncomputable def computeMarginal (probs : Arr) (axis : Nat) (domains : List Domain) : Except Err Arr :=
  if axis < probs.shape.length then marginalLoop axis domains 0 0 probs else .error .assertion

/-- `get_all_marginals` (lines 140-158). -/
noncomputable def allMarginals (probs : Arr) (domains : List Domain) : Except Err (List Arr) :=
  (List.range probs.shape.length).mapM fun axis => computeMarginal probs axis domains

/-- The file written by `save_probs`.  Source: gwkanal/utils/ppd.py lines 160–202. -/
structure PpdFile where
  domains : List Domain
  headers : List String
  ppd : Arr
  marginals : List (String × Arr)

/-- `save_probs` (lines 161-200); a repeated name in a group is an error of the file library. -/
noncomputable def saveProbs (ppd : Arr) (marginals : List Arr) (domains : List Domain) (headers : List String) : Except Err PpdFile :=
  if ppd.shape.length ≠ domains.length then .error .valueError
  else if ppd.shape.length ≠ headers.length then .error .valueError
  else
    let group := (marginals.zip headers).map fun p => (p.2, p.1)
    if (group.map (·.1)).Nodup then .ok ⟨domains, headers, ppd, group⟩ else .error .valueError

/-- `jnp.stack(jnp.meshgrid(*xx, indexing="ij"), axis=-1).reshape(-1, P)` (lines 234-240): the grid points in row-major order. -/
noncomputable def mesh : List Domain → List (List ℝ)
  | [] => [[]]
  | d :: ds => ((List.range d.points).map fun i => (mesh ds).map fun x => d.at i :: x).flatten

/-- Position in a row-major flattened array of the given shape.  Source: gwkanal/utils/ppd.py lines 234–245. -/
def ravel : List Nat → List Nat → Nat
  | _ :: shape, i :: idx => i * shape.prod + ravel shape idx
  | _, _ => 0

/-- `prob_values` after line 256: `probs s x` is the density of the model for posterior sample `s` at the point `x`; the flat list of
densities of a sample is reshaped to the grid, and the sample axis is moved to the end. -/
noncomputable def probValues (domains : List Domain) (nSamples : Nat) (density : Nat → List ℝ → ℝ) : Arr :=
  { shape := domains.map Domain.points ++ [nSamples]
    val := fun idx =>
      let flat := (mesh domains).map (density (idx.getLastD 0))
      (flat[ravel (domains.map Domain.points) idx.dropLast]?).getD 0 }

/-- `np.mean(prob_values, axis=-1)` (line 257). -/
noncomputable def meanLast (y : Arr) : Arr :=
  { shape := y.shape.dropLast
    val := fun idx => (∑ s ∈ Finset.range (y.shape.getLastD 0), y.val (idx ++ [s])) / (y.shape.getLastD 0 : ℕ) }

/-- `compute_and_save_ppd` (lines 203-259); `density s` is `exp(model(**constants, **{k: params[v] …}).log_prob)` for the `s`-th
posterior sample (see `Model/PpdModel`).  Simplification: densities are real numbers, not NaN or infinite. -/
noncomputable def computeAndSave (density : Nat → List ℝ → ℝ) (nSamples : Nat) (domains : List Domain) (parameters : List String) :
    Except Err PpdFile :=
  let probs := probValues domains nSamples density
  match allMarginals probs domains with
  | .error e => .error e
  | .ok marginals => saveProbs (meanLast probs) marginals domains parameters

end GW.Ppd
