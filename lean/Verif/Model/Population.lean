import Verif.Model.Key
import Verif.Model.PyDict
import Verif.Model.Tools
import Verif.Model.XR
import Mathlib.Data.Real.Basic
import Mathlib.Algebra.BigOperators.Group.List.Basic

/-!
# Population generation

Model of `/repo/src/gwkanal/core/population.py`.  The population model, the selection function and the error generators are oracles;
numbers are exact reals.
-/

namespace GW.Population
open GW.Tools (Err)

/-- `ensure_dat_extension` (lines 28-54). -/
def ensureDatExtension (filename : String) : Except Err String :=
  if ".dat".toList <:+ filename.toList then .ok filename
  else if '.' ∉ filename.toList then .ok (filename ++ ".dat")
  else .error .valueError

/-! ## Random keys -/

/-- What a key is used for.  Source: gwkanal/core/population.py lines 153–320. -/
inductive Use where
  | size
  | population (realization : Nat)
  | thinning (realization : Nat)
  | noise (realization event error : Nat)
deriving DecidableEq, Repr

/-- Keys used by `_generate_population` (lines 153-204) for one realisation: the population draw uses the key itself; with a selection
function the key is replaced twice by the second half of its split, and the result chooses the detected rows. -/
def populationKeys (thin : Bool) (i : Nat) (key : Key) : List (Use × Key) :=
  (.population i, key) :: (if thin then [(.thinning i, Key.sub (Key.sub key 1) 1)] else [])

/-- Keys used by `_generate_realizations` (lines 206-279). -/
def realizationKeys (thin : Bool) (numRealizations : Nat) (key : Key) : List (Use × Key) :=
  let poissonKey := Key.sub key 0
  let rateKey := Key.sub key 1
  (.size, poissonKey) :: ((List.range numRealizations).map fun i => populationKeys thin i (Key.sub rateKey i)).flatten

/-- Keys used by `_add_error` (lines 281-357) for one realisation with `nEvents` events and `nErrors` error generators: generator `h` of
event `e` gets key number `e * nErrors + h`. -/
def errorKeys (nEvents nErrors i : Nat) (key : Key) : List (Use × Key) :=
  ((List.range nEvents).map fun e => (List.range nErrors).map fun h => (Use.noise i e h, Key.sub key (e * nErrors + h))).flatten

/-- Keys used by `produce` (lines 359-377). -/
def produceKeys (thin : Bool) (numRealizations nEvents nErrors : Nat) (key : Key) : List (Use × Key) :=
  realizationKeys thin numRealizations key ++
    ((List.range numRealizations).map fun i => errorKeys nEvents nErrors i (Key.sub key i)).flatten

/-! ## One population -/

/-- Lines 165-186: the masses of a row are replaced by their maximum and minimum. -/
noncomputable def swapRow (m1 m2 : Nat) (row : List ℝ) : List ℝ :=
  let a := row.getD m1 0
  let b := row.getD m2 0
  (row.set m1 (max a b)).set m2 (min a b)

/-- `population[index]`.  Source: gwkanal/core/population.py line 201. -/
def take {α} (rows : List α) (index : List Nat) : List α := index.filterMap fun i => rows[i]?

/-- `_generate_population` (lines 153-204): `draw n` is `(population, indices)` for `n` rows; `choice` gives the indices drawn with the
selection weights, if there is a selection function. -/
noncomputable def generatePopulation (parameters : List String) (draw : Nat → List (List ℝ) × List Nat)
    (choice : Option (List (List ℝ) → Nat → List Nat)) (size : Nat) :
    Except Err (List (List ℝ) × List Nat × List (List ℝ) × List Nat) :=
  let total := if choice.isSome then size + 10000 else size
  let (population, indices) := draw total
  if "mass_1_source" ∉ parameters then .error .valueError
  else if "mass_2_source" ∉ parameters then .error .valueError
  else
    let raw := population.map (swapRow (parameters.idxOf "mass_1_source") (parameters.idxOf "mass_2_source"))
    match choice with
    | none => .ok (raw, indices, raw, indices)
    | some c =>
      let index := c raw size
      .ok (raw, indices, take raw index, take indices index)

/-! ## Mean and covariance of an event -/

/-- An entry of `np.mean(noisy_data, axis=0)`, gwkanal/core/population.py line 66. -/
noncomputable def mean (rows : List (List ℝ)) (i : Nat) : ℝ := (rows.map fun r => r.getD i 0).sum / rows.length

/-- An entry of `np.cov(rows, rowvar=False)`.  Source: gwkanal/core/population.py lines 74 and 85. -/
noncomputable def sampleCov (rows : List (List ℝ)) (i j : Nat) : ℝ :=
  (rows.map fun r => (r.getD i 0 - mean rows i) * (r.getD j 0 - mean rows j)).sum / (rows.length - 1 : ℕ)

/-- `covs[idx_i, idx_j] = v`.  Source: gwkanal/core/population.py line 83. -/
def setEntry (m : Nat → Nat → ℝ) (i j : Nat) (v : ℝ) : Nat → Nat → ℝ :=
  fun a b => if a = i ∧ b = j then v else m a b

/-- The double loop over a tile (lines 80-82): column `k` of the tile data is column `indices[k]` of the data. -/
noncomputable def writeTile (rows : List (List ℝ)) (indices : List Nat) (m : Nat → Nat → ℝ) : Nat → Nat → ℝ :=
  indices.foldl (fun m i => indices.foldl (fun m j => setEntry m i j (sampleCov rows i j)) m) m

/-- The loop over the tiles (lines 71-82); fewer than two rows make the covariance NaN, which is rejected. -/
noncomputable def tileLoop (parameters : List String) (rows : List (List ℝ)) :
    List (List String) → (Nat → Nat → ℝ) → Except Err (Nat → Nat → ℝ)
  | [], m => .ok m
  | tile :: tiles, m =>
    if ∃ p ∈ tile, p ∉ parameters then .error .valueError
    else if rows.length < 2 ∧ tile ≠ [] then .error .valueError
    else tileLoop parameters rows tiles (writeTile rows (tile.map parameters.idxOf) m)

/-- `add_mean_and_covariance` (lines 57-89).  The data has no NaN (rows with NaN are removed by the caller). -/
noncomputable def addMeanAndCovariance (rows : List (List ℝ)) (parameters : List String) (tiles : Option (List (List String))) :
    Except Err ((Nat → ℝ) × (Nat → Nat → ℝ)) :=
  if rows.length < 1 then .error .valueError
  else match tiles with
    | some tiles =>
      match tileLoop parameters rows tiles (fun _ _ => 0) with
      | .error e => .error e
      | .ok m => .ok (mean rows, m)
    | none => if rows.length < 2 then .error .valueError else .ok (mean rows, sampleCov rows)

/-! ## Noise of an event -/

/-- An error generator: column numbers of its parameters and the noise `noise data row k` of row `row` for its `k`-th parameter.
Source: gwkanal/core/population.py lines 288–323. -/
structure ErrorFn where
  head : List Nat
  noise : List XR → Key → Nat → Nat → XR

/-- `noisy_data[:, head] = noisy_data_i` (line 325). -/
def writeColumns (head : List Nat) (values : Nat → Nat → XR) (noisy : Nat → Nat → XR) : Nat → Nat → XR :=
  (head.zipIdx).foldl (fun noisy hk row col => if col = hk.1 then values row hk.2 else noisy row col) noisy

/-- The loop over the error generators for event number `event` (lines 313-326), from an uninitialised array `np.empty`. -/
def eventNoise (fns : List ErrorFn) (data : List XR) (event : Nat) (key : Key) (uninitialised : Nat → Nat → XR) : Nat → Nat → XR :=
  (fns.zipIdx).foldl
    (fun noisy fi => writeColumns fi.1.head
      (fi.1.noise (fi.1.head.map fun h => data.getD h .nan) (Key.sub key (event * fns.length + fi.2))) noisy)
    uninitialised

/-- Lines 311-343 for one event: rows with a NaN are removed; with no row left the event is skipped (`none`). -/
def eventFile (fns : List ErrorFn) (nParams errorSize : Nat) (data : List XR) (event : Nat) (key : Key)
    (uninitialised : Nat → Nat → XR) : Option (List (List XR)) :=
  let noisy := eventNoise fns data event key uninitialised
  let rows := ((List.range errorSize).map fun r => (List.range nParams).map (noisy r)).filter fun row => decide (∀ x ∈ row, x.isNan = false)
  if rows.length < 1 then none else some rows

end GW.Population
