import Mathlib.Data.Rat.Init
import Mathlib.Algebra.Order.Ring.Rat
import Mathlib.Data.List.Dedup
import Mathlib.Data.List.Sort

/-!
# Bucketing and padding of events

Model of `/repo/src/gwkanal/utils/jenks.py`.

Simplifications: an array is its list of rows along axis 0 plus `width`, the number of scalars per row (so that
`.size = rows * width`); losses are exact rationals; logging is dropped; `jenkspy.jenks_breaks` is an arbitrary oracle
(it may raise); `np.searchsorted(data, v, side="right")` on sorted data is the number of entries `≤ v`.
-/

namespace GW.Jenks

/-- Exceptions: `ValueError` (what `error_if` raises, utils/tools.py 13-33) or anything else an oracle may raise.
Source: gwkanal/utils/jenks.py lines 106, 136, 207, 288. -/
inductive Err where
  | valueError
  | other
deriving DecidableEq, Repr

/-- `max` of a list of sizes (0 for an empty list; the code never takes it there).  Source: gwkanal/utils/jenks.py lines 52 and 76. -/
def maxOf (l : List Nat) : Nat := l.foldr max 0

/-- `_loss` (lines 31-60). -/
def loss (bucket : List Nat) : ℚ :=
  if bucket.isEmpty then 0
  else if maxOf bucket = 0 then 0
  else (1 - (bucket.sum : ℚ) / ((bucket.length : ℚ) * maxOf bucket)) * 100

/-- `_total_loss` (lines 63-84). -/
def totalLoss (subsets : List (List Nat)) : ℚ :=
  let nonempty := subsets.filter fun s => !s.isEmpty
  let totalSpace := (nonempty.map fun s => s.length * maxOf s).sum
  let totalUsed := (nonempty.map List.sum).sum
  if totalSpace = 0 then 0
  else (1 - (totalUsed : ℚ) / (totalSpace : ℚ)) * 100

/-- `np.searchsorted(data, value, side="right")` for sorted `data`.  Source: gwkanal/utils/jenks.py line 104. -/
def searchRight (data : List Nat) (v : Nat) : Nat := (data.filter (· ≤ v)).length

/-- `_right_most_index` (lines 87-112). -/
def rightMostIndex (data : List Nat) (v : Nat) : Except Err Nat :=
  let idx := searchRight data v
  if idx = 0 || data[idx - 1]? != some v then .error .valueError else .ok (idx - 1)

/-- The clustering oracle `jenkspy.jenks_breaks(data, n_classes=n)`.  Source: gwkanal/utils/jenks.py line 148. -/
abbrev Oracle := List Nat → Nat → Except Err (List Nat)

/-- The list comprehension of lines 149-151. -/
def rightMostAll (data : List Nat) : List Nat → Except Err (List Nat)
  | [] => .ok []
  | b :: bs => do
    let i ← rightMostIndex data b
    let r ← rightMostAll data bs
    pure (i :: r)

/-- Replace the last entry (`indexes[-1] = v`, line 158). -/
def setLast : List Nat → Nat → List Nat
  | [], _ => []
  | [_], v => [v]
  | a :: b :: l, v => a :: setLast (b :: l) v

/-- `_jenks_natural_breaks` (lines 115-161). -/
def naturalBreaks (orc : Oracle) (data : List Nat) (n : Nat) : Except Err (List Nat) := do
  if n < 1 ∨ n > data.length then throw .valueError
  let breaks ← if n = 1 then pure [data.headD 0, data.getLastD 0] else orc data n
  let rightmost ← rightMostAll data (breaks.drop 1)
  let indexes := 0 :: rightmost.map (· + 1)
  pure (if indexes.getLastD 0 ≠ data.length then setLast indexes data.length else indexes)

/-- `_get_subsets` (lines 164-180): `data[indexes[i]:indexes[i+1]]`. -/
def getSubsets {β} (data : List β) : List Nat → List (List β)
  | a :: b :: rest => ((data.take b).drop a) :: getSubsets data (b :: rest)
  | _ => []

/-- `_partition_data_for_bucket` (lines 183-218). -/
def partitionForBucket (orc : Oracle) (data : List Nat) (n : Nat) : Except Err (List Nat × ℚ) := do
  let indexes ← naturalBreaks orc data n
  let subsets := getSubsets data indexes
  if subsets.isEmpty then throw .valueError
  pure (indexes, totalLoss subsets)

/-- The `while` loop of lines 254-266, for the counts `c, c+1, …` (`fuel` of them): the losses until the first
`ValueError`; other exceptions propagate. -/
def autoLosses (orc : Oracle) (data : List Nat) : Nat → Nat → Except Err (List ℚ)
  | 0, _ => .ok []
  | fuel + 1, c =>
    match partitionForBucket orc data c with
    | .ok (_, l) => do
      let r ← autoLosses orc data fuel (c + 1)
      pure (l :: r)
    | .error .valueError => .ok []
    | .error .other => .error .other

/-- `np.diff` with the sign of line 276: `losses[i] - losses[i+1]`. -/
def reductions : List ℚ → List ℚ
  | a :: b :: r => (a - b) :: reductions (b :: r)
  | _ => []

/-- Position of the first entry below the threshold (lines 278-287); if there is none, the number of losses. -/
def chooseBuckets (losses : List ℚ) (threshold : ℚ) : Nat :=
  match (reductions losses).findIdx? (· < threshold) with
  | none => losses.length
  | some i => i + 1

/-- `_partition_data` (lines 221-300). -/
def partitionData (orc : Oracle) (data : List Nat) (nBuckets : Option Nat) (threshold : ℚ) :
    Except Err (List Nat) :=
  if data.length = 0 then .ok [0]
  else
    let nUnique := data.dedup.length
    if nUnique = 1 then .ok [0, data.length]
    else match nBuckets with
      | some n => do
        let n := if nUnique < n then nUnique else n
        let (indexes, _) ← partitionForBucket orc data n
        pure indexes
      | none => do
        let losses ← autoLosses orc data nUnique 1
        if losses.length ≤ 1 then pure [0, data.length]
        else do
          let n := chooseBuckets losses threshold
          if n < 1 then throw .valueError
          let (indexes, _) ← partitionForBucket orc data n
          pure indexes

/-- An array: its rows along axis 0, and the number of scalars in each row.  Source: gwkanal/utils/jenks.py lines 303–420. -/
structure Arr (α : Type) where
  rows : List α
  width : Nat

/-- `arr.size`.  Source: gwkanal/utils/jenks.py line 416. -/
def Arr.size {α} (a : Arr α) : Nat := a.rows.length * a.width

/-- `max(arr.shape[0] for arr in bucket)`.  Source: gwkanal/utils/jenks.py lines 323 and 356. -/
def maxRows {α} (bucket : List (Arr α)) : Nat := maxOf (bucket.map fun a => a.rows.length)

/-- `_pad_and_stack_bucket` (lines 303-334), `zero w` being a row of `w` zeros. -/
def padAndStackBucket {α} (zero : Nat → α) (bucket : List (Arr α)) : List (List α) :=
  bucket.map fun b => b.rows ++ List.replicate (maxRows bucket - b.rows.length) (zero b.width)

/-- `_bucket_mask` (lines 337-365). -/
def bucketMask {α} (bucket : List (Arr α)) : List (List Bool) :=
  bucket.map fun a => List.replicate a.rows.length true ++ List.replicate (maxRows bucket - a.rows.length) false

/-- `arr[i]` for the lists of arrays (only used with valid indices).  Source: gwkanal/utils/jenks.py line 416. -/
def pick {α} (arr : List (Arr α)) (i : Nat) : Arr α := arr.getD i ⟨[], 0⟩

/-- Lines 418-422: the event indices sorted by total size (`sorted` is stable, as is `insertionSort`), with the sizes. -/
def sortedIndexSize {α} (arrays : List (List (Arr α))) (n : Nat) : List (Nat × Nat) :=
  ((List.range n).map fun i => (i, (arrays.map fun arr => (pick arr i).size).sum)).insertionSort
    (fun a b => a.2 ≤ b.2)

/-- `pad_and_stack(*arrays, n_buckets, threshold)` (lines 368-443).  Returns the stacked buckets of every
sequence, and the masks. -/
def padAndStack {α} (orc : Oracle) (zero : Nat → α) (arrays : List (List (Arr α))) (nBuckets : Option Nat)
    (threshold : ℚ) : Except Err (List (List (List (List α))) × List (List (List Bool))) :=
  if ¬ (0 ≤ threshold ∧ threshold ≤ 100) then .error .valueError
  else match arrays with
    | [] => .error .valueError
    | first :: rest =>
      let n := first.length
      if ¬ ((first :: rest).all fun a => n == a.length) then .error .valueError
      else if n = 0 then .ok ((first :: rest).map fun _ => [], [])
      else do
        let indexAndSize := sortedIndexSize (first :: rest) n
        let sizes := indexAndSize.map (·.2)
        let shuffle := indexAndSize.map (·.1)
        let shuffled := (first :: rest).map fun a => shuffle.map (pick a)
        let idx ← partitionData orc sizes nBuckets threshold
        let subsets := shuffled.map fun sa => getSubsets sa idx
        let padded := subsets.map fun s => s.map (padAndStackBucket zero)
        let masks := (getSubsets (shuffle.map (pick first)) idx).map bucketMask
        pure (padded, masks)

end GW.Jenks
