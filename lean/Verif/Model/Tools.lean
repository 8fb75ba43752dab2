import Mathlib.Data.Rat.Floor
import Mathlib.Data.List.Basic

/-!
# Batching, splitting and small helpers

Model of `/repo/src/gwkokab/utils/tools.py` and of the splitting/batching code of `/repo/src/gwkokab/utils/train.py`.
Arrays are lists of rows along axis 0; `divmod` by zero raises.
-/

namespace GW.Tools

/-- Python exceptions that these helpers can raise.  Source: gwkokab/utils/tools.py lines 13–90. -/
inductive Err where
  | valueError
  | zeroDivision
  | assertion
  | key
  | type
  | index
  | notImplemented
deriving DecidableEq, Repr

/-- `a.reshape(k, b, …)` of `k * b` rows, row-major.  Source: gwkokab/utils/tools.py lines 79–84. -/
def reshape {α} (b : Nat) : Nat → List α → List (List α)
  | 0, _ => []
  | k + 1, l => l.take b :: reshape b k (l.drop b)

/-- `batch_and_remainder` for one leaf (tools.py lines 56-88). -/
def batchAndRemainder {α} (x : List α) (batchSize : Nat) : Except Err (List (List α) × List α) :=
  if batchSize = 0 then .error .zeroDivision
  else
    let numBatches := x.length / batchSize
    let total := numBatches * batchSize
    .ok (reshape batchSize numBatches (x.take total), x.drop total)

/-- The value of `split` (train.py lines 177-183); `int` truncates, and negative values are absorbed by `max`. -/
def splitIndex (n b : Nat) (testSize : ℚ) : Nat :=
  let split := ⌊(n : ℚ) * (1 - testSize)⌋.toNat
  let split := max split b / b * b
  if n ≥ 2 * b then min split (n - b) else max b split

/-- `_train_test_data_split` (train.py lines 162-187) with `indices` the permutation drawn; returns
`(X[train], X[test], Y[train], Y[test])`. -/
def trainTestSplit {α β} [Inhabited α] [Inhabited β] (X : List α) (Y : List β) (indices : List Nat) (b : Nat)
    (testSize : ℚ) : Except Err (List α × List α × List β × List β) :=
  if b = 0 then .error .zeroDivision
  else
    let split := splitIndex X.length b testSize
    let tr := indices.take split
    let te := indices.drop split
    .ok (tr.map (X.getD · default), te.map (X.getD · default), tr.map (Y.getD · default), te.map (Y.getD · default))

/-- The mini-batches of one epoch (train.py lines 337-339): `train[i : i + b] for i in range(0, len, b)`; `fuel` bounds the
number of iterations and `len` is always enough for `b ≥ 1`. -/
def epochBatches {α} (b : Nat) : Nat → List α → List (List α)
  | 0, _ => []
  | _ + 1, [] => []
  | fuel + 1, a :: l => (a :: l).take b :: epochBatches b fuel ((a :: l).drop b)

/-- The divisor used for the reported epoch loss (train.py line 345). -/
def epochDivisor (len b : Nat) : Nat := max 1 (len / b)

end GW.Tools
