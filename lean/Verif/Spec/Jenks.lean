import Verif.Model.Jenks

/-! Vocabulary for the statements about bucketing. -/

namespace GW.Jenks

/-- Contract of the clustering library: when it returns breaks for ascending data, they are in ascending order. -/
def OracleSorted (orc : Oracle) : Prop :=
  ∀ data n bs, data.Pairwise (· ≤ ·) → orc data n = .ok bs → bs.Pairwise (· ≤ ·)

/-- Contract of the clustering library, in full: for ascending data and a number of classes between two and the number of distinct values it returns the
lower end of the data and the upper end of every class; the upper ends are ascending and occur in the data. -/
def OracleBreaks (orc : Oracle) : Prop :=
  ∀ data n, data.Pairwise (· ≤ ·) → 2 ≤ n → n ≤ data.dedup.length →
    ∃ low ups, orc data n = .ok (low :: ups) ∧ ups.length = n ∧ ups.Pairwise (· < ·) ∧ ∀ x ∈ ups, x ∈ data

/-- `idx` cuts a sequence of length `n` into consecutive groups. -/
structure Boundaries (idx : List Nat) (n : Nat) : Prop where
  starts : idx.head? = some 0
  ends : idx.getLast? = some n
  sorted : idx.Pairwise (· ≤ ·)

/-- A row padded with `zero` to length `m`. -/
def padTo {α} (m : Nat) (zero : α) (l : List α) : List α := l ++ List.replicate (m - l.length) zero

/-- The entries of a padded row that the mask selects. -/
def unpad {α} (row : List α) (mask : List Bool) : List α := ((row.zip mask).filter (·.2)).map (·.1)

end GW.Jenks
