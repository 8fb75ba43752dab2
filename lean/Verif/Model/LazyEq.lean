import Verif.Model.Lazy
import Verif.Model.PyDict

/-!
# Equality of the supports of lazy joint distributions

Model of `_LazyConstraint.__eq__`, `/repo/src/gwkokab/models/utils/_lazyjointdistribution.py` lines 68–82.
-/

namespace GW.Lazy
open GW GW.Joint GW.PyDict

/-- The attributes of a `_LazyConstraint`.  Source: gwkokab/models/utils/_lazyjointdistribution.py lines 23–31. -/
structure Constraint (α : Type) where
  marginals : List (Marg α)
  deps : List (Nat × List (String × Nat))
  slices : List EvSlice

/-- `_LazyConstraint.__call__`: the value of `support` of the distribution with these attributes.
Source: gwkokab/models/utils/_lazyjointdistribution.py lines 33–60. -/
def Constraint.check {α} (c : Constraint α) (x : List α) : Option Bool := do
  let ms ← instLoop (eventEnv x) c.deps c.marginals
  supportLoop ms c.slices x

/-- `ValueError` of `zip(..., strict=True)`.  Source: gwkokab/models/utils/_lazyjointdistribution.py lines 74–78. -/
inductive EqErr where
  | zipLength
deriving DecidableEq, Repr

/-- `all(a == b for a, b in zip(xs, ys, strict=True))`: stops at the first pair that differs, and raises when one of the two ends before the other.
Source: gwkokab/models/utils/_lazyjointdistribution.py lines 72–79. -/
def allEq {D : Type} (eq : D → D → Bool) : List D → List D → Except EqErr Bool
  | [], [] => .ok true
  | a :: as, b :: bs => if eq a b then allEq eq as bs else .ok false
  | _, _ => .error .zipLength

/-- `==` of two dicts: as many items, and every item of the first is one of the second.
Source: gwkokab/models/utils/_lazyjointdistribution.py line 80. -/
def dictEq {K V : Type} [DecidableEq K] (eq : V → V → Bool) (a b : Dict K V) : Bool :=
  a.length == b.length && a.all fun p => match get? b p.1 with
    | some v => eq p.2 v
    | none => false

/-- `==` of two `dependencies`, a dict of dicts.  Source: gwkokab/models/utils/_lazyjointdistribution.py line 80. -/
def depsEq (a b : List (Nat × List (String × Nat))) : Bool := dictEq (dictEq (· == ·)) a b

/-- What the right-hand side of `==` can be.  Source: gwkokab/models/utils/_lazyjointdistribution.py lines 68–70. -/
inductive Other (α : Type) where
  | constraint (c : Constraint α)
  | somethingElse

/-- `_LazyConstraint.__eq__`, with `eq` the `==` of the marginals.  Source: gwkokab/models/utils/_lazyjointdistribution.py lines 68–82. -/
def Constraint.eq {α} (eq : Marg α → Marg α → Bool) (a : Constraint α) : Other α → Except EqErr Bool
  | .somethingElse => .ok false
  | .constraint b =>
    match allEq eq a.marginals b.marginals with
    | .error e => .error e
    | .ok false => .ok false
    | .ok true => .ok (depsEq a.deps b.deps && decide (a.slices = b.slices))

end GW.Lazy
