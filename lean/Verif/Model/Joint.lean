import Verif.Model.XR
import Verif.Model.Key

/-!
# JointDistribution

Model of `/repo/src/gwkokab/models/utils/_joindistribution.py` (and of `_AllConstraint.__call__` in
`models/constraints.py`, which gives the default support).

Simplifications: one batch element (the event axis is a `List`); event shapes of rank 0 or 1 (the code only
ever looks at `event_shape[0]`); out-of-range slices are reported as `none` (JAX would clamp the index; the
theorems only concern vectors of the declared length); `validate_sample` is not modelled.
-/

namespace GW.Joint

open GW

/-- The part of an event vector that is handed to one marginal: a scalar (`keepdims=False` indexing) or
a sub-vector (slicing).  Source: gwkokab/models/utils/_joindistribution.py lines 133–148. -/
inductive Slice (α : Type) where
  | one (a : α)
  | many (l : List α)

/-- All coordinates of a slice (`.reshape(-1)`).  Source: gwkokab/models/utils/_joindistribution.py line 154. -/
def Slice.toList {α} : Slice α → List α
  | .one a => [a]
  | .many l => l

/-- An arbitrary numpyro distribution with event shape `()` (`shape = none`) or `(n,)` (`shape = some n`).
Source: gwkokab/models/utils/_joindistribution.py lines 103–124. -/
structure Base (α : Type) where
  shape : Option Nat
  logProb : Slice α → XR
  support : Slice α → Bool
  sample : Key → Slice α

/-- A distribution object: an arbitrary one, or a `JointDistribution` holding its `marginal_distributions`
and the user-supplied `support`, if any.  Source: gwkokab/models/utils/_joindistribution.py lines 18–124. -/
inductive Dist (α : Type) where
  | base (b : Base α)
  | joint (ms : List (Dist α)) (supp : Option (List α → Bool))

/-- An entry of `shaped_values` (lines 107-114): an index or a half-open range. -/
inductive EvSlice where
  | idx (k : Nat)
  | range (a b : Nat)
deriving DecidableEq, Repr

/-- How many coordinates an event shape takes in the running offset (lines 109-114). -/
def shapeSize : Option Nat → Nat
  | some n => n
  | none => 1

mutual
/-- `d.event_shape` (rank ≤ 1).  For a `JointDistribution` it is `(k,)` with the final offset `k` (line 123). -/
def Dist.shape {α} : Dist α → Option Nat
  | .base b => b.shape
  | .joint ms _ => some (Dist.total ms)
/-- The final value of the offset `k` of the loop at lines 107-114 (started at 0). -/
def Dist.total {α} : List (Dist α) → Nat
  | [] => 0
  | m :: ms => shapeSize m.shape + Dist.total ms
end

/-- The loop of lines 107-114 that fills `shaped_values`, started at offset `k`. -/
def shapedValues {α} (k : Nat) : List (Dist α) → List EvSlice
  | [] => []
  | d :: ds =>
    match d.shape with
    | some n => .range k (k + n) :: shapedValues (k + n) ds      -- `if d.event_shape:`
    | none => .idx k :: shapedValues (k + 1) ds

/-- `lax.dynamic_index_in_dim(..., keepdims=False)` / `lax.dynamic_slice_in_dim` (lines 136-146). -/
def getSlice {α} (x : List α) : EvSlice → Option (Slice α)
  | .idx k => (x[k]?).map Slice.one
  | .range a b => if b ≤ x.length then some (.many ((x.drop a).take (b - a))) else none

mutual
/-- `log_prob` (lines 133-148) of a distribution object at a slice. -/
noncomputable def Dist.logProb {α} : Dist α → Slice α → Option XR
  | .base b, s => some (b.logProb s)
  | .joint ms _, .many x => Dist.logProbLoop ms (shapedValues 0 ms) x
  | .joint _ _, .one _ => none
/-- The loop of lines 135-147, summing marginal log-probs over `zip(marginal_distributions, shaped_values)`. -/
noncomputable def Dist.logProbLoop {α} : List (Dist α) → List EvSlice → List α → Option XR
  | m :: ms, e :: es, x => do
      let s ← getSlice x e
      let l ← m.logProb s
      let r ← Dist.logProbLoop ms es x
      pure (l + r)
  | _, _, _ => some 0
end

mutual
/-- `support.check` (lines 115-120 and `_AllConstraint.__call__`, constraints.py 273-291). -/
def Dist.support {α} : Dist α → Slice α → Option Bool
  | .base b, s => some (b.support s)
  | .joint _ (some f), .many x => some (f x)
  | .joint ms none, .many x => Dist.supportLoop ms (shapedValues 0 ms) x
  | .joint _ _, .one _ => none
/-- The conjunction loop of `_AllConstraint.__call__` (constraints.py 274-291).  Source: gwkokab/models/constraints.py lines 274–291. -/
def Dist.supportLoop {α} : List (Dist α) → List EvSlice → List α → Option Bool
  | m :: ms, e :: es, x => do
      let s ← getSlice x e
      let l ← m.support s
      let r ← Dist.supportLoop ms es x
      pure (l && r)
  | _, _, _ => some true
end

mutual
/-- `sample(key)` with `sample_shape=()` (lines 150-158): one sub-key per marginal, concatenation. -/
def Dist.sample {α} : Dist α → Key → Slice α
  | .base b, k => b.sample k
  | .joint ms _, k => .many (Dist.sampleLoop ms (k.split ms.length))
/-- The comprehension of lines 153-157 followed by the concatenation of the flattened draws. -/
def Dist.sampleLoop {α} : List (Dist α) → List Key → List α
  | m :: ms, k :: ks => (m.sample k).toList ++ Dist.sampleLoop ms ks
  | _, _ => []
end

/-- `flatten_method` argument: `None`, `"shallow"`, `"deep"`, or any other string.  Source: gwkokab/models/utils/_joindistribution.py lines 198–212. -/
inductive Method where
  | none
  | shallow
  | deep
  | other (s : String)
deriving DecidableEq, Repr

/-- Shallow flattening (lines 204-215 with `flatten_method == "shallow"`). -/
def flattenShallow {α} : List (Dist α) → List (Dist α)
  | [] => []
  | .joint ms _ :: ds => ms ++ flattenShallow ds
  | .base b :: ds => .base b :: flattenShallow ds

mutual
/-- Deep flattening of one element (lines 206-215). -/
def flattenDeepOne {α} : Dist α → List (Dist α)
  | .joint ms _ => flattenDeep ms
  | .base b => [.base b]
/-- Deep flattening (lines 204-216 with `flatten_method == "deep"`, recursive call at 210-212). -/
def flattenDeep {α} : List (Dist α) → List (Dist α)
  | [] => []
  | d :: ds => flattenDeepOne d ++ flattenDeep ds
end

/-- Errors raised by the constructor (lines 94-97 and 198-201). -/
inductive Err where
  | noMarginals
  | unknownMethod
deriving DecidableEq, Repr

/-- `_flatten_marginal_distributions` (lines 161-216). -/
def flatten {α} (ds : List (Dist α)) : Method → Except Err (List (Dist α))
  | .none => .ok ds
  | .shallow => .ok (flattenShallow ds)
  | .deep => .ok (flattenDeep ds)
  | .other _ => .error .unknownMethod

/-- `JointDistribution(*ds, flatten_method=m, support=supp)` (lines 22-125). -/
def mkJoint {α} (ds : List (Dist α)) (m : Method) (supp : Option (List α → Bool)) :
    Except Err (Dist α) :=
  if ds.isEmpty then .error .noMarginals
  else do
    let ms ← flatten ds m
    pure (.joint ms supp)

end GW.Joint
