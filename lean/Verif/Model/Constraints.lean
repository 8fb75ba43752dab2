import Verif.Model.XRMath
import Verif.Model.Tools

/-!
# Constraints (gwkokab/models/constraints.py)

A constraint is checked on one event, a list of floats (the last axis of the array; leading batch axes are checked element by element and are
not modelled).  A check that raises returns an error.  numpyro's own `positive`, `interval`, `open_interval` (wrapped in
`independent(…, 1)` where the code does so) are included as leaves.
-/

namespace GW.Constraints
open GW XR
open GW.Tools (Err)

noncomputable section
open Classical

/-- The non-composite constraints.  `positive`, `intervals` and `openIntervals` are numpyro's, applied to every coordinate.
Source: gwkokab/models/constraints.py lines 37–252. -/
inductive Leaf where
  | increasing | decreasing | strictlyIncreasing | strictlyDecreasing | positiveIncreasing | positiveDecreasing
  | massSandwich (mmin mmax : ℝ) | massRatioSandwich (mmin mmax : ℝ)
  | positive | intervals (lo hi : List ℝ) | openIntervals (lo hi : List ℝ)

/-- `jnp.all(r(x[..., 1:], x[..., :-1]), axis=-1)`, the pattern of constraints.py:142, 160, 180, 202. -/
def allNeighbours (r : XR → XR → Prop) (x : List XR) : Bool := ((x.drop 1).zip x.dropLast).all fun p => decide (r p.1 p.2)

/-- `independent(positive, 1).check(x)`: `x > 0` for every coordinate (numpyro). -/
def allPositive (x : List XR) : Bool := x.all fun a => decide (lt 0 a)

/-- `lo <= x <= hi` (or strict) coordinate by coordinate; other lengths fail to broadcast.
Source: used through gwkokab/models/constraints.py lines 273–291; the check itself is numpyro's. -/
def allWithin (r : XR → XR → Prop) (lo hi : List ℝ) (x : List XR) : Except Err Bool :=
  if x.length = lo.length ∧ x.length = hi.length then
    .ok ((x.zip (lo.zip hi)).all fun p => decide (r (fin p.2.1) p.1) && decide (r p.1 (fin p.2.2)))
  else .error .type

/-- The common mask of the two sandwiches: `0 < mmin`, `mmin <= m2`, `m2 <= m1`, `m1 <= mmax` (constraints.py:58–63 and 105–111). -/
def sandwichMask (mmin mmax : ℝ) (m1 m2 : XR) : Bool :=
  let mask := decide ((0 : ℝ) < mmin) && decide (le (fin mmin) m2)
  let mask := mask && decide (le m2 m1)
  mask && decide (le m1 (fin mmax))

/-- `__call__` of the leaf constraints: constraints.py:58–63 (`massSandwich`), 105–111 (`massRatioSandwich`), 141–142 (`increasing`),
159–160 (`decreasing`), 179–180, 201–202 (strict), 223–224, 243–244 (positive).  `jnp.unstack` into two names raises for another length. -/
def Leaf.check : Leaf → List XR → Except Err Bool
  | .increasing, x => .ok (allNeighbours (fun a b => le b a) x)
  | .decreasing, x => .ok (allNeighbours (fun a b => le a b) x)
  | .strictlyIncreasing, x => .ok (allNeighbours (fun a b => lt b a) x)
  | .strictlyDecreasing, x => .ok (allNeighbours (fun a b => lt a b) x)
  | .positiveIncreasing, x => .ok (allNeighbours (fun a b => le b a) x && allPositive x)
  | .positiveDecreasing, x => .ok (allNeighbours (fun a b => le a b) x && allPositive x)
  | .massSandwich mmin mmax, [m1, m2] => .ok (sandwichMask mmin mmax m1 m2)
  | .massRatioSandwich mmin mmax, [m1, q] => .ok (sandwichMask mmin mmax m1 (m1 * q))
  | .massSandwich _ _, _ => .error .valueError
  | .massRatioSandwich _ _, _ => .error .valueError
  | .positive, x => .ok (allPositive x)
  | .intervals lo hi, x => allWithin le lo hi x
  | .openIntervals lo hi, x => allWithin lt lo hi x

/-- `jnp.clip(x, 0, 1)`. -/
def clip01 (x : XR) : XR := XR.min (XR.max x 0) 1

/-- `feasible_like(prototype)` for a prototype event of length `n`: constraints.py:65–66 (sandwich), 113–123 (ratio sandwich, asserting the
length), 144–145, 162–163 (ones), 182–185 (`1, 2, …, n`), 204–207 (`n, …, 1`), 226–227, 246–247 (ones); numpyro: `positive` gives ones,
the intervals their mid points. -/
def Leaf.feasible : Leaf → Nat → Except Err (List XR)
  | .increasing, n => .ok (List.replicate n 1)
  | .decreasing, n => .ok (List.replicate n 1)
  | .strictlyIncreasing, n => .ok ((List.range n).map fun i : Nat => fin ((i : ℝ) + 1))
  | .strictlyDecreasing, n => .ok ((List.range n).map fun i : Nat => fin ((n : ℝ) - i))
  | .positiveIncreasing, n => .ok (List.replicate n 1)
  | .positiveDecreasing, n => .ok (List.replicate n 1)
  | .massSandwich mmin mmax, n => .ok (List.replicate n (fin ((mmin + mmax) * (1 / 2))))
  | .massRatioSandwich mmin mmax, n =>
    if n = 2 then
      let m1 : XR := fin ((mmin + mmax) * (1 / 2))
      .ok [m1, clip01 (fin mmin / m1)]
    else .error .assertion
  | .positive, n => .ok (List.replicate n 1)
  | .intervals lo hi, n =>
    if n = lo.length ∧ n = hi.length then .ok ((lo.zip hi).map fun p => fin ((p.1 + p.2) / 2)) else .error .type
  | .openIntervals lo hi, n =>
    if n = lo.length ∧ n = hi.length then .ok ((lo.zip hi).map fun p => fin ((p.1 + p.2) / 2)) else .error .type

/-- `eq`: same class and, for the parametrised ones, the same parameters (constraints.py:71–76, 128–133, 150–151, …). -/
def Leaf.eq (c d : Leaf) : Bool := decide (c = d)

/-! ## Composite constraints -/

/-- One entry of `event_slices`: an integer or a pair `(start, end)`.  Source: gwkokab/models/constraints.py lines 261–271. -/
inductive Slice where
  | idx (i : Int)
  | range (a b : Int)
  deriving DecidableEq

/-- `lax.dynamic_slice_in_dim(x, start, size)`: a size larger than the axis (or negative) is rejected, a negative start counts from the end
and the start is then clamped so that the slice fits.  Source: gwkokab/models/constraints.py lines 281 and 301. -/
def dynSlice (x : List XR) (start size : Int) : Except Err (List XR) :=
  if size < 0 ∨ (x.length : Int) < size then .error .type
  else
    let s := if start < 0 then start + x.length else start
    let s := max 0 (min s (x.length - size))
    .ok ((x.drop s.toNat).take size.toNat)

/-- constraints.py:276–286 (and 296–306, transformations.py:155–167): the block selected by an entry of `event_slices`.  A scalar block is a
one-element list here. -/
def Slice.get (x : List XR) : Slice → Except Err (List XR)
  | .idx i => dynSlice x i 1
  | .range a b => dynSlice x a (b - a)

/-- The length of the selected block (`1`, or `end - start`).  Source: gwkokab/models/constraints.py lines 277–281. -/
def Slice.size : Slice → Nat
  | .idx _ => 1
  | .range a b => (b - a).toNat

/-- The operations a composite constraint uses of its parts.  Source: gwkokab/models/constraints.py lines 273–318. -/
structure Ops (C : Type) where
  check : C → List XR → Except Err Bool
  feasible : C → Nat → Except Err (List XR)
  eq : C → C → Bool

/-- The operations of the leaf constraints.  Source: gwkokab/models/constraints.py lines 37–252. -/
def leafOps : Ops Leaf := ⟨Leaf.check, Leaf.feasible, Leaf.eq⟩

/-- `_AllConstraint(constraints, event_slices)` (constraints.py:256–271): the lengths are asserted equal at construction. -/
structure AllC (C : Type) where
  constraints : List C
  slices : List Slice

/-- `_AllConstraint.__init__`, gwkokab/models/constraints.py lines 261–271. -/
def mkAll {C : Type} (cs : List C) (ss : List Slice) : Except Err (AllC C) :=
  if cs.length = ss.length then .ok ⟨cs, ss⟩ else .error .assertion

/-- The loop of `_AllConstraint.__call__` (constraints.py:273–291), with `mask = None` before the first block. -/
def allLoop {C : Type} (o : Ops C) (x : List XR) : List (C × Slice) → Option Bool → Except Err (Option Bool)
  | [], mask => .ok mask
  | (c, s) :: rest, mask => do
    let xs ← s.get x
    let m ← o.check c xs
    allLoop o x rest (some (match mask with | none => m | some m0 => m0 && m))

/-- `_AllConstraint.__call__`; `none` is Python's `None` (no constraints at all).  Source: gwkokab/models/constraints.py lines 273–291. -/
def AllC.check {C : Type} (o : Ops C) (a : AllC C) (x : List XR) : Except Err (Option Bool) := allLoop o x (a.constraints.zip a.slices) none

/-- `_AllConstraint.feasible_like` (constraints.py:293–318): the feasible points of the blocks, concatenated in the order of the list. -/
def AllC.feasible {C : Type} (o : Ops C) (a : AllC C) (prototype : List XR) : Except Err (List XR) := do
  let parts ← (a.constraints.zip a.slices).mapM fun (c, s) => do
    let p ← s.get prototype
    o.feasible c p.length
  return parts.flatten

/-- `_AllConstraint.eq` (constraints.py:326–332): compares the parts pairwise with `zip`. -/
def AllC.eq {C : Type} (o : Ops C) (a b : AllC C) : Bool := (a.constraints.zip b.constraints).all fun p => o.eq p.1 p.2

/-- `_AnyConstraint.__call__` (constraints.py:341–345). -/
def anyCheck {C : Type} (o : Ops C) (cs : List C) (x : List XR) : Except Err Bool :=
  match cs with
  | [] => .error .index
  | c :: rest => do
    let m ← o.check c x
    rest.foldlM (fun m c => do let m' ← o.check c x; return m || m') m

/-- `_AnyConstraint.feasible_like` (constraints.py:347–348). -/
def anyFeasible {C : Type} (o : Ops C) (cs : List C) (n : Nat) : Except Err (List XR) :=
  match cs with
  | [] => .error .index
  | c :: _ => o.feasible c n

/-- `_AnyConstraint.eq` (constraints.py:353–359). -/
def anyEq {C : Type} (o : Ops C) (a b : List C) : Bool := (a.zip b).all fun p => o.eq p.1 p.2

/-- What `_TransformedConstraint` uses of a numpyro transform.  Source: gwkokab/models/constraints.py lines 362–403. -/
structure TOps (T : Type) where
  fwd : T → List XR → List XR
  inv : T → List XR → List XR
  codomain : T → List XR → Except Err Bool
  eq : T → T → Bool

/-- The loop of `_TransformedConstraint.__call__` over `reversed(transforms)` (constraints.py:377–379). -/
def pullLoop {T : Type} (t : TOps T) : List T → Bool × List XR → Except Err (Bool × List XR)
  | [], s => .ok s
  | f :: rest, (mask, y) => do
    let m ← t.codomain f y
    pullLoop t rest (mask && m, t.inv f y)

/-- `_TransformedConstraint.__call__` (constraints.py:374–381). -/
def transformedCheck {C T : Type} (o : Ops C) (t : TOps T) (base : C) (ts : List T) (x : List XR) : Except Err Bool := do
  let (mask, y) ← pullLoop t ts.reverse (true, x)
  let m ← o.check base y
  return mask && m

/-- `_TransformedConstraint.feasible_like` (constraints.py:383–387). -/
def transformedFeasible {C T : Type} (o : Ops C) (t : TOps T) (base : C) (ts : List T) (n : Nat) : Except Err (List XR) := do
  let fl ← o.feasible base n
  return ts.foldl (fun y f => t.fwd f y) fl

/-- `_TransformedConstraint.eq` (constraints.py:395–403): lengths are compared here. -/
def transformedEq {C T : Type} (o : Ops C) (t : TOps T) (b1 b2 : C) (t1 t2 : List T) : Bool :=
  if t1.length != t2.length then false else o.eq b1 b2 && (t1.zip t2).all fun p => t.eq p.1 p.2

end

end GW.Constraints
