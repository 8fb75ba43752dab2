import Verif.Model.Lazy
import Verif.Spec.Joint

/-! Vocabulary for the statements about lazy joint distributions. -/

namespace GW.Lazy
open GW GW.Joint

variable {α : Type}

/-- `Declared shapes i sh`: the caller has declared the event shape `sh` for the lazy marginal `i`.  Without a list of shapes (`None`, or an empty list)
every lazy marginal is scalar; otherwise the list holds one shape for each marginal. -/
def Declared (shapes : Option (List (Option Nat))) (i : Nat) (sh : Option Nat) : Prop :=
  (shapes = none ∨ shapes = some []) ∧ sh = none ∨ ∃ a l, shapes = some (a :: l) ∧ (a :: l)[i]? = some sh

/-- A consistent description of a lazy joint, in the sense of the constructor's documentation:
* `order` lists, without repetition, exactly the keys of the dependency dict, which are exactly the lazy marginals;
* every dependency of a lazy marginal is a non-lazy marginal or a lazy one listed earlier;
* the declared event shapes are those of the distributions the partials build, and all draws have that shape. -/
structure Consistent (ms : List (Marg α)) (deps : List (Nat × List (String × Nat))) (order : List Nat)
    (shapes : Option (List (Option Nat))) : Prop where
  nonempty : order ≠ []
  keysNodup : (deps.map Prod.fst).Nodup
  orderPerm : order.Perm (deps.map Prod.fst)
  isLazy : ∀ i, i ∈ order ↔ ∃ f, ms[i]? = some (.part f)
  respects : ∀ pre i post, order = pre ++ i :: post → ∀ dep, (i, dep) ∈ deps →
    ∀ q ∈ dep, q.2 < ms.length ∧ (q.2 ∈ order → q.2 ∈ pre)
  shapeOk : ∀ (i : Nat) f kw, ms[i]? = some (.part f) → Declared shapes i (f kw).shape
  drawDist : ∀ (i : Nat) b k, ms[i]? = some (.dist b) → Fits (.base b) (b.sample k)
  drawPart : ∀ (i : Nat) f kw k, ms[i]? = some (.part f) → Fits (.base (f kw)) ((f kw).sample k)

/-- Every marginal up to and including each dependency is scalar, so that "marginal `v`" and
"coordinate `v` of the event" are the same thing. -/
def ScalarDeps (ms : List (Marg α)) (deps : List (Nat × List (String × Nat)))
    (shapes : Option (List (Option Nat))) : Prop :=
  ∀ p ∈ deps, ∀ q ∈ p.2, ∀ j ≤ q.2, (∀ b, ms[j]? = some (.dist b) → b.shape = none) ∧ ∀ f, ms[j]? = some (.part f) → Declared shapes j none

end GW.Lazy
