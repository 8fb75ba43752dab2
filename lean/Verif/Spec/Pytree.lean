import Verif.Model.Pytree

/-!
# Specification: a model survives compilation

`Same v w`: `w` behaves like `v`, because every attribute that `v` has can be read off `w` with the same (behaviour of the) value.
`mapArrays f v`: `v` with every array in it, at any depth, replaced by its image — the model one would have built from the new arrays.
-/

namespace GW.Pytree
open GW.PyDict

variable {α : Type}

mutual
/-- `w` behaves like `v`. -/
def Same : Val α → Val α → Prop
  | .arr a, w => w = .arr a
  | .int n, w => w = .int n
  | .null, w => w = .null
  | .seq vs, w => ∃ ws, w = .seq ws ∧ SameSeq vs ws
  | .dict kvs, w => ∃ kws, w = .dict kws ∧ SameDict kvs kws
  | .obj c attrs, w => ∃ attrs', w = .obj c attrs' ∧ SameAttrs attrs w
/-- Entry by entry. -/
def SameSeq : List (Val α) → List (Val α) → Prop
  | [], ws => ws = []
  | v :: vs, ws => ∃ w r, ws = w :: r ∧ Same v w ∧ SameSeq vs r
/-- Entry by entry, under the same keys. -/
def SameDict : List (String × Val α) → List (String × Val α) → Prop
  | [], ws => ws = []
  | (k, v) :: vs, ws => ∃ w r, ws = (k, w) :: r ∧ Same v w ∧ SameDict vs r
/-- Every attribute can be read off the object `o`. -/
def SameAttrs : List (String × Val α) → Val α → Prop
  | [], _ => True
  | (k, v) :: r, o => (∃ w, getattr o k = some w ∧ Same v w) ∧ SameAttrs r o
end

mutual
/-- Every array replaced by its image. -/
def mapArrays (f : α → α) : Val α → Val α
  | .arr a => .arr (f a)
  | .int n => .int n
  | .null => .null
  | .seq vs => .seq (mapArraysSeq f vs)
  | .dict kvs => .dict (mapArraysDict f kvs)
  | .obj c attrs => .obj c (mapArraysDict f attrs)
/-- The same for the entries of a list. -/
def mapArraysSeq (f : α → α) : List (Val α) → List (Val α)
  | [] => []
  | v :: vs => mapArrays f v :: mapArraysSeq f vs
/-- The same for named values. -/
def mapArraysDict (f : α → α) : List (String × Val α) → List (String × Val α)
  | [] => []
  | (k, v) :: r => (k, mapArrays f v) :: mapArraysDict f r
end

mutual
/-- `P` holds of every object in a value, at any depth. -/
def Every (P : String → List (String × Val α) → Prop) : Val α → Prop
  | .arr _ => True
  | .int _ => True
  | .null => True
  | .seq vs => EverySeq P vs
  | .dict kvs => EveryDict P kvs
  | .obj c attrs => P c attrs ∧ EveryDict P attrs
/-- The same for the entries of a list. -/
def EverySeq (P : String → List (String × Val α) → Prop) : List (Val α) → Prop
  | [] => True
  | v :: vs => Every P v ∧ EverySeq P vs
/-- The same for named values. -/
def EveryDict (P : String → List (String × Val α) → Prop) : List (String × Val α) → Prop
  | [] => True
  | (_, v) :: r => Every P v ∧ EveryDict P r
end

/-- The attributes that steer a computation: how many coordinates and components there are, and where they are.  They are Python integers, tuples and
dictionaries of such, and a compiled function needs them as such. -/
def steering : List String :=
  ["_batch_shape", "_event_shape", "shaped_values", "event_slices", "_mixture_size", "partial_order", "dependencies"]

mutual
/-- Made of integers only. -/
def Integers : Val α → Prop
  | .arr _ => False
  | .int _ => True
  | .null => True
  | .seq vs => IntegersSeq vs
  | .dict kvs => IntegersDict kvs
  | .obj _ _ => False
/-- The same for the entries of a list. -/
def IntegersSeq : List (Val α) → Prop
  | [] => True
  | v :: vs => Integers v ∧ IntegersSeq vs
/-- The same for named values. -/
def IntegersDict : List (String × Val α) → Prop
  | [] => True
  | (_, v) :: r => Integers v ∧ IntegersDict r
end

/-- The object is as its constructor leaves it: it has the attributes the constructor sets, each once, and those that steer consist of integers. -/
def AsConstructed (c : String) (attrs : List (String × Val α)) : Prop :=
  (keys attrs).Nodup ∧ (∀ ks, constructed c = some ks → (keys attrs).Perm ks) ∧
    ∀ k v, (k, v) ∈ attrs → k ∈ steering → Integers v

/-- Every object in `v` is as its constructor leaves it. -/
def Built (v : Val α) : Prop := Every AsConstructed v

/-- No object in `v` is of one of these classes. -/
def Avoids (bad : List String) (v : Val α) : Prop := Every (fun c _ => c ∉ bad) v

/-- Leaves on which only the arrays are changed. -/
def onArrays (f : α → α) : Leaf α → Leaf α
  | .arr a => .arr (f a)
  | .int n => .int n

/-- Tracing by `jax.jit`: numbers become arrays, too. -/
def traced (f : α → α) (g : Int → α) : Leaf α → Leaf α
  | .arr a => .arr (f a)
  | .int n => .arr (g n)

end GW.Pytree
