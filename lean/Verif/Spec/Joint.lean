import Verif.Model.Joint

/-! Vocabulary for the statements about joint distributions. -/

namespace GW.Joint
open GW

variable {α : Type}

/-- `s` has the event shape of `d`: a scalar for shape `()`, a vector of length `n` for shape `(n,)`. -/
def Fits (d : Dist α) (s : Slice α) : Prop :=
  match d.shape, s with
  | none, .one _ => True
  | some n, .many l => l.length = n
  | _, _ => False

mutual
/-- No `JointDistribution` inside carries a user-supplied support. -/
def Dist.DefaultSupport : Dist α → Prop
  | .base _ => True
  | .joint ms sp => sp = none ∧ AllDefault ms
/-- `DefaultSupport` of every element. -/
def AllDefault : List (Dist α) → Prop
  | [] => True
  | d :: ds => d.DefaultSupport ∧ AllDefault ds
end

/-- The coordinates an entry of `shaped_values` selects. -/
def EvSlice.coords : EvSlice → List Nat
  | .idx k => [k]
  | .range a b => List.range' a (b - a)

/-- Is this object a `JointDistribution`? -/
def Dist.isJoint : Dist α → Bool
  | .base _ => false
  | .joint _ _ => true

end GW.Joint
