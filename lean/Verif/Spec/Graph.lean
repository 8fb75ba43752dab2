import Verif.Model.PyDict
import Mathlib.Logic.Relation

/-!
# Vocabulary for dependency graphs
-/

namespace GW.Graph
open PyDict (Dict)

variable {α : Type}

/-- `v` is listed among the successors of `u`. -/
def Edge (g : Dict α (List α)) (u v : α) : Prop := ∃ l, (u, l) ∈ g ∧ v ∈ l

/-- `x` is a name of the graph: a key or a successor of a key. -/
def IsNode (g : Dict α (List α)) (x : α) : Prop := (∃ l, (x, l) ∈ g) ∨ ∃ u, Edge g u x

/-- Some node can be reached from itself along one or more edges. -/
def Cyclic (g : Dict α (List α)) : Prop := ∃ x, Relation.TransGen (Edge g) x x

/-- `u` is listed before `v`. -/
def Before (l : List α) (u v : α) : Prop := ∃ a b c, l = a ++ u :: b ++ v :: c

end GW.Graph
