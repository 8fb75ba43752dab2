import Verif.Model.PyDict

/-!
# Dependency graphs of lazily defined priors

Model of `_topological_sort` and `_check_cycles` of `/repo/src/gwkanal/core/guru.py` (lines 24-76).

A graph is a Python dict from a node to the set of its successors; the set is the list of its elements in the order in
which Python iterates over it, so quantifying over graphs also quantifies over set-iteration orders.  The recursive closures
`dfs` get a recursion budget (`none` when exhausted); the budget used at top level is one more than the number of names in the
graph, and `Lemmas/Graph` shows that it is never exhausted.  Python's own recursion limit is not modelled.
-/

namespace GW.Graph
open PyDict (Dict)

variable {α : Type} [DecidableEq α]

/-- `graph.get(node, set())` in iteration order (lines 30, 62). -/
def succs (g : Dict α (List α)) (n : α) : List α := (PyDict.get? g n).getD []

/-- All names in the graph, with repetitions: keys and successors.  Source: gwkanal/core/guru.py lines 30–36 and 62–75. -/
def names (g : Dict α (List α)) : List α := PyDict.keys g ++ (g.map (·.2)).flatten

/-- `visited` and `result` of `_topological_sort` (lines 25-26). -/
structure Topo (α : Type) where
  visited : List α
  result : List α

/-- `for x in l: if x not in visited: dfs(x)` (lines 30-32 and 35-37). -/
def Topo.visitAll (dfs : α → Topo α → Option (Topo α)) : List α → Topo α → Option (Topo α)
  | [], st => some st
  | m :: ms, st =>
    if m ∈ st.visited then visitAll dfs ms st
    else
      match dfs m st with
      | none => none
      | some st' => visitAll dfs ms st'

/-- The closure `dfs` of `_topological_sort` (lines 28-33). -/
def Topo.dfs (g : Dict α (List α)) : Nat → α → Topo α → Option (Topo α)
  | 0, _, _ => none
  | fuel + 1, n, st =>
    match Topo.visitAll (Topo.dfs g fuel) (succs g n) ⟨n :: st.visited, st.result⟩ with
    | none => none
    | some st' => some ⟨st'.visited, st'.result ++ [n]⟩

/-- `_topological_sort` (lines 24-39). -/
def topologicalSort (g : Dict α (List α)) : Option (List α) :=
  match Topo.visitAll (Topo.dfs g ((names g).length + 1)) (PyDict.keys g) ⟨[], []⟩ with
  | none => none
  | some st => some st.result.reverse

/-- `visited` and `rec_stack` of `_check_cycles` (lines 55-56). -/
structure Chk (α : Type) where
  visited : List α
  stack : List α

/-- The loop over the neighbours (lines 62-67); the Boolean is the value returned by the enclosing `dfs` so far. -/
def Chk.visitAll (dfs : α → Chk α → Option (Bool × Chk α)) : List α → Chk α → Option (Bool × Chk α)
  | [], st => some (false, st)
  | m :: ms, st =>
    if m ∉ st.visited then
      match dfs m st with
      | none => none
      | some (true, st') => some (true, st')
      | some (false, st') => visitAll dfs ms st'
    else if m ∈ st.stack then some (true, st)
    else visitAll dfs ms st

/-- The closure `dfs` of `_check_cycles` (lines 58-70). -/
def Chk.dfs (g : Dict α (List α)) : Nat → α → Chk α → Option (Bool × Chk α)
  | 0, _, _ => none
  | fuel + 1, n, st =>
    match Chk.visitAll (Chk.dfs g fuel) (succs g n) ⟨n :: st.visited, n :: st.stack⟩ with
    | none => none
    | some (true, st') => some (true, st')
    | some (false, st') => some (false, ⟨st'.visited, st'.stack.erase n⟩)

/-- The outer loop (lines 72-76): the nodes of the graph, without the `rec_stack` test. -/
def Chk.roots (dfs : α → Chk α → Option (Bool × Chk α)) : List α → Chk α → Option Bool
  | [], _ => some false
  | m :: ms, st =>
    if m ∉ st.visited then
      match dfs m st with
      | none => none
      | some (true, _) => some true
      | some (false, st') => roots dfs ms st'
    else roots dfs ms st

/-- `_check_cycles` (lines 42-76). -/
def checkCycles (g : Dict α (List α)) : Option Bool :=
  Chk.roots (Chk.dfs g ((names g).length + 1)) (PyDict.keys g) ⟨[], []⟩

end GW.Graph
