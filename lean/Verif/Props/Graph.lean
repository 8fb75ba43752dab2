import Verif.Lemmas.Graph

/-!
# C34: ordering lazily defined priors and detecting cycles

Successor sets are lists in their iteration order, so each theorem holds for every set-iteration order.  The hypothesis says
that the keys of a dictionary are distinct.
-/

namespace GW.Graph
open PyDict (Dict)

variable {α : Type} [DecidableEq α]

/-- C34: for every graph the sort ends, and its result lists each name of the graph exactly once and nothing else. -/
theorem C34_sort_lists_every_node_once (g : Dict α (List α)) (hg : (PyDict.keys g).Nodup) :
    ∃ r, topologicalSort g = some r ∧ r.Nodup ∧ ∀ x, x ∈ r ↔ IsNode g x := by
  obtain ⟨r, h1, h2, h3, -⟩ := topologicalSort_spec hg
  exact ⟨r, h1, h2, fun x => (h3 x).trans (mem_names_iff g x)⟩

/-- C34: on a graph without cycles, every node comes after each node it depends on (`u → v`: `v` depends on `u`). -/
theorem C34_sort_respects_dependencies (g : Dict α (List α)) (hg : (PyDict.keys g).Nodup) (hc : ¬ Cyclic g) :
    ∃ r, topologicalSort g = some r ∧ ∀ u v, Edge g u v → Before r u v := by
  obtain ⟨r, h1, h2, h3, h4⟩ := topologicalSort_spec hg
  refine ⟨r, h1, ?_⟩
  intro u v huv
  have hu : u ∈ r.reverse := by
    rw [List.mem_reverse, h3, mem_names_iff]
    obtain ⟨l, hl, -⟩ := huv
    exact Or.inl ⟨l, hl⟩
  obtain ⟨a, b, hab⟩ := List.append_of_mem hu
  have hv := h4 hc a u b hab v huv
  obtain ⟨c, d, rfl⟩ := List.append_of_mem hv
  refine ⟨b.reverse, d.reverse, c.reverse, ?_⟩
  rw [← List.reverse_reverse r, hab]
  simp

/-- C34: the check ends on every graph and reports a cycle exactly when there is one. -/
theorem C34_cycle_reported_iff_cyclic (g : Dict α (List α)) (hg : (PyDict.keys g).Nodup) :
    ∃ b, checkCycles g = some b ∧ (b = true ↔ Cyclic g) := checkCycles_spec hg

/-! A diamond with a chain, and a three-node cycle reached from outside. -/

def demo : Dict String (List String) :=
  [("a", ["b", "c"]), ("c", ["d"]), ("b", ["d", "e"]), ("d", ["f"])]

def demoCycle : Dict String (List String) := [("r", ["a"]), ("a", ["b", "s"]), ("b", ["c"]), ("c", ["a"])]

example : (PyDict.keys demo).Nodup ∧ topologicalSort demo = some ["a", "c", "b", "e", "d", "f"] ∧
    checkCycles demo = some false := by decide +kernel

example : ¬ Cyclic demo := by
  obtain ⟨b, h1, h2⟩ := C34_cycle_reported_iff_cyclic demo (by decide +kernel)
  have : checkCycles demo = some false := by decide +kernel
  rw [this] at h1
  rw [← h2]; simp at h1; simp [← h1]

example : checkCycles demoCycle = some true ∧ (PyDict.keys demoCycle).Nodup := by decide +kernel

end GW.Graph
