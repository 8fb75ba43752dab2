import Verif.Model.FlowMCFiles

/-!
# Specification: the files of a flowMC run that may be stopped at any moment
-/

namespace GW.FlowMC

/-- The entries of one chain for the loops `first, …, first + N - 1`, each `L` local steps followed by `G` global steps, when the local steps of the first
`locals` loops and the global steps of the first `globals` loops have been made; the other entries are empty. -/
def filled (L G first N locals globals : Nat) : List (Option Row) :=
  ((List.range N).map fun i =>
    ((List.range L).map fun j => if i < locals then some (⟨true, first + i, j⟩ : Row) else none) ++
    ((List.range G).map fun j => if i < globals then some (⟨false, first + i, j⟩ : Row) else none)).flatten

/-- How often a strategy has been called among the first `n` calls of the schedule. -/
def calls (nTraining nProduction n : Nat) (s : Strat) : Nat := ((strategyOrder nTraining nProduction).take n).count s

/-- The rows of the sample file: for every chain, the local steps of the first `loops` production loops, in order. -/
def sampleRows (L nTraining nChains loops : Nat) : List (Nat × Option Row) :=
  ((List.range nChains).map fun c => ((List.range loops).map fun i =>
    (List.range L).map fun j => (c, some (⟨true, nTraining + i, j⟩ : Row))).flatten).flatten

end GW.FlowMC
