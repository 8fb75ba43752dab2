import Verif.Model.FlowInfo
import Verif.Spec.SamplerConfig

/-!
# Specification for the configuration report (C108)
-/

namespace GW.FlowInfo.Spec
open GW.PyDict GW.Settings GW.Settings.Spec

/-- The integer that a setting has in a run of the sampler: that of the file or the default. -/
def Setting (cfg : Cfg) (name : String) (k : ℤ) : Prop := ∃ a, Given cfg name (.atom a) ∧ IsInt a k

/-- The training loops from the first on. -/
def loops (n : ℕ) : List ℤ := (List.range n).map fun (i : ℕ) => (i : ℤ) + 1

/-- The numbers of a run that determine its training sets. -/
structure Training where
  chains : ℤ
  localSteps : ℤ
  localThinning : ℤ
  globalSteps : ℤ
  globalThinning : ℤ
  window : ℤ
  examples : ℤ
  trainingLoops : ℤ

/-- The run that the file asks the sampler for. -/
structure Asks (cfg : Cfg) (t : Training) : Prop where
  chains : Setting cfg "n_chains" t.chains
  localSteps : Setting cfg "n_local_steps" t.localSteps
  localThinning : Setting cfg "local_thinning" t.localThinning
  globalSteps : Setting cfg "n_global_steps" t.globalSteps
  globalThinning : Setting cfg "global_thinning" t.globalThinning
  window : Setting cfg "history_window" t.window
  examples : Setting cfg "n_max_examples" t.examples
  trainingLoops : Setting cfg "n_training_loops" t.trainingLoops

/-- The samples that a chain has after `L` loops, each of which keeps every so many of its steps. -/
def Training.kept (t : Training) (L : ℤ) : ℤ := L * (t.localSteps / t.localThinning + t.globalSteps / t.globalThinning)

/-- The row of the table is right for its loop: all samples, those in the windows of all chains, and those the flow trains on; "Saturated" if the windows are
full for the first time; "Forgetting" if they were full before the loop, so that all its samples replace others. -/
structure Right (t : Training) (l : Line) : Prop where
  total : l.total = t.chains * t.kept l.loop
  candidates : l.candidates = t.chains * min (t.kept l.loop) t.window
  nTrain : l.nTrain = min l.candidates t.examples
  saturated : l.saturated = true ↔ t.window ≤ t.kept l.loop ∧ t.kept (l.loop - 1) < t.window
  forgetting : l.forgetting = true ↔ t.window ≤ t.kept (l.loop - 1)

/-- The first of the names that is not in the file; those before it are there with integers. -/
def FirstMissing (cfg : Cfg) (names : List String) (name : String) : Prop :=
  ∃ before after, names = before ++ name :: after ∧ get? cfg name = none ∧ ∀ m ∈ before, ∃ a k, get? cfg m = some (.atom a) ∧ IsInt a k

end GW.FlowInfo.Spec
