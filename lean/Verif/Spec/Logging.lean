import Verif.Model.Logging

/-!
# What is asked of the log
-/

namespace GW.Logging.Spec

/-- The documented levels, least severe first. -/
def levels : List Level := [.trace, .debug, .info, .success, .warning, .error, .critical]

/-- The documented names of the levels. -/
def names : List String := ["TRACE", "DEBUG", "INFO", "SUCCESS", "WARNING", "ERROR", "CRITICAL"]

/-- The variable asks for a level. -/
def Asks (env : Env) (l : Level) : Prop :=
  ∃ i : Nat, levels[i]? = some l ∧ ∃ n, names[i]? = some n ∧ env.var "GWKOKAB_LOG_LEVEL" = some n

/-- A message of the second level is at least as severe as the first level: it comes no earlier in the list. -/
def Reaches (l : Level) (m : Level) : Prop := ∃ i j : Nat, levels[i]? = some l ∧ levels[j]? = some m ∧ i ≤ j

end GW.Logging.Spec
