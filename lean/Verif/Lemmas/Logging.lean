import Verif.Spec.Logging
import Mathlib.Tactic.Common

/-!
# Lemmas about the log
-/

namespace GW.Logging

open Spec

theorem reaches_iff (l m : Level) : Reaches l m ↔ l.no ≤ m.no := by
  have key : ∀ i : Fin 7, ∀ j : Fin 7, i ≤ j ↔ (levels[i]'(by exact i.2)).no ≤ (levels[j]'(by exact j.2)).no := by decide
  have inj : ∀ l, ∃ i : Fin 7, levels[i]'(by exact i.2) = l := by intro l; cases l <;> decide
  have len : levels.length = 7 := rfl
  constructor
  · rintro ⟨i, j, hi, hj, hij⟩
    obtain ⟨hi', rfl⟩ := List.getElem?_eq_some_iff.1 hi
    obtain ⟨hj', rfl⟩ := List.getElem?_eq_some_iff.1 hj
    exact (key ⟨i, by omega⟩ ⟨j, by omega⟩).1 hij
  · intro h
    obtain ⟨i, rfl⟩ := inj l
    obtain ⟨j, rfl⟩ := inj m
    exact ⟨i, j, List.getElem?_eq_getElem i.2, List.getElem?_eq_getElem j.2, (key i j).2 h⟩

theorem asks_valid {env : Env} {l : Level} (h : Asks env l) :
    validLevels.find? (fun e => e.1 = (env.var "GWKOKAB_LOG_LEVEL").getD "TRACE") =
      some ((env.var "GWKOKAB_LOG_LEVEL").getD "TRACE", l) := by
  obtain ⟨i, hi, n, hn, he⟩ := h
  rw [he, Option.getD_some]
  match i with
  | 0 | 1 | 2 | 3 | 4 | 5 | 6 =>
    simp only [levels, names, List.getElem?_cons_zero, List.getElem?_cons_succ, Option.some.injEq] at hi hn
    subst hi; subst hn; decide
  | i + 7 => simp [levels] at hi

/-- What a list of messages adds to the only handler there is. -/
theorem log_all (k : Sink) (lv : Level) (s : State) (hs : s.handlers = [(k, lv)]) (msgs : List (Level × String)) :
    (msgs.foldl (fun s m => s.log m.1 m.2) s).lines k = s.lines k ++ (msgs.filter fun m => lv.no ≤ m.1.no).map (·.2) ∧
      (∀ k', k' ≠ k → (msgs.foldl (fun s m => s.log m.1 m.2) s).lines k' = s.lines k') ∧
      (msgs.foldl (fun s m => s.log m.1 m.2) s).dirs = s.dirs := by
  induction msgs generalizing s with
  | nil => simp
  | cons m rest ih =>
    obtain ⟨h1, h2, h3⟩ := ih (s.log m.1 m.2) hs
    refine ⟨?_, fun k' hk' => ?_, h3⟩
    · rw [List.foldl_cons, h1]
      simp only [State.log, hs, List.filter_cons, List.filter_nil]
      by_cases hm : lv.no ≤ m.1.no <;> simp [hm]
    · rw [List.foldl_cons, h2 k' hk']
      have : ¬ k = k' := fun h => hk' h.symm
      simp [State.log, hs, this]

end GW.Logging
