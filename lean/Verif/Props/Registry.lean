import Verif.Model.Registry
import Verif.Lemmas.PyDict

/-!
# C29: model registry
-/

namespace GW.Registry
open GW.Tools (Err)

/-- The strings of a tuple, `none` if an element is not a string. -/
def strs : List (Option String) → Option (List String)
  | [] => some []
  | none :: _ => none
  | some a :: l => (strs l).map (a :: ·)

/-- Specification: the names a registration argument stands for (`none` if it is malformed). -/
def names : Param → Option (List String)
  | .str s => some [s]
  | .tup l => strs l
  | .other => none

/-- Specification: the value most recently registered for the tuple of names `k`, reading the history backwards. -/
def lastFor {M : Type} (k : List String) (ops : List (Param × M)) : Option M :=
  (ops.reverse.find? fun o => names o.1 = some k).map (·.2)

theorem strs_eq_some (l : List (Option String)) (k : List String) : strs l = some k ↔ l = k.map some := by
  induction l generalizing k with
  | nil => cases k <;> simp [strs]
  | cons a l ih =>
    cases a with
    | none => cases k <;> simp [strs]
    | some a =>
      cases k with
      | nil => simp [strs]
      | cons b k =>
        simp only [strs, Option.map_eq_some_iff, List.cons.injEq, List.map_cons, Option.some.injEq]
        constructor
        · rintro ⟨k', h, rfl, rfl⟩
          exact ⟨rfl, (ih _).1 h⟩
        · rintro ⟨rfl, h⟩
          exact ⟨k, (ih _).2 h, rfl, rfl⟩

/-- One registration changes the look-up of exactly the names it stands for. -/
theorem get?_register {M : Type} (r : Reg M) (o : Param × M) (k : List String) :
    PyDict.get? (match register r o.1 o.2 with | .ok r' => r' | .error _ => r) (.tup (k.map some)) =
      if names o.1 = some k then some o.2 else PyDict.get? r (.tup (k.map some)) := by
  obtain ⟨p, m⟩ := o
  cases p with
  | str s =>
    simp only [register, names, PyDict.get?_set]
    by_cases h : [s] = k
    · subst h; simp
    · have : ¬ k.map some = [some s] := by
        intro e
        apply h
        have := congrArg (List.map (Option.getD · "")) e
        simpa [List.map_map, Function.comp_def] using this.symm
      simp [h, this]
  | tup l =>
    simp only [register, names, strs_eq_some]
    by_cases h1 : l.all Option.isSome = true
    · simp only [h1, if_true, PyDict.get?_set, Param.tup.injEq]
      by_cases h2 : l = k.map some
      · simp [h2]
      · simp [h2, Ne.symm h2]
    · have h2 : ¬ l = k.map some := by
        intro e; subst e; simp at h1
      simp [h1, h2]
  | other => simp [register, names]

/-- **C29.** After any sequence of registrations (malformed ones raise and change nothing), calling the registry with
a tuple of names applies the constructor most recently registered for those names — whether it was registered under the
tuple or, for one name, under the plain string — and raises `NotImplementedError` if there is none. -/
theorem C29_last_registration_wins_partial {M R : Type} (apply : M → Param → R) (ops : List (Param × M)) (k : List String) :
    call apply (registerAll [] ops) (.tup (k.map some)) =
      match lastFor k ops with
      | some m => .ok (apply m (.tup (k.map some)))
      | none => .error .notImplemented := by
  have key : ∀ (ops : List (Param × M)) (r : Reg M),
      PyDict.get? (registerAll r ops) (.tup (k.map some)) =
        (lastFor k ops).or (PyDict.get? r (.tup (k.map some))) := by
    intro ops
    induction ops with
    | nil => intro r; simp [registerAll, lastFor]
    | cons o ops ih =>
      intro r
      have : registerAll r (o :: ops) = registerAll (match register r o.1 o.2 with | .ok r' => r' | .error _ => r) ops :=
        rfl
      rw [this, ih, get?_register]
      simp only [lastFor, List.reverse_cons, List.find?_append]
      cases hf : List.find? (fun o => decide (names o.1 = some k)) ops.reverse with
      | some q => simp
      | none =>
        by_cases hn : names o.1 = some k <;> simp [hn]
  simp only [call]
  rw [key ops []]
  cases lastFor k ops <;> simp [PyDict.get?]

/-- **C29.** Malformed keys raise and leave the registry unchanged. -/
theorem C29_malformed_rejected {M : Type} (r : Reg M) (m : M) (l : List (Option String)) (h : none ∈ l) :
    register r .other m = .error .valueError ∧ register r (.tup l) m = .error .assertion := by
  refine ⟨rfl, ?_⟩
  simp only [register]
  rw [if_neg]
  intro hall
  have := List.all_eq_true.1 hall none h
  cases this

/-- **C29 (violated for plain names).** Although a model can be *registered* under a plain name, *calling* the registry with
that plain name never finds anything: after every sequence of registrations it raises `NotImplementedError`. -/
theorem C29_plain_name_lookup_violated {M R : Type} (apply : M → Param → R) (ops : List (Param × M)) (s : String) :
    call apply (registerAll [] ops) (.str s) = .error .notImplemented := by
  have key : ∀ (ops : List (Param × M)) (r : Reg M), PyDict.get? r (.str s) = none →
      PyDict.get? (registerAll r ops) (.str s) = none := by
    intro ops
    induction ops with
    | nil => exact fun r h => h
    | cons o ops ih =>
      intro r h
      refine ih _ ?_
      obtain ⟨p, m⟩ := o
      cases p with
      | str t => simp [register, PyDict.get?_set, h]
      | tup l =>
        simp only [register]
        split_ifs
        · simp [PyDict.get?_set, h]
        · exact h
      | other => exact h
  simp only [call]
  rw [key ops [] rfl]

/-- Non-vacuity of C29: re-registering under a name replaces the model found through the tuple. -/
example : call (fun (m : Nat) _ => m) (registerAll [] [(.str "mass", 1), (.tup [some "a", some "b"], 2), (.str "mass", 3)])
    (.tup [some "mass"]) = .ok 3 := by
  have := C29_last_registration_wins_partial (fun (m : Nat) _ => m)
    [(.str "mass", 1), (.tup [some "a", some "b"], 2), (.str "mass", 3)] ["mass"]
  simpa [lastFor, names, strs] using this

end GW.Registry
