import Verif.Model.Regex
import Verif.Lemmas.PyDict

/-!
# C32: matching names against the prior table
-/

namespace GW.Regex
open PyDict (Dict)

/-- Specification: value of the first pattern of the table that fully matches `s`, `None` if there is none. -/
def FirstMatchIs (fm : FullMatch) (table : Dict String Val) (s : String) (v : Val) : Prop :=
  (∃ pre p post, table = pre ++ (p, v) :: post ∧ fm p s = true ∧ ∀ q ∈ pre, fm q.1 s = false) ∨
  (v = .none ∧ ∀ q ∈ table, fm q.1 s = false)

/-- Specification: the value is a dictionary. -/
def IsDictionary (v : Val) : Prop := ∃ i e, v = .dict i e

/-- Specification: what the table says about the target `t` of an alias: the value of the first entry that is not a dictionary and whose pattern
matches the target; if there is none, the alias itself when the table has a dictionary, and `None` when it has none. -/
def TargetAnswer (fm : FullMatch) (table : Dict String Val) (t : String) (w : Val) : Prop :=
  (∃ pre p post, table = pre ++ (p, w) :: post ∧ ¬ IsDictionary w ∧ fm p t = true ∧ ∀ q ∈ pre, IsDictionary q.2 ∨ fm q.1 t = false) ∨
  ((∀ q ∈ table, IsDictionary q.2 ∨ fm q.1 t = false) ∧
    ((∃ q ∈ table, IsDictionary q.2) ∧ w = .str t ∨ (∀ q ∈ table, ¬ IsDictionary q.2) ∧ w = .none))

theorem isDict_iff (v : Val) : v.isDict = true ↔ IsDictionary v := by
  cases v <;> simp [Val.isDict, IsDictionary]

theorem firstMatch_spec (fm : FullMatch) (table : Dict String Val) (s : String) :
    FirstMatchIs fm table s (firstMatch fm table s) := by
  unfold firstMatch
  cases h : table.find? fun p => fm p.1 s with
  | none =>
    right
    refine ⟨rfl, ?_⟩
    intro q hq
    have := List.find?_eq_none.1 h q hq
    simpa using this
  | some p =>
    left
    rw [List.find?_eq_some_iff_append] at h
    obtain ⟨h1, as, bs, h2, h3⟩ := h
    exact ⟨as, p.1, bs, h2, h1, fun q hq => by simpa using h3 q hq⟩

/-- Invariant of the first loop. -/
structure Inv (fm : FullMatch) (table : Dict String Val) (done : List String) (st : Dict String Val × List String) : Prop where
  keys : ∀ k, k ∈ PyDict.keys st.1 ∨ k ∈ st.2 ↔ k ∈ done
  nodup : (PyDict.keys st.1).Nodup
  dups : ∀ k ∈ st.2, ∃ t, get table k = .str t ∧ t ≠ ""
  exact : ∀ k v, PyDict.get? st.1 k = some v → (get table k).truthy = true →
    v = get table k
  pat : ∀ k v, PyDict.get? st.1 k = some v → (get table k).truthy = false → v = firstMatch fm table k

theorem Inv.step {fm : FullMatch} {table : Dict String Val} {done : List String} {st : Dict String Val × List String}
    (h : Inv fm table done st) (s : String) : Inv fm table (done ++ [s]) (step fm table st s) := by
  have hset : ∀ v : Val, ((get table s).truthy = true → v = get table s) →
      ((get table s).truthy = false → v = firstMatch fm table s) →
      Inv fm table (done ++ [s]) (PyDict.set st.1 s v, st.2) := by
    intro v h1 h2
    refine ⟨?_, PyDict.nodup_keys_set h.nodup _ _, h.dups, ?_, ?_⟩
    · intro k
      simp only [PyDict.mem_keys_set, List.mem_append, List.mem_singleton, ← h.keys]
      tauto
    · intro k w hw ht
      rw [PyDict.get?_set] at hw
      split_ifs at hw with hk
      · subst hk; simp at hw; subst hw; exact h1 ht
      · exact h.exact k w hw ht
    · intro k w hw ht
      rw [PyDict.get?_set] at hw
      split_ifs at hw with hk
      · subst hk; simp at hw; subst hw; exact h2 ht
      · exact h.pat k w hw ht
  unfold Regex.step
  split_ifs with ht
  · cases hg : get table s with
    | str t =>
      simp only
      split_ifs with hm
      · refine ⟨?_, h.nodup, ?_, h.exact, h.pat⟩
        · intro k
          simp only [List.mem_append, List.mem_singleton, ← h.keys]
          tauto
        · intro k hk
          rcases List.mem_append.1 hk with hk | hk
          · exact h.dups k hk
          · simp at hk; subst hk
            refine ⟨t, hg, ?_⟩
            rw [hg] at ht
            simpa [Val.truthy] using ht
      · exact hset _ (fun _ => hg.symm) (fun e => by rw [ht] at e; cases e)
    | num n => exact hset _ (fun _ => hg.symm) (fun e => by rw [ht] at e; cases e)
    | dict i e => exact hset _ (fun _ => hg.symm) (fun e => by rw [ht] at e; cases e)
    | none => exact hset _ (fun _ => hg.symm) (fun e => by rw [ht] at e; cases e)
  · exact hset _ (fun e => absurd e ht) (fun _ => rfl)

theorem Inv.foldl {fm : FullMatch} {table : Dict String Val} (strings : List String) {done : List String}
    {st : Dict String Val × List String} (h : Inv fm table done st) :
    Inv fm table (done ++ strings) (strings.foldl (Regex.step fm table) st) := by
  induction strings generalizing done st with
  | nil => simpa using h
  | cons s strings ih =>
    have := ih (h.step s)
    simpa using this

theorem inv_init (fm : FullMatch) (table : Dict String Val) : Inv fm table [] ([], []) :=
  ⟨by simp [PyDict.keys], by simp [PyDict.keys], by simp, by simp [PyDict.get?], by simp [PyDict.get?]⟩

theorem dupLoop_other (fm : FullMatch) (t dup : String) : ∀ (table m : Dict String Val) (found : Bool) (k : String),
    k ≠ dup → PyDict.get? (dupLoop fm t dup table m found).1 k = PyDict.get? m k
  | [], m, found, k, hk => rfl
  | (p, v) :: rest, m, found, k, hk => by
    unfold dupLoop
    split_ifs
    · exact PyDict.get?_set_ne _ _ hk
    · rw [dupLoop_other fm t dup rest _ _ k hk, PyDict.get?_set_ne _ _ hk]
    · exact dupLoop_other fm t dup rest _ _ k hk

theorem dupLoop_self (fm : FullMatch) (t dup : String) (full : Dict String Val) :
    ∀ (pre table m : Dict String Val) (found : Bool), full = pre ++ table →
    (∀ q ∈ pre, IsDictionary q.2 ∨ fm q.1 t = false) →
    (found = true → PyDict.get? m dup = some (.str t) ∧ ∃ q ∈ pre, IsDictionary q.2) →
    (found = false → ∀ q ∈ pre, ¬ IsDictionary q.2) →
    ((dupLoop fm t dup table m found).2 = true →
      ∃ w, PyDict.get? (dupLoop fm t dup table m found).1 dup = some w ∧ TargetAnswer fm full t w) ∧
    ((dupLoop fm t dup table m found).2 = false →
      (∀ q ∈ full, IsDictionary q.2 ∨ fm q.1 t = false) ∧ ∀ q ∈ full, ¬ IsDictionary q.2)
  | pre, [], m, found, hfull, h0, h1, h2 => by
    simp only [List.append_nil] at hfull
    subst hfull
    simp only [dupLoop]
    exact ⟨fun h => ⟨_, (h1 h).1, Or.inr ⟨h0, Or.inl ⟨(h1 h).2, rfl⟩⟩⟩, fun h => ⟨h0, h2 h⟩⟩
  | pre, (p, v) :: rest, m, found, hfull, h0, h1, h2 => by
    unfold dupLoop
    split_ifs with hc hd
    · simp only [Bool.and_eq_true, Bool.not_eq_true'] at hc
      refine ⟨fun _ => ⟨v, PyDict.get?_set_self _ _ _, Or.inl ⟨pre, p, rest, hfull, ?_, hc.2, h0⟩⟩, fun h => by cases h⟩
      rw [← isDict_iff, hc.1]; simp
    · have hd' := (isDict_iff v).1 hd
      refine dupLoop_self fm t dup full (pre ++ [(p, v)]) rest _ true (by simp [hfull]) ?_ (fun _ => ⟨PyDict.get?_set_self _ _ _, (p, v), by simp, hd'⟩)
        (fun h => by cases h)
      intro q hq
      rcases List.mem_append.1 hq with hq | hq
      · exact h0 q hq
      · simp at hq; subst hq; exact Or.inl hd'
    · simp only [Bool.not_eq_true] at hd
      have hm : fm p t = false := by simpa [hd] using hc
      have hd' : ¬ IsDictionary v := by rw [← isDict_iff, hd]; simp
      refine dupLoop_self fm t dup full (pre ++ [(p, v)]) rest m found (by simp [hfull]) ?_ ?_ ?_
      · intro q hq
        rcases List.mem_append.1 hq with hq | hq
        · exact h0 q hq
        · simp at hq; subst hq; exact Or.inr hm
      · intro hf
        obtain ⟨a, q, hq, hq2⟩ := h1 hf
        exact ⟨a, q, by simp [hq], hq2⟩
      · intro hf q hq
        rcases List.mem_append.1 hq with hq | hq
        · exact h2 hf q hq
        · simp at hq; subst hq; exact hd'

theorem dupStep_other (fm : FullMatch) (table m : Dict String Val) (dup k : String) (hk : k ≠ dup) :
    PyDict.get? (dupStep fm table m dup) k = PyDict.get? m k := by
  unfold dupStep
  split
  · simp only
    split_ifs
    · exact dupLoop_other _ _ _ _ _ _ k hk
    · rw [PyDict.get?_set_ne _ _ hk]; exact dupLoop_other _ _ _ _ _ _ k hk
  · rfl

theorem dupStep_self (fm : FullMatch) (table m : Dict String Val) (dup t : String) (ht : get table dup = .str t) :
    ∃ w, PyDict.get? (dupStep fm table m dup) dup = some w ∧ TargetAnswer fm table t w := by
  unfold dupStep
  rw [ht]
  simp only
  obtain ⟨a, b⟩ := dupLoop_self fm t dup table [] table m false rfl (fun q hq => by cases hq) (fun h => by cases h) (fun _ q hq => by cases hq)
  split_ifs with h
  · exact a h
  · obtain ⟨b1, b2⟩ := b (by simpa using h)
    exact ⟨.none, PyDict.get?_set_self _ _ _, Or.inr ⟨b1, Or.inr ⟨b2, rfl⟩⟩⟩

theorem dups_foldl (fm : FullMatch) (table : Dict String Val) : ∀ (dups : List String) (m : Dict String Val),
    (∀ k ∈ dups, ∃ t, get table k = .str t) →
    (∀ k, k ∉ dups → PyDict.get? (dups.foldl (dupStep fm table) m) k = PyDict.get? m k) ∧
    (∀ k ∈ dups, ∀ t, get table k = .str t →
      ∃ w, PyDict.get? (dups.foldl (dupStep fm table) m) k = some w ∧ TargetAnswer fm table t w)
  | [], m, _ => by simp
  | d :: dups, m, h => by
    obtain ⟨h1, h2⟩ := dups_foldl fm table dups (dupStep fm table m d) (fun k hk => h k (by simp [hk]))
    refine ⟨?_, ?_⟩
    · intro k hk
      simp only [List.mem_cons, not_or] at hk
      rw [List.foldl_cons, h1 k hk.2, dupStep_other _ _ _ _ _ hk.1]
    · intro k hk t ht
      rw [List.foldl_cons]
      by_cases hk2 : k ∈ dups
      · exact h2 k hk2 t ht
      · rcases List.mem_cons.1 hk with rfl | hk
        · rw [h1 k hk2]; exact dupStep_self _ _ _ _ _ ht
        · exact absurd hk hk2

/-- **C32.** Every requested name is answered, and nothing else is. -/
theorem C32_every_name_answered (fm : FullMatch) (strings : List String) (table : Dict String Val) (k : String) :
    k ∈ PyDict.keys (matchAll fm strings table) ↔ k ∈ strings := by
  have hinv := (inv_init fm table).foldl strings
  simp only [List.nil_append] at hinv
  obtain ⟨h1, h2⟩ := dups_foldl fm table _ (strings.foldl (step fm table) ([], [])).1
    (fun k hk => ⟨_, (hinv.dups k hk).choose_spec.1⟩)
  rw [← hinv.keys, PyDict.mem_keys_iff]
  unfold matchAll
  simp only
  by_cases hk : k ∈ (strings.foldl (step fm table) ([], [])).2
  · obtain ⟨t, ht, _⟩ := hinv.dups k hk
    obtain ⟨w, hw, _⟩ := h2 k hk t ht
    simp [hk, hw]
  · rw [h1 k hk, PyDict.mem_keys_iff]; simp [hk]

/-- **C32 (partial: values that are true in Python).** If the name itself is a key of the table with a non-zero number or a
non-empty dictionary as value, that value is the answer, whatever patterns precede it. For falsy values (`0`, `{}`) the
claim fails, see `C32_falsy_exact_value_violated`. -/
theorem C32_exact_name_wins_partial (fm : FullMatch) (strings : List String) (table : Dict String Val) (k : String)
    (hk : k ∈ strings) (ht : (get table k).truthy = true) (hs : ∀ t, get table k ≠ .str t) :
    PyDict.get? (matchAll fm strings table) k = some (get table k) := by
  have hinv := (inv_init fm table).foldl strings
  simp only [List.nil_append] at hinv
  obtain ⟨h1, h2⟩ := dups_foldl fm table _ (strings.foldl (step fm table) ([], [])).1
    (fun k hk => ⟨_, (hinv.dups k hk).choose_spec.1⟩)
  have hnd : k ∉ (strings.foldl (step fm table) ([], [])).2 := by
    intro hd
    obtain ⟨t, e, _⟩ := hinv.dups k hd
    exact hs t e
  have hmem : k ∈ PyDict.keys (strings.foldl (step fm table) ([], [])).1 := by
    have := (hinv.keys k).2 hk
    tauto
  unfold matchAll
  simp only
  rw [h1 k hnd]
  rw [PyDict.mem_keys_iff, Option.isSome_iff_exists] at hmem
  obtain ⟨v, hv⟩ := hmem
  rw [hv, hinv.exact k v hv ht]

/-- **C32.** A name that is not a key (or whose value is falsy) gets the value of the first pattern, in table order, that
fully matches it, and `None` if there is none. -/
theorem C32_first_pattern (fm : FullMatch) (strings : List String) (table : Dict String Val) (k : String)
    (hk : k ∈ strings) (ht : (get table k).truthy = false) :
    ∃ v, PyDict.get? (matchAll fm strings table) k = some v ∧ FirstMatchIs fm table k v := by
  have hinv := (inv_init fm table).foldl strings
  simp only [List.nil_append] at hinv
  obtain ⟨h1, h2⟩ := dups_foldl fm table _ (strings.foldl (step fm table) ([], [])).1
    (fun k hk => ⟨_, (hinv.dups k hk).choose_spec.1⟩)
  have hnd : k ∉ (strings.foldl (step fm table) ([], [])).2 := by
    intro hd
    obtain ⟨t, e, hne⟩ := hinv.dups k hd
    rw [e] at ht
    simp [Val.truthy, hne] at ht
  have hmem : k ∈ PyDict.keys (strings.foldl (step fm table) ([], [])).1 := by
    have := (hinv.keys k).2 hk
    tauto
  unfold matchAll
  simp only
  rw [h1 k hnd]
  rw [PyDict.mem_keys_iff, Option.isSome_iff_exists] at hmem
  obtain ⟨v, hv⟩ := hmem
  refine ⟨v, hv, ?_⟩
  rw [hinv.pat k v hv ht]
  exact firstMatch_spec _ _ _

/-- **C32.** A name whose table value is an alias `t` is answered by the alias itself or by what the table says about the target. -/
theorem C32_alias (fm : FullMatch) (strings : List String) (table : Dict String Val) (k t : String)
    (hk : k ∈ strings) (ht : get table k = .str t) (hne : t ≠ "") :
    ∃ w, PyDict.get? (matchAll fm strings table) k = some w ∧ (w = .str t ∨ TargetAnswer fm table t w) := by
  have hinv := (inv_init fm table).foldl strings
  simp only [List.nil_append] at hinv
  obtain ⟨h1, h2⟩ := dups_foldl fm table _ (strings.foldl (step fm table) ([], [])).1
    (fun k hk => ⟨_, (hinv.dups k hk).choose_spec.1⟩)
  unfold matchAll
  simp only
  by_cases hd : k ∈ (strings.foldl (step fm table) ([], [])).2
  · obtain ⟨w, hw, hw2⟩ := h2 k hd t ht
    exact ⟨w, hw, Or.inr hw2⟩
  · have hmem : k ∈ PyDict.keys (strings.foldl (step fm table) ([], [])).1 := by
      have := (hinv.keys k).2 hk
      tauto
    rw [h1 k hd]
    rw [PyDict.mem_keys_iff, Option.isSome_iff_exists] at hmem
    obtain ⟨v, hv⟩ := hmem
    refine ⟨v, hv, Or.inl ?_⟩
    rw [hinv.exact k v hv (by rw [ht]; simp [Val.truthy, hne]), ht]

/-- An alias whose target is not requested is put off. -/
theorem postponed (fm : FullMatch) (table : Dict String Val) (k t : String) (ht : get table k = .str t) (hne : t ≠ "") :
    ∀ (strings : List String) (done : List String) (st : Dict String Val × List String), Inv fm table done st → t ∉ done → t ∉ strings →
    (k ∈ st.2 ∨ k ∈ strings) → k ∈ (strings.foldl (step fm table) st).2
  | [], _, st, _, _, _, h => by simpa using h
  | s :: rest, done, st, hi, hd, hs, h => by
    simp only [List.mem_cons, not_or] at hs
    rw [List.foldl_cons]
    refine postponed fm table k t ht hne rest (done ++ [s]) _ (hi.step s) ?_ hs.2 ?_
    · simp only [List.mem_append, List.mem_singleton, not_or]
      exact ⟨hd, hs.1⟩
    · have keep : k ∈ st.2 → k ∈ (step fm table st s).2 := by
        intro hk
        unfold step
        split_ifs
        · split
          · split_ifs <;> simp [hk]
          · exact hk
        · exact hk
      rcases h with h | h
      · exact Or.inl (keep h)
      · rcases List.mem_cons.1 h with rfl | h
        · left
          have hg : get st.1 t = .none := by
            have : t ∉ PyDict.keys st.1 := fun hc => hd ((hi.keys t).1 (Or.inl hc))
            rw [PyDict.mem_keys_iff] at this
            simp only [get]
            cases hx : PyDict.get? st.1 t with
            | none => rfl
            | some v => rw [hx] at this; simp at this
          simp [step, ht, Val.truthy, hne, hg]
        · exact Or.inr h

/-- **C32.** If the target of the alias is not itself requested, the answer is exactly what the table says about the target. -/
theorem C32_alias_target (fm : FullMatch) (strings : List String) (table : Dict String Val) (k t : String)
    (hk : k ∈ strings) (ht : get table k = .str t) (hne : t ≠ "") (hreq : t ∉ strings) :
    ∃ w, PyDict.get? (matchAll fm strings table) k = some w ∧ TargetAnswer fm table t w := by
  have hinv := (inv_init fm table).foldl strings
  simp only [List.nil_append] at hinv
  obtain ⟨h1, h2⟩ := dups_foldl fm table _ (strings.foldl (step fm table) ([], [])).1
    (fun k hk => ⟨_, (hinv.dups k hk).choose_spec.1⟩)
  exact h2 k (postponed fm table k t ht hne strings [] ([], []) (inv_init fm table) (by simp) hreq (Or.inr hk)) t ht

/-- Non-vacuity: an alias to a name that is not requested and that the third entry matches. -/
example : matchAll (fun p s => p == s || p == "b.*" && s.startsWith "b") ["a"] [("c", .dict 0 false), ("a", .str "b1"), ("b.*", .num 7)] =
    [("a", .num 7)] := by
  decide +kernel

/-- **C32 (violated).** An exact key with a falsy value loses to an earlier pattern: with the table
`{"alpha.*": 5, "alpha_0": 0}` the name `alpha_0` gets 5, for every regex engine in which `alpha.*` matches it. -/
theorem C32_falsy_exact_value_violated (fm : FullMatch) (h : fm "alpha.*" "alpha_0" = true) :
    PyDict.get? (matchAll fm ["alpha_0"] [("alpha.*", .num 5), ("alpha_0", .num 0)]) "alpha_0" = some (.num 5) ∧
    PyDict.get? [("alpha.*", Val.num 5), ("alpha_0", .num 0)] "alpha_0" = some (.num 0) := by
  constructor
  · simp [matchAll, step, get, PyDict.get?, Val.truthy, firstMatch, h, PyDict.set]
  · simp [PyDict.get?]

/-- Non-vacuity of C32: an exact dictionary value after a matching pattern, a pattern match and an unmatched name. -/
example : matchAll (fun p s => p == s || p == "a.*" && s.startsWith "a") ["a1", "a2", "b"]
    [("a.*", .num 7), ("a1", .dict 0 false)] = [("a1", .dict 0 false), ("a2", .num 7), ("b", .none)] := by
  decide +kernel

end GW.Regex
