import Verif.Spec.Priors
import Verif.Props.Regex
import Verif.Props.Guru

/-! # C64: from the prior file to priors -/

namespace GW.Priors
open GW GW.PyDict
open GW.Regex (Val FullMatch matchAll)
open GW.Joint (Base)

variable {D P : Type}

/-! ## Helpers -/

theorem get?_filter {V : Type} {d : Dict String V} (hn : (keys d).Nodup) (p : String × V → Bool) (k : String) (v : V) :
    get? (d.filter p) k = some v ↔ get? d k = some v ∧ p (k, v) = true := by
  have hn' : (keys (d.filter p)).Nodup := hn.sublist (List.filter_sublist.map _)
  constructor
  · intro h
    have := List.mem_filter.1 (mem_of_get? h)
    exact ⟨get?_of_mem hn this.1, this.2⟩
  · rintro ⟨h1, h2⟩
    exact get?_of_mem hn' (List.mem_filter.2 ⟨mem_of_get? h1, h2⟩)

theorem mem_lazyVars {d : Dict String Atom} {k s : String} : (k, s) ∈ lazyVars d ↔ (k, Atom.str s) ∈ d := by
  induction d with
  | nil => simp [lazyVars]
  | cons p d ih =>
    obtain ⟨k', v⟩ := p
    cases v with
    | str t => simp [lazyVars, ih]
    | num n => simp [lazyVars, ih]

theorem keys_lazyVars_sublist (d : Dict String Atom) : (keys (lazyVars d)).Sublist (keys d) := by
  induction d with
  | nil => simp [lazyVars, keys]
  | cons p d ih =>
    obtain ⟨k', v⟩ := p
    cases v with
    | str t => exact ih.cons_cons k'
    | num n => exact ih.cons k'

theorem get?_lazyVars {d : Dict String Atom} (hn : (keys d).Nodup) (k s : String) : get? (lazyVars d) k = some s ↔ get? d k = some (.str s) :=
  ⟨fun h => get?_of_mem hn (mem_lazyVars.1 (mem_of_get? h)), fun h => get?_of_mem (hn.sublist (keys_lazyVars_sublist d)) (mem_lazyVars.2 (mem_of_get? h))⟩

theorem isLazy_iff (d : Dict String Atom) : isLazyPrior d = false ↔ lazyVars d = [] := by
  induction d with
  | nil => simp [isLazyPrior, lazyVars]
  | cons p d ih =>
    obtain ⟨k', v⟩ := p
    cases v with
    | str t => simp [isLazyPrior, lazyVars, Atom.isStr]
    | num n => simpa [isLazyPrior, lazyVars, Atom.isStr] using ih

theorem nonLazy_eq {d : Dict String Atom} (h : isLazyPrior d = false) : nonLazyVars d = d := by
  induction d with
  | nil => rfl
  | cons p d ih =>
    obtain ⟨k', v⟩ := p
    cases v with
    | str t => simp [isLazyPrior, Atom.isStr] at h
    | num n =>
      simp only [isLazyPrior, Atom.isStr] at h
      have := ih (by simpa using h)
      unfold nonLazyVars at this ⊢
      rw [List.filter_cons_of_pos rfl, this]

theorem popDist_nodup {d : Dict String Atom} (hn : (keys d).Nodup) : (keys (popDist d)).Nodup := hn.sublist (List.filter_sublist.map _)

theorem splits {d : Dict String Atom} (hn : (keys d).Nodup) : Splits d (nonLazyVars (popDist d)) (lazyVars (popDist d)) where
  fixed_nodup := (popDist_nodup hn).sublist (List.filter_sublist.map _)
  lazy_nodup := (popDist_nodup hn).sublist (keys_lazyVars_sublist _)
  fixed_iff k v := by
    unfold nonLazyVars
    rw [get?_filter (popDist_nodup hn), popDist, get?_filter hn]
    cases v <;> simp [Atom.isStr, and_comm]
  lazy_iff k s := by
    rw [get?_lazyVars (popDist_nodup hn), popDist, get?_filter hn]
    simp [and_comm]

theorem available_ok {available : List String} {name : String} : availablePrior available name = .ok name ↔ name ∈ available ∨ name = "DirichletElement" := by
  unfold availablePrior
  split_ifs with h <;> simpa using h

theorem available_cases (available : List String) (name : String) :
    ((name ∈ available ∨ name = "DirichletElement") ∧ availablePrior available name = .ok name) ∨
      (name ∉ available ∧ name ≠ "DirichletElement" ∧ availablePrior available name = .error (.attribute name)) := by
  unfold availablePrior
  split_ifs with h
  · exact Or.inl ⟨by simpa using h, rfl⟩
  · right
    simp only [List.mem_append, List.mem_singleton, not_or] at h
    exact ⟨h.1, h.2, rfl⟩

/-- What becomes of a good dictionary. -/
def Built (available : List String) (c : Ctors D P) (d : Dict String Atom) (r : Processed D P) : Prop :=
  ∃ name fixed lazy, Names available d name ∧ Splits d fixed lazy ∧
    ((lazy = [] ∧ ∃ x, c.build name fixed = some x ∧ r = .dist x) ∨ (lazy ≠ [] ∧ r = .lazy (c.partially name fixed) lazy))

theorem processDict_spec (available : List String) (c : Ctors D P) (key : String) (d : Dict String Atom) (hn : (keys d).Nodup) :
    (∃ r, processDict available c key d = .ok r ∧ Built available c d r) ∨ ∃ e, processDict available c key d = .error e ∧ Complaint available c key d e := by
  unfold processDict
  have hsp := splits hn
  cases h : get? d "dist" with
  | none => exact Or.inr ⟨_, rfl, .noDist (by simp [h])⟩
  | some a =>
    cases a with
    | num n => exact Or.inr ⟨_, rfl, .noDist (by simp [h])⟩
    | str name =>
      simp only
      by_cases h0 : name = ""
      · exact Or.inr ⟨_, if_pos h0, .noDist (by simp [h, h0])⟩
      rw [if_neg h0]
      rcases available_cases available name with ⟨h1, e1⟩ | ⟨h1, h2, e1⟩
      · rw [e1]
        simp only
        have hN : Names available d name := ⟨h, h0, h1⟩
        have hkw : ∀ fixed, Splits d fixed (lazyVars (popDist d)) → "validate_args" ∈ keys fixed → Complaint available c key d .type := by
          intro fixed hs hm
          rw [mem_keys_iff, Option.isSome_iff_exists] at hm
          obtain ⟨v, hv⟩ := hm
          obtain ⟨_, h3, h4⟩ := (hs.fixed_iff _ _).1 hv
          exact .twice name hN v h3 h4
        cases hl : isLazyPrior (popDist d) with
        | false =>
          have e2 := nonLazy_eq hl
          have e3 := (isLazy_iff _).1 hl
          rw [e2] at hsp
          simp only [if_true, checkKw]
          by_cases hv : "validate_args" ∈ keys (popDist d)
          · rw [if_pos hv]
            exact Or.inr ⟨_, rfl, hkw _ hsp hv⟩
          · rw [if_neg hv]
            simp only
            cases hb : c.build name (popDist d) with
            | none => exact Or.inr ⟨_, rfl, .rejected name hN (popDist d) (e3 ▸ hsp) ((get?_eq_none_iff _ _).2 hv) hb⟩
            | some x => exact Or.inl ⟨_, rfl, name, _, _, hN, hsp, Or.inl ⟨e3, x, hb, rfl⟩⟩
        | true =>
          have e3 : lazyVars (popDist d) ≠ [] := fun e => by rw [← isLazy_iff, hl] at e; cases e
          simp only [Bool.true_eq_false, if_false, checkKw]
          by_cases hv : "validate_args" ∈ keys (nonLazyVars (popDist d))
          · rw [if_pos hv]
            exact Or.inr ⟨_, rfl, hkw _ hsp hv⟩
          · rw [if_neg hv]
            exact Or.inl ⟨_, rfl, name, _, _, hN, hsp, Or.inr ⟨e3, rfl⟩⟩
      · rw [e1]
        exact Or.inr ⟨_, rfl, .unknown name h h0 h1 h2⟩

theorem splits_perm {d : Dict String Atom} {f f' : Dict String Atom} {l l' : Dict String String} (h : Splits d f l) (h' : Splits d f' l') : f.Perm f' := by
  have n : f.Nodup := (List.Nodup.of_map _ h.fixed_nodup)
  have n' : f'.Nodup := (List.Nodup.of_map _ h'.fixed_nodup)
  rw [List.perm_ext_iff_of_nodup n n']
  rintro ⟨k, v⟩
  exact ⟨fun hm => mem_of_get? ((h'.fixed_iff k v).2 ((h.fixed_iff k v).1 (get?_of_mem h.fixed_nodup hm))),
    fun hm => mem_of_get? ((h.fixed_iff k v).2 ((h'.fixed_iff k v).1 (get?_of_mem h'.fixed_nodup hm)))⟩

theorem complaint_errors (available : List String) (c : Ctors D P) (hc : ∀ name kw kw', List.Perm kw kw' → c.build name kw = c.build name kw') (key : String)
    (d : Dict String Atom) (hn : (keys d).Nodup) (e : Err) (h : Complaint available c key d e) : ∃ e', processDict available c key d = .error e' := by
  rcases processDict_spec available c key d hn with ⟨r, hr, name, fixed, lazy, hN, hS, hB⟩ | ⟨e', he, _⟩
  swap
  · exact ⟨e', he⟩
  cases h with
  | noDist h => exact absurd (h _ hN.1) hN.2.1
  | unknown n h h0 h1 h2 =>
    have := hN.1
    rw [h] at this
    simp only [Option.some.injEq, Atom.str.injEq] at this
    subst this
    exact absurd hN.2.2 (by simp [h1, h2])
  | twice n h v hv hs =>
    have hk : get? (nonLazyVars (popDist d)) "validate_args" = some v := ((splits hn).fixed_iff _ _).2 ⟨by decide, hv, hs⟩
    have hk' : "validate_args" ∈ keys (nonLazyVars (popDist d)) := by
      rw [mem_keys_iff, hk]
      rfl
    unfold processDict
    rw [h.1]
    simp only [if_neg h.2.1, available_ok.2 h.2.2]
    cases hl : isLazyPrior (popDist d) with
    | false =>
      rw [nonLazy_eq hl] at hk'
      exact ⟨.type, by simp [checkKw, hk']⟩
    | true => exact ⟨.type, by simp [checkKw, hk']⟩
  | rejected n h fixed' hs hv hb =>
    have hnn : n = name := by
      have := hN.1
      rw [h.1] at this
      simpa using this
    subst hnn
    rcases hB with ⟨_, x, hx, _⟩ | ⟨hl, _⟩
    · rw [hc _ _ _ (splits_perm hS hs), hb] at hx
      cases hx
    · exfalso
      obtain ⟨⟨k, s⟩, hm⟩ := List.exists_mem_of_ne_nil _ hl
      have h1 := (hS.lazy_iff k s).1 (get?_of_mem hS.lazy_nodup hm)
      have h2 := (hs.lazy_iff k s).2 h1
      simp [get?] at h2

/-- The processed value of one entry. -/
def entry (available : List String) (c : Ctors D P) (heap : Nat → Dict String Atom) (k : String) (v : Val) : Except Err (Processed D P) :=
  match v with | .dict id _ => processDict available c k (heap id) | v => .ok (.plain v)

theorem processAll_ok (available : List String) (c : Ctors D P) (heap : Nat → Dict String Atom) {m : Dict String Val} {r : Dict String (Processed D P)}
    (h : processAll available c heap m = .ok r) :
    keys r = keys m ∧ ∀ k, ∀ v, get? m k = some v → ∃ p, get? r k = some p ∧ entry available c heap k v = .ok p := by
  induction m generalizing r with
  | nil =>
    simp only [processAll, Except.ok.injEq] at h
    subst h
    exact ⟨rfl, by simp [get?]⟩
  | cons kv m ih =>
    obtain ⟨k0, v0⟩ := kv
    simp only [processAll] at h
    change (match entry available c heap k0 v0 with | .error e => Except.error e | .ok p => _) = _ at h
    cases he : entry available c heap k0 v0 with
    | error e => rw [he] at h; cases h
    | ok p =>
      rw [he] at h
      simp only at h
      cases hr : processAll available c heap m with
      | error e => rw [hr] at h; cases h
      | ok r' =>
        rw [hr] at h
        simp only [Except.ok.injEq] at h
        subst h
        obtain ⟨h1, h2⟩ := ih hr
        refine ⟨by simp only [keys, List.map_cons] at h1 ⊢; rw [h1], ?_⟩
        intro k v hv
        simp only [get?] at hv ⊢
        by_cases hk : k0 = k
        · rw [if_pos hk] at hv ⊢
          simp only [Option.some.injEq] at hv
          subst hv hk
          exact ⟨p, rfl, he⟩
        · rw [if_neg hk] at hv ⊢
          exact h2 k v hv

theorem processAll_error (available : List String) (c : Ctors D P) (heap : Nat → Dict String Atom) {m : Dict String Val} (hn : (keys m).Nodup) :
    (∀ e, processAll available c heap m = .error e → ∃ k v, get? m k = some v ∧ entry available c heap k v = .error e) ∧
    (∀ k v e, get? m k = some v → entry available c heap k v = .error e → ∃ e', processAll available c heap m = .error e') := by
  constructor
  · induction m with
    | nil => intro e h; simp [processAll] at h
    | cons kv m ih =>
      obtain ⟨k0, v0⟩ := kv
      intro e h
      simp only [processAll] at h
      change (match entry available c heap k0 v0 with | .error e => Except.error e | .ok p => _) = _ at h
      cases he : entry available c heap k0 v0 with
      | error e' =>
        rw [he] at h
        simp only [Except.error.injEq] at h
        subst h
        exact ⟨k0, v0, by simp [get?], he⟩
      | ok p =>
        rw [he] at h
        simp only at h
        cases hr : processAll available c heap m with
        | ok r' => rw [hr] at h; cases h
        | error e' =>
          rw [hr] at h
          simp only [Except.error.injEq] at h
          subst h
          simp only [keys, List.map_cons, List.nodup_cons] at hn
          obtain ⟨k, v, h1, h2⟩ := ih hn.2 _ hr
          refine ⟨k, v, ?_, h2⟩
          simp only [get?]
          rw [if_neg, h1]
          rintro rfl
          exact hn.1 (List.mem_map.2 ⟨_, mem_of_get? h1, rfl⟩)
  · intro k v e hk he
    cases h : processAll available c heap m with
    | error e' => exact ⟨e', rfl⟩
    | ok r =>
      obtain ⟨p, _, hp⟩ := (processAll_ok available c heap h).2 k v hk
      rw [he] at hp
      cases hp

theorem dupLoop_nodup (fm : FullMatch) (t dup : String) : ∀ (table m : Dict String Val) (found : Bool), (keys m).Nodup →
    (keys (Regex.dupLoop fm t dup table m found).1).Nodup
  | [], m, found, h => h
  | (p, v) :: rest, m, found, h => by
    unfold Regex.dupLoop
    split_ifs
    · exact nodup_keys_set h _ _
    · exact dupLoop_nodup fm t dup rest _ _ (nodup_keys_set h _ _)
    · exact dupLoop_nodup fm t dup rest _ _ h

theorem matchAll_nodup (fm : FullMatch) (params : List String) (table : Dict String Val) : (keys (matchAll fm params table)).Nodup := by
  have h1 : ∀ (ss : List String) (st : Dict String Val × List String), (keys st.1).Nodup → (keys (ss.foldl (Regex.step fm table) st).1).Nodup := by
    intro ss
    induction ss with
    | nil => exact fun st h => h
    | cons s ss ih =>
      intro st h
      apply ih
      unfold Regex.step
      split_ifs
      · split
        · split_ifs
          · exact h
          · exact nodup_keys_set h _ _
        · exact nodup_keys_set h _ _
      · exact nodup_keys_set h _ _
  have h2 : ∀ (ds : List String) (m : Dict String Val), (keys m).Nodup → (keys (ds.foldl (Regex.dupStep fm table) m)).Nodup := by
    intro ds
    induction ds with
    | nil => exact fun m h => h
    | cons d ds ih =>
      intro m h
      apply ih
      unfold Regex.dupStep
      split
      · simp only
        split_ifs
        · exact dupLoop_nodup _ _ _ _ _ _ h
        · exact nodup_keys_set (dupLoop_nodup _ _ _ _ _ _ h) _ _
      · exact h
  exact h2 _ _ (h1 _ _ (by simp [keys]))

theorem checkPresent_ok (fm : FullMatch) (params : List String) (table : Dict String Val) : checkPresent params (matchAll fm params table) = .ok () := by
  unfold checkPresent
  have : (params.find? fun p => decide (p ∉ keys (matchAll fm params table))) = none := by
    rw [List.find?_eq_none]
    intro p hp
    simpa using (Regex.C32_every_name_answered fm params table p).2 hp
  rw [this]

theorem processed_eq (fm : FullMatch) (available : List String) (c : Ctors D P) (heap : Nat → Dict String Atom) (params : List String) (table : Dict String Val) :
    getProcessedPriors fm available c heap params table = processAll available c heap (matchAll fm params table) := by
  simp only [getProcessedPriors, checkPresent_ok]

theorem processDict_not_missing (available : List String) (c : Ctors D P) (key : String) (d : Dict String Atom) (p : String) :
    processDict available c key d ≠ .error (.missingPrior p) := by
  have hkw : ∀ kw, checkKw kw ≠ .error (.missingPrior p) := by
    intro kw h
    unfold checkKw at h
    split_ifs at h
    cases h
  have hav : ∀ name, availablePrior available name ≠ .error (.missingPrior p) := by
    intro name h
    unfold availablePrior at h
    split_ifs at h
    cases h
  intro hv
  unfold processDict at hv
  cases h : get? d "dist" with
  | none => rw [h] at hv; cases hv
  | some a =>
    cases a with
    | num n => rw [h] at hv; cases hv
    | str name =>
      rw [h] at hv
      simp only at hv
      by_cases h0 : name = ""
      · rw [if_pos h0] at hv; cases hv
      rw [if_neg h0] at hv
      cases h1 : availablePrior available name with
      | error e => rw [h1] at hv; simp only [Except.error.injEq] at hv; exact hav _ (hv ▸ h1)
      | ok q =>
        rw [h1] at hv
        simp only at hv
        cases hl : isLazyPrior (popDist d) with
        | false =>
          rw [hl] at hv
          simp only [if_true] at hv
          cases h2 : checkKw (popDist d) with
          | error e => rw [h2] at hv; simp only [Except.error.injEq] at hv; exact hkw _ (hv ▸ h2)
          | ok u =>
            rw [h2] at hv
            simp only at hv
            cases h3 : c.build q (popDist d) <;> rw [h3] at hv <;> cases hv
        | true =>
          rw [hl] at hv
          simp only [Bool.true_eq_false, if_false] at hv
          cases h2 : checkKw (nonLazyVars (popDist d)) with
          | error e => rw [h2] at hv; simp only [Except.error.injEq] at hv; exact hkw _ (hv ▸ h2)
          | ok u => rw [h2] at hv; cases hv

/-! ## Theorems -/

/-- **C64.**  When the prior file is accepted, exactly the model's parameters are answered.  A parameter whose entry is not a dictionary keeps that entry.  One
whose entry is a dictionary gets the named distribution, which exists: built from all the other fields if none of them is a string; otherwise a constructor
holding the fields that are not strings, together with the fields that are.  `validate_args` is never given twice. -/
theorem C64_processed (fm : FullMatch) (available : List String) (c : Ctors D P) (heap : Nat → Dict String Atom) (hh : ∀ id, (keys (heap id)).Nodup)
    (params : List String) (table : Dict String Val) (r : Dict String (Processed D P)) (h : getProcessedPriors fm available c heap params table = .ok r) :
    (∀ k, k ∈ keys r ↔ k ∈ params) ∧ (keys r).Nodup ∧
    ∀ k ∈ params, ∃ v, get? (matchAll fm params table) k = some v ∧
      ((∀ id b, v ≠ .dict id b) → get? r k = some (.plain v)) ∧
      ∀ id b, v = .dict id b → ∃ name fixed lazy, Names available (heap id) name ∧ Splits (heap id) fixed lazy ∧ get? fixed "validate_args" = none ∧
        ((lazy = [] ∧ ∃ x, c.build name fixed = some x ∧ get? r k = some (.dist x)) ∨
          (lazy ≠ [] ∧ get? r k = some (.lazy (c.partially name fixed) lazy))) := by
  rw [processed_eq] at h
  obtain ⟨h1, h2⟩ := processAll_ok available c heap h
  refine ⟨fun k => by rw [h1, Regex.C32_every_name_answered], by rw [h1]; exact matchAll_nodup _ _ _, fun k hk => ?_⟩
  have hm := (Regex.C32_every_name_answered fm params table k).2 hk
  rw [mem_keys_iff, Option.isSome_iff_exists] at hm
  obtain ⟨v, hv⟩ := hm
  obtain ⟨p, hp, he⟩ := h2 k v hv
  refine ⟨v, hv, fun hd => ?_, fun id b hd => ?_⟩
  · cases v with
    | dict id b => exact absurd rfl (hd id b)
    | num n => simp only [entry, Except.ok.injEq] at he; rw [hp, ← he]
    | str s => simp only [entry, Except.ok.injEq] at he; rw [hp, ← he]
    | none => simp only [entry, Except.ok.injEq] at he; rw [hp, ← he]
  · subst hd
    simp only [entry] at he
    rcases processDict_spec available c k (heap id) (hh id) with ⟨p', hr, name, fixed, lazy, hN, hS, hB⟩ | ⟨e', he', _⟩
    · rw [he] at hr
      simp only [Except.ok.injEq] at hr
      subst hr
      refine ⟨name, fixed, lazy, hN, hS, ?_, ?_⟩
      · by_contra hne
        obtain ⟨v, hv⟩ := Option.ne_none_iff_exists'.1 hne
        have hm := ((splits (hh id)).fixed_iff _ _).2 ((hS.fixed_iff _ _).1 hv)
        have hm' : "validate_args" ∈ keys (nonLazyVars (popDist (heap id))) := by rw [mem_keys_iff, hm]; rfl
        unfold processDict at he
        rw [hN.1] at he
        simp only [if_neg hN.2.1, available_ok.2 hN.2.2] at he
        cases hl : isLazyPrior (popDist (heap id)) with
        | false =>
          rw [nonLazy_eq hl] at hm'
          simp [hl, checkKw, hm'] at he
        | true => simp [hl, checkKw, hm'] at he
      · rcases hB with ⟨h3, x, h4, rfl⟩ | ⟨h3, rfl⟩
        · exact Or.inl ⟨h3, x, h4, hp⟩
        · exact Or.inr ⟨h3, hp⟩
    · rw [he] at he'
      cases he'

/-- **C64.**  The prior file is rejected exactly when the dictionary given for some parameter has no distribution, an unknown one, a `validate_args` of its own,
or fields the distribution does not take; and the exception names that fault. -/
theorem C64_rejected (fm : FullMatch) (available : List String) (c : Ctors D P) (hc : ∀ name kw kw', List.Perm kw kw' → c.build name kw = c.build name kw')
    (heap : Nat → Dict String Atom) (hh : ∀ id, (keys (heap id)).Nodup) (params : List String) (table : Dict String Val) :
    (∀ e, getProcessedPriors fm available c heap params table = .error e →
      ∃ k ∈ params, ∃ id b, get? (matchAll fm params table) k = some (.dict id b) ∧ Complaint available c k (heap id) e) ∧
    (∀ k id b e, get? (matchAll fm params table) k = some (.dict id b) → Complaint available c k (heap id) e →
      ∃ e', getProcessedPriors fm available c heap params table = .error e') := by
  rw [processed_eq]
  obtain ⟨h1, h2⟩ := processAll_error available c heap (matchAll_nodup fm params table)
  constructor
  · intro e he
    obtain ⟨k, v, hk, hv⟩ := h1 e he
    refine ⟨k, (Regex.C32_every_name_answered fm params table k).1 (by rw [mem_keys_iff, hk]; rfl), ?_⟩
    cases v with
    | dict id b =>
      refine ⟨id, b, hk, ?_⟩
      simp only [entry] at hv
      rcases processDict_spec available c k (heap id) (hh id) with ⟨p', hr, _⟩ | ⟨e', he', hC⟩
      · rw [hv] at hr; cases hr
      · rw [hv] at he'
        simp only [Except.error.injEq] at he'
        exact he' ▸ hC
    | num n => cases hv
    | str s => cases hv
    | none => cases hv
  · intro k id b e hk hC
    obtain ⟨e', he'⟩ := complaint_errors available c hc k (heap id) (hh id) e hC
    exact h2 k _ e' hk he'

/-- **C64.**  A parameter for which the file has no entry and no matching pattern is answered with `None` - and, once classified, is a constant of the model
with the value `None`. -/
theorem C64_no_entry_is_none {α : Type} (fm : FullMatch) (available : List String) (c : Ctors (Base α) (List (String × List α) → Base α))
    (heap : Nat → Dict String Atom) (hh : ∀ id, (keys (heap id)).Nodup) (ord : List String → List String) (params : List String) (table : Dict String Val)
    (k : String) (hk : k ∈ params) (h0 : k ∉ keys table) (h1 : ∀ p ∈ keys table, fm p k = false) :
    (∀ r, getProcessedPriors fm available c heap params table = .ok r → get? r k = some (.plain .none)) ∧
    ∀ cl, classifyFile fm available c heap ord params table = .ok (.ok cl) → get? cl.constants k = some none := by
  have hm : get? (matchAll fm params table) k = some .none := by
    obtain ⟨v, hv, hf⟩ := Regex.C32_first_pattern fm params table k hk (by simp [Regex.get, (get?_eq_none_iff _ _).2 h0, Val.truthy])
    rcases hf with ⟨pre, p, post, e, hp, _⟩ | ⟨rfl, _⟩
    · have := h1 p (by rw [e]; simp [keys])
      rw [this] at hp
      cases hp
    · exact hv
  have hr : ∀ r, getProcessedPriors fm available c heap params table = .ok r → get? r k = some (.plain .none) := by
    intro r hr
    obtain ⟨v, hv, h2, _⟩ := (C64_processed fm available c heap hh params table r hr).2.2 k hk
    rw [hm] at hv
    simp only [Option.some.injEq] at hv
    subst hv
    exact h2 (by simp)
  refine ⟨hr, fun cl hcl => ?_⟩
  unfold classifyFile at hcl
  cases hg : getProcessedPriors fm available c heap params table with
  | error e => rw [hg] at hcl; cases hcl
  | ok r =>
    rw [hg] at hcl
    simp only [Except.ok.injEq] at hcl
    have hn := (C64_processed fm available c heap hh params table r hg).2.1
    have hn' : (keys (r.map fun p => (p.1, p.2.toPVal))).Nodup := by
      simpa [keys, List.map_map, Function.comp_def] using hn
    have hR := Guru.C35_roles ord _ hn' cl hcl
    exact hR.null k (List.mem_map.2 ⟨_, mem_of_get? (hr r hg), rfl⟩)

/-- **C64 (violated).**  The documented error "Missing prior for …" is never raised: whatever the file and the parameters, and even if the file gives nothing for
a parameter.  With the parameters `alpha` and `beta` and the file `{"alpha": 1}` the analysis is set up with `beta = None`. -/
theorem C64_missing_prior_violated {α : Type} (fm : FullMatch) (available : List String) (c : Ctors (Base α) (List (String × List α) → Base α))
    (heap : Nat → Dict String Atom) (ord : List String → List String) :
    (∀ params table p, getProcessedPriors fm available c heap params table ≠ .error (.missingPrior p)) ∧
    ((∀ p s, fm p s = decide (p = s)) → ∃ cl, classifyFile fm available c heap ord ["alpha", "beta"] [("alpha", .num 1)] = .ok (.ok cl) ∧
      get? cl.constants "alpha" = some (some 1) ∧ get? cl.constants "beta" = some none) := by
  constructor
  · intro params table p he
    rw [processed_eq] at he
    obtain ⟨k, v, hk, hv⟩ := (processAll_error available c heap (matchAll_nodup fm params table)).1 _ he
    cases v with
    | dict id b =>
      exact processDict_not_missing available c k (heap id) p hv
    | num n => cases hv
    | str s => cases hv
    | none => cases hv
  · intro hfm
    have hm : matchAll fm ["alpha", "beta"] [("alpha", .num 1)] = [("alpha", .num 1), ("beta", .none)] := by
      have : fm = fun p s => decide (p = s) := by funext p s; exact hfm p s
      subst this
      decide +kernel
    have hg : getProcessedPriors fm available c heap ["alpha", "beta"] [("alpha", .num 1)] = .ok [("alpha", .plain (.num 1)), ("beta", .plain .none)] := by
      rw [processed_eq, hm]
      rfl
    unfold classifyFile
    rw [hg]
    refine ⟨_, rfl, ?_, ?_⟩
    · simp [Guru.pass2Step, Processed.toPVal, get?, PyDict.set]
    · simp [Guru.pass2Step, Processed.toPVal, get?, PyDict.set]

/-- **C64.**  Exactly the parameters whose entry is a dictionary are sampled, and a lazy one depends on the parameters its string fields name, of which there is
at least one. -/
theorem C64_sampled {α : Type} (fm : FullMatch) (available : List String) (c : Ctors (Base α) (List (String × List α) → Base α))
    (heap : Nat → Dict String Atom) (hh : ∀ id, (keys (heap id)).Nodup) (ord : List String → List String) (params : List String) (table : Dict String Val)
    (cl : Guru.Classified α) (h : classifyFile fm available c heap ord params table = .ok (.ok cl)) :
    (∀ k ∈ params, k ∈ keys cl.vars ↔ ∃ id b, get? (matchAll fm params table) k = some (.dict id b)) ∧
    (∀ k ∈ params, ∀ id b, get? (matchAll fm params table) k = some (.dict id b) → (∃ f s, f ≠ "dist" ∧ get? (heap id) f = some (.str s)) →
      ∃ deps, get? cl.lazyDeps k = some deps ∧ deps ≠ [] ∧ ∀ f s, get? deps f = some s ↔ f ≠ "dist" ∧ get? (heap id) f = some (.str s)) := by
  unfold classifyFile at h
  cases hg : getProcessedPriors fm available c heap params table with
  | error e => rw [hg] at h; cases h
  | ok r =>
    rw [hg] at h
    simp only [Except.ok.injEq] at h
    obtain ⟨hkeys, hn, hent⟩ := C64_processed fm available c heap hh params table r hg
    have hn' : (keys (r.map fun p => (p.1, p.2.toPVal))).Nodup := by
      simpa [keys, List.map_map, Function.comp_def] using hn
    have hR := Guru.C35_roles ord _ hn' cl h
    have hmem : ∀ k p, get? r k = some p → (k, p.toPVal) ∈ r.map fun p => (p.1, p.2.toPVal) := fun k p hp => List.mem_map.2 ⟨_, mem_of_get? hp, rfl⟩
    have isvar : ∀ k v, get? cl.vars k = some v → k ∈ keys cl.vars := fun k v hv => by rw [mem_keys_iff, hv]; rfl
    constructor
    · intro k hk
      obtain ⟨v, hv, h1, h2⟩ := hent k hk
      rw [hv]
      constructor
      · intro hvar
        by_contra hno
        have hpl := h1 fun id b e => hno ⟨id, b, by rw [e]⟩
        have hm := hmem _ _ hpl
        have hcv : ∀ x, get? cl.constants k = some x → False := fun x hx => hR.constNotVar k (by rw [mem_keys_iff, hx]; rfl) hvar
        cases v with
        | dict id b => exact hno ⟨id, b, rfl⟩
        | num n => exact hcv _ (hR.number k n hm)
        | none => exact hcv _ (hR.null k hm)
        | str s =>
          obtain ⟨st, hst, hvars, -⟩ := Guru.classify_ok hn' h
          rw [hvars, mem_keys_iff, Option.isSome_iff_exists] at hvar
          obtain ⟨m, hm'⟩ := hvar
          rcases (hst.vars k m).1 hm' with ⟨b, h3, -⟩ | ⟨f, a, h3, -⟩
          · cases Guru.unique_value hn' hm h3
          · cases Guru.unique_value hn' hm h3
      · rintro ⟨id, b, e⟩
        simp only [Option.some.injEq] at e
        obtain ⟨name, fixed, lazy, -, -, -, ⟨-, x, -, hx⟩ | ⟨-, hx⟩⟩ := h2 id b e
        · exact isvar _ _ (hR.dist k x (hmem _ _ hx))
        · obtain ⟨a, -, h3, -⟩ := hR.lazy k true _ _ (hmem _ _ hx)
          exact isvar _ _ h3
    · intro k hk id b hd hs
      obtain ⟨v, hv, h1, h2⟩ := hent k hk
      rw [hd] at hv
      simp only [Option.some.injEq] at hv
      obtain ⟨name, fixed, lazy, -, hS, -, hB⟩ := h2 id b hv.symm
      obtain ⟨f, s, hf, hfs⟩ := hs
      have hl := (hS.lazy_iff f s).2 ⟨hf, hfs⟩
      rcases hB with ⟨rfl, -⟩ | ⟨hne, hx⟩
      · simp [get?] at hl
      · obtain ⟨a, ha, -, h4⟩ := hR.lazy k true _ _ (hmem _ _ hx)
        simp only [Option.some.injEq] at ha
        subst ha
        exact ⟨lazy, h4, hne, hS.lazy_iff⟩

/-! ## The hypotheses are met -/

/-- Constructors that keep what they are given; `Uniform` wants `low` and `high`. -/
def exCtors : Ctors (String × Dict String Atom) (String × Dict String Atom) where
  build n kw := if n = "Uniform" ∧ ("low" ∉ keys kw ∨ "high" ∉ keys kw) then none else some (n, kw)
  partially n kw := (n, kw)

def exHeap : Nat → Dict String Atom
  | 0 => [("dist", .str "Uniform"), ("low", .num 0), ("high", .num 5)]
  | 1 => [("low", .num 0), ("dist", .str "Uniform"), ("high", .str "alpha")]
  | 2 => [("dist", .str "Unifrom")]
  | 3 => [("dist", .str "Uniform"), ("low", .num 0), ("high", .num 1), ("validate_args", .num 0)]
  | 4 => [("dist", .str "Uniform"), ("low", .num 0)]
  | _ => []

theorem exHeap_nodup : ∀ id, (keys (exHeap id)).Nodup
  | 0 => by decide
  | 1 => by decide
  | 2 => by decide
  | 3 => by decide
  | 4 => by decide
  | _ + 5 => List.nodup_nil

/-- An accepted file with a constant, an instance, a lazy prior and an alias. -/
example : ∃ r, getProcessedPriors (fun p s => decide (p = s)) ["Uniform"] exCtors exHeap ["alpha", "beta", "mu", "nu"]
    [("alpha", .dict 0 false), ("beta", .dict 1 false), ("mu", .num 3)] = .ok r ∧
    get? r "alpha" = some (.dist ("Uniform", [("low", .num 0), ("high", .num 5)])) ∧
    get? r "beta" = some (.lazy ("Uniform", [("low", .num 0)]) [("high", "alpha")]) ∧ get? r "mu" = some (.plain (.num 3)) ∧
    get? r "nu" = some (.plain .none) := ⟨_, rfl, rfl, rfl, rfl, rfl⟩

/-- Rejected files: an unknown distribution, `validate_args` given twice, a field missing, no `dist`. -/
example : getProcessedPriors (fun p s => decide (p = s)) ["Uniform"] exCtors exHeap ["a"] [("a", .dict 2 false)] = .error (.attribute "Unifrom") ∧
    getProcessedPriors (fun p s => decide (p = s)) ["Uniform"] exCtors exHeap ["a"] [("a", .dict 3 false)] = .error .type ∧
    getProcessedPriors (fun p s => decide (p = s)) ["Uniform"] exCtors exHeap ["a"] [("a", .dict 4 false)] = .error .ctor ∧
    getProcessedPriors (fun p s => decide (p = s)) ["Uniform"] exCtors exHeap ["a", "b"] [("a", .num 1), ("b", .dict 7 true)] = .error (.noDist "b") :=
  ⟨rfl, rfl, rfl, rfl⟩

/-- Constructors that do not look at the order of the keyword arguments, as `C64_rejected` asks. -/
example : ∀ name (kw kw' : Dict String Atom), List.Perm kw kw' →
    (Ctors.mk (D := Unit) (P := Unit) (fun n kw => if n = "Uniform" ∧ kw.length < 2 then none else some ()) fun _ _ => ()).build name kw =
      (Ctors.mk (D := Unit) (P := Unit) (fun n kw => if n = "Uniform" ∧ kw.length < 2 then none else some ()) fun _ _ => ()).build name kw' := by
  intro name kw kw' h
  simp only [h.length_eq]

/-- A file with a lazy prior that is classified, as `C64_sampled` asks. -/
example (b : Base Nat) : ∃ cl, classifyFile (fun p s => decide (p = s)) ["Uniform"] ⟨fun _ _ => some b, fun _ _ _ => b⟩ exHeap id ["alpha", "beta", "nu"]
    [("alpha", .dict 0 false), ("beta", .dict 1 false), ("mu", .num 3)] = .ok (.ok cl) ∧ keys cl.vars = ["alpha", "beta"] ∧
      cl.lazyDeps = [("beta", [("high", "alpha")])] ∧ cl.constants = [("nu", none)] := ⟨_, rfl, rfl, rfl, rfl⟩

end GW.Priors
