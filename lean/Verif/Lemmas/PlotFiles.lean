import Verif.Spec.PlotFiles
import Mathlib.Data.List.Nodup
import Mathlib.Tactic.Common

/-!
# Lemmas about the files of the plotting tools
-/

namespace GW.PlotFiles

open Spec

/-- What the option tables have in common. -/
structure Shape (t : Tool) : Prop where
  nodup : (t.opts.map (·.name)).Nodup
  help : ∀ o ∈ t.opts, o.name ≠ "--help"
  write : ∀ o ∈ t.opts, o.kind = .write ↔ o.name = "--output"
  read : ∀ o ∈ t.opts, o.kind = .read ↔ o.name = "--data"
  output : ⟨"--output", .write, true, true⟩ ∈ t.opts

theorem shape {t : Tool} (ht : t ∈ tools) : Shape t := by
  have h : ∀ t ∈ tools, (t.opts.map (·.name)).Nodup ∧ (∀ o ∈ t.opts, o.name ≠ "--help") ∧
      (∀ o ∈ t.opts, o.kind = .write ↔ o.name = "--output") ∧ (∀ o ∈ t.opts, o.kind = .read ↔ o.name = "--data") ∧
      ⟨"--output", .write, true, true⟩ ∈ t.opts := by decide +kernel
  obtain ⟨a, b, c, d, e⟩ := h t ht
  exact ⟨a, b, c, d, e⟩

theorem find_mem {t : Tool} {n : String} {o : Opt} (h : t.opts.find? (fun o => o.name = n) = some o) : o ∈ t.opts ∧ o.name = n :=
  ⟨List.mem_of_find?_eq_some h, by simpa using List.find?_some h⟩

theorem find_of {t : Tool} (hs : Shape t) {o : Opt} (ho : o ∈ t.opts) : t.opts.find? (fun o' => o'.name = o.name) = some o := by
  cases h : t.opts.find? (fun o' => o'.name = o.name) with
  | none => simp only [List.find?_eq_none, decide_eq_true_eq] at h; exact absurd rfl (h o ho)
  | some o' =>
    obtain ⟨h1, h2⟩ := find_mem h
    exact congrArg some (List.inj_on_of_nodup_map hs.nodup h1 ho h2)

theorem set_self (fs : FS) (p : Path) (c : Content) : fs.set p c p = some c := by simp [FS.set]

theorem set_other (fs : FS) {p q : Path} (c : Content) (h : q ≠ p) : fs.set p c q = fs q := by simp [FS.set, h]

theorem mem_outputs {cl : List (String × String)} {p : Path} : p ∈ outputs cl ↔ ("--output", p) ∈ cl ∧ p ≠ "-" := by
  simp only [outputs, List.mem_map, List.mem_filter, decide_eq_true_eq, Prod.exists, exists_eq_right]
  constructor
  · rintro ⟨a, h, rfl, hp⟩; exact ⟨h, hp⟩
  · rintro ⟨h, hp⟩; exact ⟨_, h, rfl, hp⟩

theorem openArg_fs {W : World} {t : Tool} (hs : Shape t) {o : Opt} (ho : o ∈ t.opts) {v : String} {fs fs' : FS}
    (h : openArg W t o v fs = some fs') : fs' = if o.name = "--output" ∧ v ≠ "-" then fs.set v "" else fs := by
  have hw := hs.write o ho
  unfold openArg at h
  split at h <;> rename_i hk <;> simp only [hk, reduceCtorEq, false_iff, true_iff] at hw
  · split at h
    · simp_all
    · split at h <;> simp_all
  · split at h
    · simp_all
    · split at h <;> simp_all
  · split at h <;> simp_all

theorem emptied_cons (n v : String) (rest : List (String × String)) (fs : FS) :
    emptied ((n, v) :: rest) fs = emptied rest (if n = "--output" ∧ v ≠ "-" then fs.set v "" else fs) := by
  funext p
  simp only [emptied, mem_outputs, List.mem_cons, Prod.mk.injEq]
  by_cases hr : ("--output", p) ∈ rest ∧ p ≠ "-"
  · rw [if_pos ⟨.inr hr.1, hr.2⟩, if_pos hr]
  · rw [if_neg hr]
    by_cases hn : n = "--output" ∧ v ≠ "-"
    · rw [if_pos hn]
      by_cases hp : p = v
      · subst hp; rw [if_pos ⟨.inl ⟨hn.1.symm, rfl⟩, hn.2⟩, set_self]
      · rw [set_other _ _ hp, if_neg]
        rintro ⟨h | h, h'⟩
        · exact hp h.2
        · exact hr ⟨h, h'⟩
    · rw [if_neg hn, if_neg]
      rintro ⟨h | h, h'⟩
      · exact hn ⟨h.1.symm, h.2 ▸ h'⟩
      · exact hr ⟨h, h'⟩

/-- Whatever happens while the options are handled, a file is as it was, or was named as an output and is empty. -/
theorem parse_fs {W : World} {t : Tool} (hs : Shape t) (cl : List (String × String)) (fs : FS) (ns : Namespace) (bad : Bool) (p : Path) :
    (parse W t cl fs ns bad).1 p = fs p ∨ (p ∈ outputs cl ∧ (parse W t cl fs ns bad).1 p = some "") := by
  induction cl generalizing fs ns bad with
  | nil => left; unfold parse; split <;> rfl
  | cons e rest ih =>
    obtain ⟨n, v⟩ := e
    have mono : ∀ p, p ∈ outputs rest → p ∈ outputs ((n, v) :: rest) := fun p hp =>
      mem_outputs.2 ⟨List.mem_cons_of_mem _ (mem_outputs.1 hp).1, (mem_outputs.1 hp).2⟩
    unfold parse
    split
    · exact .inl rfl
    · split
      · exact (ih fs ns true).imp id fun h => ⟨mono _ h.1, h.2⟩
      · rename_i o ho
        obtain ⟨hm, hn⟩ := find_mem ho
        split
        · exact .inl rfl
        · rename_i fs' hf
          have hfs := openArg_fs hs hm hf
          rcases ih fs' (ns ++ [(n, handleName o v)]) bad with h | h
          · rw [h, hfs]
            split
            · rename_i hc
              by_cases hp : p = v
              · subst hp
                exact .inr ⟨mem_outputs.2 ⟨by rw [← hc.1, hn]; exact List.mem_cons_self, hc.2⟩, set_self _ _ _⟩
              · exact .inl (set_other _ _ hp)
            · exact .inl rfl
          · exact .inr ⟨mono _ h.1, h.2⟩

theorem handleName_eq {t : Tool} (hs : Shape t) {o : Opt} (ho : o ∈ t.opts) (v : String) :
    (o.name, handleName o v) = meaning (o.name, v) := by
  have hw := hs.write o ho
  have hr := hs.read o ho
  unfold handleName meaning
  cases hk : o.kind <;> simp only [hk, reduceCtorEq, false_iff, true_iff] at hw hr <;> simp only [hw, hr, if_true, if_false, ite_self]
  have hne : ¬ "--output" = "--data" := by decide
  simp only [hne, if_false]

/-- The conditions under which the options are accepted. -/
structure Accepted (W : World) (t : Tool) (cl : List (String × String)) (fs : FS) : Prop where
  known : ∀ e ∈ cl, ∃ o ∈ t.opts, o.name = e.1
  values : ∀ e ∈ cl, ∀ o ∈ t.opts, o.name = e.1 → o.kind = .value → W.converts t.name o.name e.2
  data : ∀ e ∈ cl, e.1 = "--data" → e.2 ≠ "-" → (fs e.2).isSome ∨ e.2 ∈ outputs cl
  output : ∀ e ∈ cl, e.1 = "--output" → e.2 ≠ "-" → W.canOpen e.2

theorem parse_inr {W : World} {t : Tool} (hs : Shape t) {cl : List (String × String)} {fs fs' : FS} {ns ns' : Namespace} {bad : Bool}
    (h : parse W t cl fs ns bad = (fs', .inr ns')) :
    fs' = emptied cl fs ∧ ns' = ns ++ cl.map meaning ∧ Accepted W t cl fs ∧
      ∀ o ∈ t.opts, o.required → (get ns' o.name).isSome := by
  induction cl generalizing fs ns bad with
  | nil =>
    unfold parse at h
    split at h
    · simp at h
    · rename_i hb
      simp only [Prod.mk.injEq, Sum.inr.injEq] at h
      obtain ⟨rfl, rfl⟩ := h
      simp only [Bool.or_eq_true, List.any_eq_true, Bool.and_eq_true, Option.isNone_iff_eq_none, not_or, not_exists, not_and] at hb
      refine ⟨by funext p; simp [emptied, outputs], by simp, ⟨by simp, by simp, by simp, by simp⟩, fun o ho hr => ?_⟩
      exact Option.ne_none_iff_isSome.1 (hb.2 o ho hr)
  | cons e rest ih =>
    obtain ⟨n, v⟩ := e
    unfold parse at h
    split at h
    · simp at h
    · split at h
      · obtain ⟨_, hns, ⟨hk, _⟩, _⟩ := ih h
        -- an unknown option makes the parse fail
        exfalso
        clear ih hns hk
        have : ∀ (cl : List (String × String)) (fs : FS) (ns : Namespace) (x), (parse W t cl fs ns true).2 ≠ .inr x := by
          intro cl
          induction cl with
          | nil => intro fs ns x; unfold parse; simp
          | cons e rest ih =>
            intro fs ns x
            unfold parse
            split
            · simp
            · split
              · exact ih _ _ _
              · split
                · simp
                · exact ih _ _ _
        exact this _ _ _ _ (by rw [h])
      · rename_i o ho
        obtain ⟨hm, hn⟩ := find_mem ho
        split at h
        · simp at h
        · rename_i fs1 hf
          have hfs := openArg_fs hs hm hf
          obtain ⟨h1, h2, h3, h4⟩ := ih h
          subst hn
          refine ⟨by rw [h1, hfs, emptied_cons], ?_, ?_, h4⟩
          · rw [h2, handleName_eq hs hm]; simp
          · have hsome : ∀ p, (fs1 p).isSome → (fs p).isSome ∨ p ∈ outputs ((o.name, v) :: rest) := by
              intro p hp
              rw [hfs] at hp
              split at hp
              · rename_i hc
                by_cases hpv : p = v
                · subst hpv; exact .inr (mem_outputs.2 ⟨by rw [hc.1]; exact List.mem_cons_self, hc.2⟩)
                · rw [set_other _ _ hpv] at hp; exact .inl hp
              · exact .inl hp
            refine ⟨?_, ?_, ?_, ?_⟩
            · rintro e (_ | ⟨_, he⟩)
              · exact ⟨o, hm, rfl⟩
              · exact h3.known e he
            · rintro e (_ | ⟨_, he⟩)
              · intro o' ho' hn' hk'
                have : o' = o := List.inj_on_of_nodup_map hs.nodup ho' hm hn'
                subst this
                unfold openArg at hf
                rw [hk'] at hf
                by_contra hc
                simp [hc] at hf
              · exact h3.values e he
            · rintro e (_ | ⟨_, he⟩)
              · intro hd hv
                have hk := (hs.read o hm).2 hd
                unfold openArg at hf
                simp only [hk, hv, if_false] at hf
                split at hf
                · exact .inl ‹_›
                · simp at hf
              · intro hd hv
                rcases h3.data e he hd hv with h | h
                · exact hsome _ h
                · exact .inr (mem_outputs.2 ⟨List.mem_cons_of_mem _ (mem_outputs.1 h).1, (mem_outputs.1 h).2⟩)
            · rintro e (_ | ⟨_, he⟩)
              · intro hd hv
                have hk := (hs.write o hm).2 hd
                unfold openArg at hf
                simp only [hk, hv, if_false] at hf
                split at hf
                · assumption
                · simp at hf
              · exact h3.output e he

theorem get_eq_of_last {ns : Namespace} {n v : String} (h : get ns n = some v) : LastGiven ns n v := by
  unfold get at h
  obtain ⟨e, he, rfl⟩ := Option.map_eq_some_iff.1 h
  obtain ⟨hp, as, bs, hab, hn⟩ := List.find?_eq_some_iff_append.1 he
  simp only [decide_eq_true_eq] at hp
  refine ⟨bs.reverse, as.reverse, ?_, fun x hx => ?_⟩
  · have := congrArg List.reverse hab
    simp only [List.reverse_reverse, List.reverse_append, List.reverse_cons, List.append_assoc, List.singleton_append] at this
    rw [this, ← hp]
  · simpa using hn x (List.mem_reverse.1 hx)

theorem get_of_last {ns : Namespace} {n v : String} (h : LastGiven ns n v) : get ns n = some v := by
  obtain ⟨b, a, hcl, ha⟩ := h
  unfold get
  rw [hcl]
  simp only [List.reverse_append, List.reverse_cons, List.append_assoc, List.find?_append]
  rw [List.find?_eq_none.2 (by intro x hx; simpa using ha x (List.mem_reverse.1 hx))]
  simp

theorem parse_ne_done {W : World} {t : Tool} (cl : List (String × String)) (fs : FS) (ns : Namespace) (bad : Bool) :
    (parse W t cl fs ns bad).2 ≠ .inl .done := by
  induction cl generalizing fs ns bad with
  | nil => unfold parse; split <;> simp
  | cons e rest ih =>
    unfold parse
    split
    · simp
    · split
      · exact ih _ _ _
      · split
        · simp
        · exact ih _ _ _

theorem get_isSome {ns : Namespace} {n : String} : (get ns n).isSome ↔ ∃ v, (n, v) ∈ ns := by
  unfold get
  rw [Option.isSome_map, List.find?_isSome]
  simp only [List.mem_reverse, decide_eq_true_eq]
  constructor
  · rintro ⟨⟨a, b⟩, h, rfl⟩; exact ⟨b, h⟩
  · rintro ⟨v, h⟩; exact ⟨_, h, rfl⟩

/-- The last value of an option of the namespace is the meaning of the last value of the command line. -/
theorem last_meaning {cl : List (String × String)} {n w : String} (h : LastGiven (cl.map meaning) n w) :
    ∃ v, LastGiven cl n v ∧ meaning (n, v) = (n, w) := by
  obtain ⟨b, a, hab, hn⟩ := h
  obtain ⟨b', r, hbr, hb, hr⟩ := List.map_eq_append_iff.1 hab
  obtain ⟨e, a', rfl, he, ha⟩ := List.map_eq_cons_iff.1 hr
  obtain ⟨m, v⟩ := e
  have hm : m = n := congrArg Prod.fst he
  subst hm
  refine ⟨v, ⟨b', a', hbr, fun x hx => ?_⟩, he⟩
  have := hn (meaning x) (by rw [← ha]; exact List.mem_map_of_mem hx)
  exact this

/-- A correct command line is accepted. -/
theorem parse_correct {W : World} {t : Tool} (hs : Shape t) {cl : List (String × String)} {fs : FS} {ns : Namespace}
    (hk : ∀ e ∈ cl, ∃ o ∈ t.opts, o.name = e.1)
    (hv : ∀ e ∈ cl, ∀ o ∈ t.opts, o.name = e.1 → o.kind = .value → W.converts t.name o.name e.2)
    (hd : ∀ e ∈ cl, e.1 = "--data" → (fs e.2).isSome)
    (ho : ∀ e ∈ cl, e.1 = "--output" → W.canOpen e.2)
    (hr : ∀ o ∈ t.opts, o.required → (get (ns ++ cl.map meaning) o.name).isSome) :
    parse W t cl fs ns false = (emptied cl fs, .inr (ns ++ cl.map meaning)) := by
  induction cl generalizing fs ns with
  | nil =>
    unfold parse
    rw [if_neg]
    · refine Prod.ext ?_ (by simp)
      funext p; simp [emptied, outputs]
    · simp only [Bool.false_or, List.any_eq_true, Bool.and_eq_true, not_exists, not_and]
      intro o ho hq
      have := hr o ho hq
      simp only [List.map_nil, List.append_nil] at this
      simp [Option.isSome_iff_ne_none.1 this]
  | cons e rest ih =>
    obtain ⟨n, v⟩ := e
    obtain ⟨o, hm, rfl⟩ := hk _ List.mem_cons_self
    unfold parse
    rw [if_neg (hs.help o hm), find_of hs hm]
    dsimp only
    have hopen : openArg W t o v fs = some (if o.name = "--output" ∧ v ≠ "-" then fs.set v "" else fs) := by
      have hw := hs.write o hm
      have hrd := hs.read o hm
      unfold openArg
      cases hkk : o.kind <;> simp only [hkk, reduceCtorEq, false_iff, true_iff] at hw hrd
      · have := hd _ List.mem_cons_self hrd
        dsimp only at this ⊢
        rw [this]
        simp [hw]
      · have := ho _ List.mem_cons_self hw
        dsimp only at this ⊢
        rw [this]
        by_cases hd : v = "-" <;> simp [hd, hw]
      · have := hv _ List.mem_cons_self o hm rfl hkk
        dsimp only at this ⊢
        rw [this]
        simp [hw]
    rw [hopen]
    dsimp only
    rw [handleName_eq hs hm, ih]
    · rw [emptied_cons]; simp
    · exact fun e he => hk e (List.mem_cons_of_mem _ he)
    · exact fun e he => hv e (List.mem_cons_of_mem _ he)
    · intro e he hen
      have := hd e (List.mem_cons_of_mem _ he) hen
      split
      · by_cases hp : e.2 = v
        · rw [hp, set_self]; rfl
        · rw [set_other _ _ hp]; exact this
      · exact this
    · exact fun e he => ho e (List.mem_cons_of_mem _ he)
    · intro o' ho' hq
      have := hr o' ho' hq
      simpa using this

/-- An option that is neither required nor an output does not count when it comes to the others. -/
theorem get_insert {a b : Namespace} {n v m : String} (h : m ≠ n) : get (a ++ (n, v) :: b) m = get (a ++ b) m := by
  have : n ≠ m := fun e => h e.symm
  unfold get
  simp [List.find?_append, this]

/-- Handling the options goes the same way with one more entry stored for an option that is not required. -/
theorem parse_insert {W : World} {t : Tool} {n v : String} (hq : ∀ o ∈ t.opts, o.required → o.name ≠ n)
    (cl : List (String × String)) (fs : FS) (a b : Namespace) (bad : Bool) :
    (∃ fs' oc, parse W t cl fs (a ++ b) bad = (fs', .inl oc) ∧ parse W t cl fs (a ++ (n, v) :: b) bad = (fs', .inl oc)) ∨
      ∃ fs' c d, parse W t cl fs (a ++ b) bad = (fs', .inr (c ++ d)) ∧
        parse W t cl fs (a ++ (n, v) :: b) bad = (fs', .inr (c ++ (n, v) :: d)) := by
  induction cl generalizing fs b bad with
  | nil =>
    have hany : (t.opts.any fun o => o.required && (get (a ++ (n, v) :: b) o.name).isNone) =
        (t.opts.any fun o => o.required && (get (a ++ b) o.name).isNone) := by
      rw [Bool.eq_iff_iff]
      simp only [List.any_eq_true, Bool.and_eq_true]
      constructor
      · rintro ⟨o, ho, hr, hg⟩; exact ⟨o, ho, hr, by rwa [get_insert (hq o ho hr)] at hg⟩
      · rintro ⟨o, ho, hr, hg⟩; exact ⟨o, ho, hr, by rwa [get_insert (hq o ho hr)]⟩
    unfold parse
    rw [hany]
    split
    · exact .inl ⟨_, _, rfl, rfl⟩
    · exact .inr ⟨_, _, _, rfl, rfl⟩
  | cons e rest ih =>
    obtain ⟨m, w⟩ := e
    unfold parse
    split
    · exact .inl ⟨_, _, rfl, rfl⟩
    · split
      · exact ih _ _ _
      · split
        · exact .inl ⟨_, _, rfl, rfl⟩
        · simp only [List.append_assoc, List.cons_append]
          exact ih _ _ _

theorem parse_ignored {W : World} {t : Tool} (hs : Shape t) {o : Opt} (ho : o ∈ t.opts) (hk : o.kind = .value) (hr : o.required = false)
    {v : String} (hv : W.converts t.name o.name v) (pre post : List (String × String)) (fs : FS) (ns : Namespace) (bad : Bool) :
    (∃ fs' oc, parse W t (pre ++ post) fs ns bad = (fs', .inl oc) ∧
        parse W t (pre ++ (o.name, v) :: post) fs ns bad = (fs', .inl oc)) ∨
      ∃ fs' c d, parse W t (pre ++ post) fs ns bad = (fs', .inr (c ++ d)) ∧
        parse W t (pre ++ (o.name, v) :: post) fs ns bad = (fs', .inr (c ++ (o.name, v) :: d)) := by
  have hq : ∀ o' ∈ t.opts, o'.required → o'.name ≠ o.name := fun o' ho' hr' hn => by
    rw [List.inj_on_of_nodup_map hs.nodup ho' ho hn, hr] at hr'; cases hr'
  induction pre generalizing fs ns bad with
  | nil =>
    have : parse W t ([] ++ (o.name, v) :: post) fs ns bad = parse W t post fs (ns ++ (o.name, v) :: []) bad := by
      rw [List.nil_append]
      conv_lhs => unfold parse
      rw [if_neg (hs.help o ho), find_of hs ho]
      simp [openArg, hk, hv, handleName]
    rw [this]
    have := parse_insert (W := W) (v := v) hq post fs ns [] bad
    simpa using this
  | cons e rest ih =>
    obtain ⟨m, w⟩ := e
    simp only [List.cons_append]
    unfold parse
    split
    · exact .inl ⟨_, _, rfl, rfl⟩
    · split
      · exact ih _ _ _
      · split
        · exact .inl ⟨_, _, rfl, rfl⟩
        · exact ih _ _ _

theorem visible_insert {t : Tool} (hs : Shape t) {o : Opt} (ho : o ∈ t.opts) (hu : o.used = false) (v : String) (c d : Namespace) :
    visible t (c ++ (o.name, v) :: d) = visible t (c ++ d) := by
  have : (t.opts.any fun o' => o'.name = o.name && o'.used) = false := by
    rw [List.any_eq_false]
    intro o' ho'
    simp only [Bool.and_eq_true, decide_eq_true_eq, not_and]
    intro hn
    rw [List.inj_on_of_nodup_map hs.nodup ho' ho hn, hu]
    exact Bool.false_ne_true
  simp [visible, List.filter_append, List.filter_cons, this]

theorem run_ignored {W : World} {t : Tool} (hs : Shape t) {o : Opt} (ho : o ∈ t.opts) (hk : o.kind = .value) (hr : o.required = false)
    (hu : o.used = false) {v : String} (hv : W.converts t.name o.name v) (pre post : List (String × String)) (fs : FS) :
    run W t (pre ++ (o.name, v) :: post) fs = run W t (pre ++ post) fs := by
  have hne : "--output" ≠ o.name := fun h => by
    have := (hs.write o ho).2 h.symm
    rw [hk] at this; cases this
  unfold run
  rcases parse_ignored hs ho hk hr hv pre post fs [] false with ⟨fs', oc, h1, h2⟩ | ⟨fs', c, d, h1, h2⟩
  · rw [h1, h2]
  · rw [h1, h2]
    dsimp only
    rw [visible_insert hs ho hu, get_insert hne]

/-- What `main` reads of the options is everything except the options it ignores. -/
theorem visible_eq {t : Tool} (ht : t ∈ tools) {ns : Namespace} (hk : ∀ e ∈ ns, ∃ o ∈ t.opts, o.name = e.1) :
    visible t ns = ns.filter fun e => (t.name, e.1) ∉ ignored := by
  have key : ∀ t ∈ tools, ∀ o ∈ t.opts, (t.opts.any fun o' => o'.name = o.name && o'.used) = decide ((t.name, o.name) ∉ ignored) := by
    decide +kernel
  unfold visible
  refine List.filter_congr fun e he => ?_
  obtain ⟨o, ho, hn⟩ := hk e he
  have := key t ht o ho
  rw [hn] at this
  exact this

end GW.PlotFiles
