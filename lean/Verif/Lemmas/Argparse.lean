import Verif.Spec.CommandLine
import Mathlib.Data.List.TakeWhile
import Mathlib.Tactic

/-! # Lemmas about the command-line walk -/

namespace GW.Cli
open GW.CliSpec

theorem splitEq_fst (l : List Char) : (splitEq l).1 = l.takeWhile (· ≠ '=') := by
  induction l with
  | nil => rfl
  | cons c cs ih =>
    by_cases h : c = '='
    · simp [splitEq, h]
    · simp [splitEq, h, ih]

theorem splitEq_none {l a : List Char} : splitEq l = (a, none) ↔ l = a ∧ '=' ∉ a := by
  induction l generalizing a with
  | nil => simp only [splitEq, Prod.mk.injEq, and_true]; constructor
           · rintro rfl; simp
           · exact fun h => h.1
  | cons c cs ih =>
    by_cases h : c = '='
    · subst h
      simp only [splitEq, ↓reduceIte, Prod.mk.injEq, reduceCtorEq, and_false, false_iff, not_and, not_not]
      rintro rfl; simp
    · simp only [splitEq, h, ↓reduceIte, Prod.mk.injEq]
      constructor
      · rintro ⟨rfl, h2⟩
        obtain ⟨h3, h4⟩ := ih.1 (Prod.ext rfl h2 : splitEq cs = ((splitEq cs).1, none))
        refine ⟨by rw [← h3], ?_⟩
        simp only [List.mem_cons, not_or]
        exact ⟨fun e => h e.symm, h4⟩
      · rintro ⟨rfl, h2⟩
        simp only [List.mem_cons, not_or] at h2
        have := ih.2 ⟨rfl, h2.2⟩
        rw [this]; exact ⟨rfl, rfl⟩

theorem splitEq_some {l a b : List Char} : splitEq l = (a, some b) ↔ l = a ++ '=' :: b ∧ '=' ∉ a := by
  induction l generalizing a with
  | nil => simp [splitEq]
  | cons c cs ih =>
    by_cases h : c = '='
    · subst h
      simp only [splitEq, ↓reduceIte, Prod.mk.injEq, Option.some.injEq]
      constructor
      · rintro ⟨rfl, rfl⟩; simp
      · rintro ⟨h1, h2⟩
        cases a with
        | nil => simp at h1; exact ⟨rfl, h1⟩
        | cons d a => simp at h1; exact absurd (by simp [h1.1.symm]) h2
    · simp only [splitEq, h, ↓reduceIte, Prod.mk.injEq]
      constructor
      · rintro ⟨rfl, h2⟩
        obtain ⟨h3, h4⟩ := ih.1 (Prod.ext rfl h2 : splitEq cs = ((splitEq cs).1, some b))
        refine ⟨by rw [List.cons_append, ← h3], ?_⟩
        simp only [List.mem_cons, not_or]
        exact ⟨fun e => h e.symm, h4⟩
      · rintro ⟨h1, h2⟩
        cases a with
        | nil => simp at h1; exact absurd h1.1 h
        | cons d a =>
          simp only [List.cons_append, List.cons.injEq] at h1
          simp only [List.mem_cons, not_or] at h2
          have := ih.2 ⟨h1.2, h2.2⟩
          rw [this]; exact ⟨by rw [h1.1], rfl⟩

theorem isNegNumber_iff (w : String) : isNegNumber w.toList = true ↔ NegativeNumber w := by
  unfold NegativeNumber
  generalize w.toList = l
  cases l with
  | nil => simp [isNegNumber]
  | cons c cs =>
    by_cases hc : c = '-'
    swap
    · simp only [List.cons.injEq, hc, false_and, or_self, and_false, exists_false, iff_false, Bool.not_eq_true]
      unfold isNegNumber
      split
      · rename_i h; exact absurd (List.cons.inj h).1 hc
      · rfl
    · subst hc
      simp only [isNegNumber, Bool.or_eq_true, Bool.and_eq_true, Bool.not_eq_true', List.isEmpty_eq_false_iff, List.all_eq_true,
        List.cons.injEq, true_and]
      constructor
      · rintro (⟨h1, h2⟩ | h)
        · exact ⟨[], cs, by simp, h2, h1, Or.inl rfl⟩
        · split at h
          · rename_i ds hd
            simp only [Bool.and_eq_true, Bool.not_eq_true', List.isEmpty_eq_false_iff, List.all_eq_true] at h
            refine ⟨cs.takeWhile Char.isDigit, ds, fun c hc => List.mem_takeWhile_imp hc, h.2, h.1, Or.inr ?_⟩
            rw [← hd, List.takeWhile_append_dropWhile]
          · cases h
      · rintro ⟨a, b, ha, hb, hne, (rfl | rfl)⟩
        · exact Or.inl ⟨hne, hb⟩
        · right
          rw [List.dropWhile_append_of_pos (by simpa using ha)]
          have : List.dropWhile Char.isDigit ('.' :: b) = '.' :: b := by
            rw [List.dropWhile_cons_of_neg (by decide)]
          rw [this]
          simp only [Bool.and_eq_true, Bool.not_eq_true', List.isEmpty_eq_false_iff, List.all_eq_true]
          exact ⟨hne, hb⟩

variable {opts : List Opt}

theorem eq_of_name (h : Sensible opts) {o o' : Opt} (ho : o ∈ opts) (ho' : o' ∈ opts) (e : o.name = o'.name) : o = o' :=
  List.inj_on_of_nodup_map h.1 ho ho' e

theorem find_name (h : Sensible opts) {o : Opt} {l : List Char} :
    opts.find? (fun o => o.name.toList = l) = some o ↔ o ∈ opts ∧ o.name.toList = l := by
  constructor
  · intro hf
    exact ⟨List.mem_of_find?_eq_some hf, by simpa using List.find?_some hf⟩
  · rintro ⟨ho, rfl⟩
    cases hf : opts.find? (fun o' => o'.name.toList = o.name.toList) with
    | none => have := List.find?_eq_none.1 hf o ho; simp at this
    | some o' =>
      have h1 := List.mem_of_find?_eq_some hf
      have h2 : o'.name.toList = o.name.toList := by simpa using List.find?_some hf
      rw [eq_of_name h h1 ho (String.toList_inj.1 h2)]

theorem filter_single (h : Sensible opts) {o : Opt} {l : List Char} :
    opts.filter (fun o => l.isPrefixOf o.name.toList) = [o] ↔ o ∈ opts ∧ ∀ o' ∈ opts, l <+: o'.name.toList ↔ o' = o := by
  have hnd : opts.Nodup := List.Nodup.of_map _ h.1
  constructor
  · intro hf
    have hm : ∀ o', o' ∈ opts.filter (fun o => l.isPrefixOf o.name.toList) ↔ o' = o := by intro o'; rw [hf]; simp
    simp only [List.mem_filter, List.isPrefixOf_iff_prefix] at hm
    exact ⟨((hm o).2 rfl).1, fun o' ho' => ⟨fun hp => (hm o').1 ⟨ho', hp⟩, fun e => ((hm o').2 e).2⟩⟩
  · rintro ⟨ho, hu⟩
    have hp : opts.filter (fun o => l.isPrefixOf o.name.toList) = opts.filter (fun o' => decide (o' = o)) := by
      apply List.filter_congr
      intro o' ho'
      rw [Bool.eq_iff_iff, List.isPrefixOf_iff_prefix, hu o' ho']; simp
    rw [hp, show (fun o' => decide (o' = o)) = (fun o' => o' == o) from by funext o'; rw [Bool.eq_iff_iff]; simp]
    rw [List.filter_beq, List.count_eq_one_of_mem hnd ho]; rfl

theorem classify_dashes {t : String} {rest : List Char} (ht : t.toList = '-' :: '-' :: rest) (hr : rest ≠ []) :
    classify opts t = readDash opts t.toList ('-' :: rest) := by
  unfold classify
  rw [ht]
  simp [hr]

theorem readDash_some {t cs : List Char} {o : Opt} (h : opts.find? (fun o => o.name.toList = (splitEq t).1) = some o) :
    readDash opts t cs = .opt o ((splitEq t).2.map String.ofList) := by
  unfold readDash; rw [h]

theorem readDash_none {t cs : List Char} (h : opts.find? (fun o => o.name.toList = (splitEq t).1) = none) :
    readDash opts t cs =
      if cs.head? = some '-' then abbreviation opts (splitEq t) (decide (' ' ∈ cs))
      else if cs.head? = some 'h' then .bad
      else if isNegNumber t || decide (' ' ∈ cs) then .word
      else .bad := by
  unfold readDash; rw [h]

theorem abbreviation_single {p : List Char × Option (List Char)} {b : Bool} {o : Opt}
    (h : opts.filter (fun o => p.1.isPrefixOf o.name.toList) = [o]) : abbreviation opts p b = .opt o (p.2.map String.ofList) := by
  unfold abbreviation; rw [h]

theorem abbreviation_opt {p : List Char × Option (List Char)} {b : Bool} {o : Opt} {e : Option String}
    (h : abbreviation opts p b = .opt o e) :
    opts.filter (fun o => p.1.isPrefixOf o.name.toList) = [o] ∧ e = p.2.map String.ofList := by
  unfold abbreviation at h
  split at h
  · rename_i o' hf; cases h; exact ⟨hf, rfl⟩
  · cases h
  · split_ifs at h

theorem abbreviation_word {p : List Char × Option (List Char)} {b : Bool} :
    abbreviation opts p b = .word ↔ b = true ∧ ∀ o ∈ opts, ¬ p.1 <+: o.name.toList := by
  have hnil : opts.filter (fun o => p.1.isPrefixOf o.name.toList) = [] ↔ ∀ o ∈ opts, ¬ p.1 <+: o.name.toList := by
    rw [List.filter_eq_nil_iff]
    simp only [List.isPrefixOf_iff_prefix]
  rw [← hnil]
  unfold abbreviation
  split
  · rename_i hf; simp [hf]
  · rename_i hf; simp [hf]
  · rename_i hf; cases b <;> simp [hf]

theorem classify_names (h : Sensible opts) {o : Opt} {s : String} (hn : Names opts s o) {t : String} {e : Option (List Char)}
    (ht : splitEq t.toList = (s.toList, e)) : classify opts t = .opt o (e.map String.ofList) := by
  obtain ⟨ho, heq, hs⟩ := hn
  have hpre : "--".toList <+: s.toList := by
    rcases hs with rfl | ⟨hp, _⟩
    · exact (h.2.2 o ho).1
    · exact hp
  obtain ⟨a, ha⟩ := hpre
  have ha' : s.toList = '-' :: '-' :: a := by rw [← ha]; rfl
  have hne : a ≠ [] := by
    rintro rfl
    rcases hs with rfl | ⟨_, _, hu⟩
    · have := (h.2.2 o ho).2.2; rw [ha'] at this; simp at this
    · have hall : ∀ o' ∈ opts, o' = o := by
        intro o' ho'
        refine (hu o' ho').1 ?_
        rw [ha']; exact (h.2.2 o' ho').1
      have hnd : opts.Nodup := List.Nodup.of_map _ h.1
      have : opts.length ≤ 1 := by
        have : opts ⊆ [o] := fun x hx => by simp [hall x hx]
        simpa using (hnd.subperm this).length_le
      have := h.2.1; omega
  have hrest : ∃ rest, t.toList = '-' :: '-' :: rest ∧ rest ≠ [] := by
    cases e with
    | none => obtain ⟨h1, _⟩ := splitEq_none.1 ht; exact ⟨a, by rw [h1, ha'], hne⟩
    | some v => obtain ⟨h1, _⟩ := splitEq_some.1 ht; exact ⟨a ++ '=' :: v, by rw [h1, ha']; rfl, by simp⟩
  obtain ⟨rest, hr1, hr2⟩ := hrest
  rw [classify_dashes hr1 hr2]
  rcases hs with rfl | ⟨_, hno, hu⟩
  · rw [readDash_some (o := o) (by rw [ht]; exact (find_name h).2 ⟨ho, rfl⟩), ht]
  · have hnone : opts.find? (fun o => o.name.toList = (splitEq t.toList).1) = none := by
      rw [List.find?_eq_none]
      intro o' ho'
      have := hno o' ho'
      rw [ht]
      simpa [String.toList_inj] using this
    rw [readDash_none hnone, List.head?_cons, if_pos rfl,
      abbreviation_single (o := o) (by rw [ht]; exact (filter_single h).2 ⟨ho, hu⟩), ht]

/-- How a word is read as an option. -/
theorem classify_opt (h : Sensible opts) {o : Opt} {t : String} {e : Option String} :
    classify opts t = .opt o e ↔ ∃ s, Names opts s o ∧ t = e.elim s (fun v => s ++ "=" ++ v) := by
  constructor
  · intro hc
    have key : ∀ {o' : Opt}, Names opts (String.ofList (splitEq t.toList).1) o' → o' = o → e = (splitEq t.toList).2.map String.ofList →
        ∃ s, Names opts s o ∧ t = e.elim s (fun v => s ++ "=" ++ v) := by
      rintro o' hn rfl rfl
      refine ⟨_, hn, ?_⟩
      cases hd : splitEq t.toList with
      | mk a e' =>
        cases e' with
        | none =>
          obtain ⟨h4, _⟩ := splitEq_none.1 hd
          simp only [Option.map_none, Option.elim_none]
          rw [← h4, String.ofList_toList]
        | some v =>
          obtain ⟨h4, _⟩ := splitEq_some.1 hd
          simp only [Option.map_some, Option.elim_some]
          apply String.toList_inj.1
          rw [h4]; simp
    have hnoeq : '=' ∉ (splitEq t.toList).1 := by
      rw [splitEq_fst]
      intro hm
      simpa using List.mem_takeWhile_imp hm
    cases hl : t.toList with
    | nil => simp [classify, hl] at hc
    | cons c cs =>
      by_cases h1 : c = '-'
      swap
      · simp [classify, hl, h1] at hc
      by_cases h2 : cs = []
      · simp [classify, hl, h1, h2] at hc
      by_cases h3 : cs = ['-']
      · simp [classify, hl, h1, h3] at hc
      have hc : readDash opts t.toList cs = .opt o e := by
        rw [← hc]; unfold classify; rw [hl]; simp [h1, h2, h3]
      cases hf : opts.find? (fun o => o.name.toList = (splitEq t.toList).1) with
      | some o' =>
        rw [readDash_some hf] at hc
        cases hc
        obtain ⟨ho', hn'⟩ := (find_name h).1 hf
        exact key ⟨ho', by rw [String.toList_ofList]; exact hnoeq, Or.inl (by rw [← hn', String.ofList_toList])⟩ rfl rfl
      | none =>
        rw [readDash_none hf] at hc
        by_cases h5 : cs.head? = some '-'
        · rw [if_pos h5] at hc
          obtain ⟨hfil, he⟩ := abbreviation_opt hc
          obtain ⟨ho', hu⟩ := (filter_single h).1 hfil
          refine key ⟨ho', by rw [String.toList_ofList]; exact hnoeq, Or.inr ⟨?_, ?_, ?_⟩⟩ rfl he
          · rw [String.toList_ofList, splitEq_fst]
            cases cs with
            | nil => simp at h5
            | cons d cs =>
              simp only [List.head?_cons, Option.some.injEq] at h5
              rw [hl, h1, h5]
              rw [List.takeWhile_cons_of_pos (by decide), List.takeWhile_cons_of_pos (by decide)]
              exact ⟨List.takeWhile (fun x => decide (x ≠ '=')) cs, by simp⟩
          · intro o'' ho'' e''
            have := List.find?_eq_none.1 hf o'' ho''
            apply this
            rw [e'', String.toList_ofList]; simp
          · rw [String.toList_ofList]; exact hu
        · rw [if_neg h5] at hc
          split_ifs at hc
  · rintro ⟨s, hn, rfl⟩
    cases e with
    | none => exact classify_names h hn (e := none) (splitEq_none.2 ⟨rfl, hn.2.1⟩)
    | some v =>
      have := classify_names h hn (t := s ++ "=" ++ v) (e := some v.toList) (splitEq_some.2 ⟨by simp, hn.2.1⟩)
      simp only [Option.elim_some]
      rw [this]; simp

/-- Which words are plain. -/
theorem classify_word (h : Sensible opts) {t : String} : classify opts t = .word ↔ Plain opts t := by
  unfold Plain
  cases hl : t.toList with
  | nil => simp [classify, hl]
  | cons c cs =>
    by_cases h1 : c = '-'
    swap
    · simp [classify, hl, h1]
    subst h1
    have hd : t = "-" ↔ cs = [] := by
      rw [← String.toList_inj, hl]; simp
    by_cases h2 : cs = []
    · simp [classify, hl, h2, hd]
    have hnn := isNegNumber_iff t
    rw [hl] at hnn
    cases cs with
    | nil => exact absurd rfl h2
    | cons d ds =>
      by_cases hdd : d = '-'
      · subst hdd
        have hneg : ¬ NegativeNumber t := by
          rw [← hnn]
          simp [isNegNumber]
        simp only [hneg, hd, List.head?_cons, ne_eq, not_true_eq_false, false_or, reduceCtorEq]
        by_cases hds : ds = []
        · subst hds
          simp [classify, hl]
        · have hh : ¬ "-h".toList <+: '-' :: '-' :: ds := by
            rintro ⟨x, hx⟩
            have : '-' :: 'h' :: x = '-' :: '-' :: ds := hx
            simp at this
          have hp : "--".toList <+: '-' :: '-' :: ds := ⟨ds, rfl⟩
          simp only [hh, hp, not_false_iff, true_and]
          rw [classify_dashes hl hds]
          cases hf : opts.find? (fun o => o.name.toList = (splitEq t.toList).1) with
          | some o =>
            rw [readDash_some hf]
            simp only [reduceCtorEq, false_iff, not_and, not_forall, not_not]
            intro _
            obtain ⟨ho, hn⟩ := (find_name h).1 hf
            refine ⟨o, ho, ?_⟩
            rw [hn, splitEq_fst, hl]
          | none =>
            rw [readDash_none hf, List.head?_cons, if_pos rfl, abbreviation_word, splitEq_fst, hl]
            simp
      · have hp : ¬ "--".toList <+: '-' :: d :: ds := by
          rintro ⟨x, hx⟩
          have : '-' :: '-' :: x = '-' :: d :: ds := hx
          simp at this; exact hdd this.1.symm
        have hfind : opts.find? (fun o => o.name.toList = (splitEq ('-' :: d :: ds)).1) = none := by
          rw [List.find?_eq_none]
          intro o ho he
          have he := of_decide_eq_true he
          obtain ⟨x, hx⟩ := (h.2.2 o ho).1
          have hx : '-' :: '-' :: x = o.name.toList := hx
          rw [← hx, splitEq_fst, List.takeWhile_cons_of_pos (by decide)] at he
          by_cases hde : d = '='
          · rw [List.takeWhile_cons_of_neg (by simp [hde])] at he; simp at he
          · rw [List.takeWhile_cons_of_pos (by simp [hde])] at he
            simp at he; exact hdd he.1.symm
        have hh : "-h".toList <+: '-' :: d :: ds ↔ d = 'h' := by
          constructor
          · rintro ⟨x, hx⟩
            have : '-' :: 'h' :: x = '-' :: d :: ds := hx
            simp at this; exact this.1.symm
          · rintro rfl; exact ⟨ds, rfl⟩
        have hhn : d = 'h' → ¬ NegativeNumber t := by
          rintro rfl
          rw [← hnn]; simp [isNegNumber]
        have hc : classify opts t = readDash opts ('-' :: d :: ds) (d :: ds) := by
          unfold classify
          rw [hl]; simp [hdd]
        rw [hc, readDash_none hfind]
        simp only [hd, hh, hp, false_and, not_false_iff, implies_true, and_true, ← hnn]
        rw [← hnn] at hhn
        by_cases hdh : d = 'h'
        · have := hhn hdh; simp [hdh]; simpa [hdh] using this
        · by_cases hng : isNegNumber ('-' :: d :: ds) = true
          · simp [hdd, hdh, hng]
          · simp [hdd, hdh, hng]
            tauto

theorem items_cons_word {p : Pending} {t : String} {ts : List String} (hc : classify opts t = .word) :
    items opts p (t :: ts) = (feed p t).bind fun a => (items opts a.2 ts).bind fun r => some (a.1 ++ r) := by
  rw [items, hc]; rfl

theorem items_cons_opt {p : Pending} {t : String} {ts : List String} {o : Opt} {e : Option String} (hc : classify opts t = .opt o e) :
    items opts p (t :: ts) =
      (flush p).bind fun a => (openOpt o e).bind fun b => (items opts b.2 ts).bind fun r => some (a ++ b.1 ++ r) := by
  rw [items, hc]; rfl

theorem items_cons_bad {p : Pending} {t : String} {ts : List String} (hc : classify opts t = .bad) : items opts p (t :: ts) = none := by
  rw [items, hc]

/-- A waiting list option takes the plain words that follow. -/
theorem items_many {o : Opt} {ws : List String} {argv : List String} {its : List Item} :
    items opts (.many o ws) argv = some its ↔
      ∃ vs rest its', argv = vs ++ rest ∧ ws ++ vs ≠ [] ∧ (∀ v ∈ vs, classify opts v = .word) ∧
        (∀ w ∈ rest.head?, classify opts w ≠ .word) ∧ its = (o, ws ++ vs) :: its' ∧ items opts .idle rest = some its' := by
  induction argv generalizing ws its with
  | nil =>
    simp only [items, flush]
    constructor
    · intro h
      split_ifs at h with hw
      cases h
      exact ⟨[], [], [], rfl, by simpa using hw, by simp, by simp, by simp, rfl⟩
    · rintro ⟨vs, rest, its', h1, h2, _, _, rfl, h4⟩
      have := List.append_eq_nil_iff.1 h1.symm
      obtain ⟨rfl, rfl⟩ := this
      simp only [items, flush, Option.some.injEq] at h4
      subst h4
      rw [List.append_nil] at h2 ⊢
      rw [if_neg h2]
  | cons t ts ih =>
    cases hc : classify opts t with
    | bad =>
      rw [items_cons_bad hc]
      simp only [reduceCtorEq, false_iff]
      rintro ⟨vs, rest, its', h1, h2, h3, h4, rfl, h5⟩
      cases vs with
      | nil => rw [List.nil_append] at h1; subst h1; rw [items_cons_bad hc] at h5; cases h5
      | cons v vs =>
        simp only [List.cons_append, List.cons.injEq] at h1
        have := h3 v (by simp)
        rw [← h1.1, hc] at this; cases this
    | word =>
      rw [items_cons_word hc]
      simp only [feed, Option.bind_some, List.nil_append]
      rw [show ((items opts (.many o (ws ++ [t])) ts).bind fun r => some r) = items opts (.many o (ws ++ [t])) ts by cases items opts (.many o (ws ++ [t])) ts <;> rfl]
      rw [ih]
      constructor
      · rintro ⟨vs, rest, its', rfl, h2, h3, h4, rfl, h5⟩
        refine ⟨t :: vs, rest, its', rfl, by simp, ?_, h4, by simp, h5⟩
        intro v hv
        rcases List.mem_cons.1 hv with rfl | hv
        · exact hc
        · exact h3 v hv
      · rintro ⟨vs, rest, its', h1, h2, h3, h4, rfl, h5⟩
        cases vs with
        | nil =>
          rw [List.nil_append] at h1; subst h1
          exact absurd hc (h4 t (by simp))
        | cons v vs =>
          simp only [List.cons_append, List.cons.injEq] at h1
          obtain ⟨rfl, rfl⟩ := h1
          exact ⟨vs, rest, its', rfl, by simp, fun w hw => h3 w (by simp [hw]), h4, by simp, h5⟩
    | opt o' e =>
      have hw : (∃ vs rest its', t :: ts = vs ++ rest ∧ ws ++ vs ≠ [] ∧ (∀ v ∈ vs, classify opts v = .word) ∧
          (∀ w ∈ rest.head?, classify opts w ≠ .word) ∧ its = (o, ws ++ vs) :: its' ∧ items opts .idle rest = some its') ↔
          ws ≠ [] ∧ ∃ its', its = (o, ws) :: its' ∧ items opts .idle (t :: ts) = some its' := by
        constructor
        · rintro ⟨vs, rest, its', h1, h2, h3, h4, rfl, h5⟩
          cases vs with
          | nil => rw [List.nil_append] at h1; subst h1; exact ⟨by simpa using h2, its', by simp, h5⟩
          | cons v vs =>
            simp only [List.cons_append, List.cons.injEq] at h1
            have := h3 v (by simp)
            rw [← h1.1, hc] at this; cases this
        · rintro ⟨h2, its', rfl, h5⟩
          exact ⟨[], t :: ts, its', rfl, by simpa using h2, by simp, by simp [hc], by simp, h5⟩
      rw [hw, items_cons_opt hc, items_cons_opt hc]
      simp only [flush]
      by_cases hws : ws = []
      · simp [hws]
      · simp only [Option.bind_some, ne_eq, hws, not_false_iff, true_and, List.nil_append]
        cases openOpt o' e with
        | none => simp
        | some b =>
          simp only [Option.bind_some]
          cases items opts b.2 ts with
          | none => simp
          | some r => simp [eq_comm]

theorem items_one {o : Opt} {argv : List String} {its : List Item} :
    items opts (.one o) argv = some its ↔
      ∃ v rest its', argv = v :: rest ∧ classify opts v = .word ∧ its = (o, [v]) :: its' ∧ items opts .idle rest = some its' := by
  cases argv with
  | nil => simp [items, flush]
  | cons t ts =>
    cases hc : classify opts t with
    | bad => rw [items_cons_bad hc]; simp [hc]
    | opt o' e => rw [items_cons_opt hc]; simp [hc, flush]
    | word =>
      rw [items_cons_word hc]
      simp only [feed, Option.bind_some, List.cons.injEq]
      cases hi : items opts .idle ts with
      | none =>
        simp only [Option.bind_none, reduceCtorEq, false_iff]
        rintro ⟨v, rest, its', ⟨rfl, rfl⟩, _, _, h⟩
        rw [hi] at h; cases h
      | some r =>
        simp only [Option.bind_some, Option.some.injEq, List.singleton_append]
        constructor
        · rintro rfl; exact ⟨t, ts, r, ⟨rfl, rfl⟩, hc, rfl, hi⟩
        · rintro ⟨v, rest, its', ⟨rfl, rfl⟩, _, rfl, h⟩
          rw [hi] at h; cases h; rfl

/-- The walk over the command line accepts exactly the readings of the specification. -/
theorem items_iff (h : Sensible opts) {argv : List String} {its : List Item} :
    items opts .idle argv = some its ↔ Reads opts argv its := by
  constructor
  · intro hi
    induction hn : argv.length using Nat.strong_induction_on generalizing argv its with
    | _ n ih =>
      subst hn
      cases argv with
      | nil => simp only [items, flush, Option.some.injEq] at hi; subst hi; exact .nil
      | cons t ts =>
        cases hc : classify opts t with
        | bad => rw [items_cons_bad hc] at hi; cases hi
        | word => rw [items_cons_word hc] at hi; simp [feed] at hi
        | opt o e =>
          obtain ⟨s, hn, ht⟩ := (classify_opt h).1 hc
          rw [items_cons_opt hc] at hi
          simp only [flush, Option.bind_some, List.nil_append] at hi
          have hbind : ∃ b, openOpt o e = some b ∧ ∃ r, items opts b.2 ts = some r ∧ its = b.1 ++ r := by
            cases hb : openOpt o e with
            | none => rw [hb] at hi; cases hi
            | some b =>
              rw [hb] at hi
              simp only [Option.bind_some] at hi
              cases hr : items opts b.2 ts with
              | none => rw [hr] at hi; cases hi
              | some r => rw [hr] at hi; simp only [Option.bind_some, Option.some.injEq] at hi; exact ⟨b, rfl, r, hr, hi.symm⟩
          obtain ⟨b, hb, r, hr, rfl⟩ := hbind
          have hval : ∀ v, e = some v → (TakesOne o ∨ o.action = .words) → b = ([(o, [v])], .idle) →
              Reads opts (t :: ts) (b.1 ++ r) := by
            rintro v rfl hto rfl
            rw [ht]
            exact .equals hn hto (ih ts.length (by simp) hr rfl)
          have hone : e = none → TakesOne o → b = ([], .one o) → Reads opts (t :: ts) (b.1 ++ r) := by
            rintro rfl hto rfl
            obtain ⟨v, rest, its', rfl, hv, rfl, hrest⟩ := items_one.1 hr
            rw [ht]
            exact .value hn hto ((classify_word h).1 hv) (ih rest.length (by simp) hrest rfl)
          cases ha : o.action <;> cases e <;> simp only [openOpt, ha, Option.some.injEq, reduceCtorEq] at hb
          · subst hb
            rw [ht]
            exact .flag hn ha (ih ts.length (by simp) hr rfl)
          · exact hone rfl (Or.inl ha) hb.symm
          · exact hval _ rfl (Or.inl (Or.inl ha)) hb.symm
          · exact hone rfl (Or.inr (Or.inl ha)) hb.symm
          · exact hval _ rfl (Or.inl (Or.inr (Or.inl ha))) hb.symm
          · exact hone rfl (Or.inr (Or.inr ha)) hb.symm
          · exact hval _ rfl (Or.inl (Or.inr (Or.inr ha))) hb.symm
          · subst hb
            obtain ⟨vs, rest, its', rfl, hne, hvs, hrest, rfl, hi'⟩ := items_many.1 hr
            rw [ht]
            exact .list hn ha (by simpa using hne) (fun v hv => (classify_word h).1 (hvs v hv))
              (fun w hw hp => hrest w hw ((classify_word h).2 hp)) (ih rest.length (by simp) hi' rfl)
          · exact hval _ rfl (Or.inr ha) hb.symm
  · intro hr
    induction hr with
    | nil => rfl
    | @flag s o rest its hn ha _ ih =>
      rw [items_cons_opt ((classify_opt h).2 ⟨s, hn, rfl⟩ : classify opts s = .opt o none)]
      simp [flush, openOpt, ha, ih]
    | @value s o v rest its hn hto hp _ ih =>
      rw [items_cons_opt ((classify_opt h).2 ⟨s, hn, rfl⟩ : classify opts s = .opt o none)]
      have : openOpt o none = some ([], .one o) := by rcases hto with ha | ha | ha <;> simp [openOpt, ha]
      have hi := (items_one (o := o)).2 ⟨v, rest, its, rfl, (classify_word h).2 hp, rfl, ih⟩
      simp [flush, this, hi]
    | @equals s o v rest its hn hto _ ih =>
      rw [items_cons_opt ((classify_opt h).2 ⟨s, hn, rfl⟩ : classify opts (s ++ "=" ++ v) = .opt o (some v))]
      have : openOpt o (some v) = some ([(o, [v])], .idle) := by
        rcases hto with (ha | ha | ha) | ha <;> simp [openOpt, ha]
      simp [flush, this, ih]
    | @list s o vs rest its hn ha hne hvs hrest _ ih =>
      rw [items_cons_opt ((classify_opt h).2 ⟨s, hn, rfl⟩ : classify opts s = .opt o none)]
      have : openOpt o none = some ([], .many o []) := by simp [openOpt, ha]
      have hi := (items_many (o := o) (ws := [])).2 ⟨vs, rest, its, rfl, by simpa using hne, fun v hv => (classify_word h).2 (hvs v hv),
        fun w hw hc => hrest w hw ((classify_word h).1 hc), rfl, ih⟩
      simp [flush, this, hi]

theorem reads_mem {argv : List String} {its : List Item} (hr : Reads opts argv its) {i : Item} (hi : i ∈ its) :
    i.1 ∈ opts ∧ i.1.action ≠ .help ∧ (i.1.action = .flag → i.2 = []) ∧ (TakesOne i.1 → ∃ w, i.2 = [w]) := by
  induction hr with
  | nil => cases hi
  | flag hn ha _ ih =>
    rcases List.mem_cons.1 hi with rfl | hi
    · exact ⟨hn.1, by simp [ha], fun _ => rfl, fun h => by simp [TakesOne, ha] at h⟩
    · exact ih hi
  | @value s o v rest its hn hto hp _ ih =>
    rcases List.mem_cons.1 hi with rfl | hi
    · exact ⟨hn.1, by rcases hto with ha | ha | ha <;> simp [ha], fun h => by rcases hto with ha | ha | ha <;> simp [ha] at h, fun _ => ⟨v, rfl⟩⟩
    · exact ih hi
  | @equals s o v rest its hn hto _ ih =>
    rcases List.mem_cons.1 hi with rfl | hi
    · exact ⟨hn.1, by rcases hto with (ha | ha | ha) | ha <;> simp [ha], fun h => by rcases hto with (ha | ha | ha) | ha <;> simp [ha] at h,
        fun _ => ⟨v, rfl⟩⟩
    · exact ih hi
  | list hn ha _ _ _ _ ih =>
    rcases List.mem_cons.1 hi with rfl | hi
    · exact ⟨hn.1, by simp [ha], fun h => by simp [ha] at h, fun h => by simp [TakesOne, ha] at h⟩
    · exact ih hi

end GW.Cli
