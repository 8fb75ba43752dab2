import Verif.Lemmas.Argparse
import Verif.Spec.Programs
import Verif.Props.HybridNames

/-!
# C84: what is asked for on the command line is what is run
-/

namespace GW.Cli
open GW.CliSpec GW.Hybrids GW.PyDict

section Parser
variable {opts : List Opt} {cv : Conv}

/-- **C84** (reading).  For every sensible option table and every command line: the program starts exactly if the words form a sequence of
options with their values, every value converts, no two exclusive options are given and no required option is missing, and then those options
are what it gets. -/
theorem C84_reading (h : Sensible opts) {argv : List String} {its : List Item} :
    parse opts cv argv = some its ↔ Reads opts argv its ∧ Convertible cv its ∧ NoConflict its ∧ Complete opts its := by
  unfold parse
  cases hi : items opts .idle argv with
  | none =>
    simp only [reduceCtorEq, false_iff, not_and]
    intro hr
    rw [← items_iff h, hi] at hr; cases hr
  | some its' =>
    have hr := (items_iff h).1 hi
    have hconv : its'.any (fun i => (convert cv i).isNone) = false ↔ Convertible cv its' := by
      rw [List.any_eq_false]
      constructor
      · intro hall i hm w
        have := hall i hm
        refine ⟨fun ha hw => ?_, fun ha hw => ?_⟩
        · simp only [convert, ha, hw] at this
          cases hc : cv.int w with
          | none => simp [hc] at this
          | some n => exact ⟨n, rfl⟩
        · simp only [convert, ha, hw] at this
          cases hc : cv.float w with
          | none => simp [hc] at this
          | some n => exact ⟨n, rfl⟩
      · intro hall i hm
        obtain ⟨_, h1, h2, h3⟩ := reads_mem hr hm
        cases ha : i.1.action with
        | help => exact absurd ha h1
        | flag => simp [convert, ha, h2 ha]
        | str => obtain ⟨w, hw⟩ := h3 (Or.inr (Or.inr ha)); simp [convert, ha, hw]
        | words => simp [convert, ha]
        | int =>
          obtain ⟨w, hw⟩ := h3 (Or.inl ha)
          obtain ⟨n, hn⟩ := (hall i hm w).1 ha hw
          simp [convert, ha, hw, hn]
        | float =>
          obtain ⟨w, hw⟩ := h3 (Or.inr (Or.inl ha))
          obtain ⟨n, hn⟩ := (hall i hm w).2 ha hw
          simp [convert, ha, hw, hn]
    have hconf : its'.any (fun i => its'.any (conflict i)) = false ↔ NoConflict its' := by
      simp only [List.any_eq_false, NoConflict, conflict, Bool.and_eq_true, decide_eq_true_eq, not_and, not_not, Option.isSome_iff_ne_none,
        Bool.not_eq_true]
      constructor
      · intro hall i hm j hj hg he
        exact eq_of_name h (reads_mem hr hm).1 (reads_mem hr hj).1 (hall i hm j hj ⟨hg, he⟩)
      · intro hall i hm j hj hg
        rw [hall i hm j hj hg.1 hg.2]
    have hreq : opts.any (fun o => o.required && !its'.any (fun i => i.1.name = o.name)) = false ↔ Complete opts its' := by
      rw [List.any_eq_false]
      simp only [Complete, Bool.and_eq_true, Bool.not_eq_true', not_and, Bool.not_eq_false, List.any_eq_true, decide_eq_true_eq]
      constructor
      · intro hall o ho hq
        obtain ⟨i, hm, hn⟩ := hall o ho hq
        refine ⟨i.2, ?_⟩
        rw [← eq_of_name h (reads_mem hr hm).1 ho hn]; exact hm
      · intro hall o ho hq
        obtain ⟨ws, hm⟩ := hall o ho hq
        exact ⟨_, hm, rfl⟩
    have huniq : ∀ its, Reads opts argv its ↔ its = its' := by
      intro its
      rw [← items_iff h, hi]; simp [eq_comm]
    simp only [huniq]
    constructor
    · intro hp
      split_ifs at hp with c1 c2 c3
      cases hp
      exact ⟨rfl, hconv.1 (by simpa using c1), hconf.1 (by simpa using c2), hreq.1 (by simpa using c3)⟩
    · rintro ⟨rfl, c1, c2, c3⟩
      rw [hconv.2 c1, hconf.2 c2, hreq.2 c3]; rfl

theorem getLast_filter {its : List Item} {o : Opt} (hin : ∀ i ∈ its, i.1.name = o.name → i.1 = o) :
    ((its.filter fun i => i.1.name = o.name).getLast? = none ↔ ∀ ws, (o, ws) ∉ its) ∧
    ∀ i, (its.filter fun i => i.1.name = o.name).getLast? = some i →
      ∃ pre post, its = pre ++ (o, i.2) :: post ∧ ∀ ws, (o, ws) ∉ post := by
  constructor
  · rw [List.getLast?_eq_none_iff, List.filter_eq_nil_iff]
    constructor
    · intro hall ws hm; exact hall _ hm (by simp)
    · intro hall i hm hn
      have := hin i hm (by simpa using hn)
      exact hall i.2 (by rw [← this]; exact hm)
  · induction its with
    | nil => simp
    | cons j its ih =>
      intro i hi
      by_cases hne : (its.filter fun i => i.1.name = o.name) = []
      · have hall : ∀ ws, (o, ws) ∉ its := by
          intro ws hm
          rw [List.filter_eq_nil_iff] at hne
          exact hne _ hm (by simp)
        by_cases hj : j.1.name = o.name
        · rw [List.filter_cons_of_pos (by simpa using hj), hne] at hi
          simp only [List.getLast?_singleton, Option.some.injEq] at hi
          subst hi
          refine ⟨[], its, ?_, hall⟩
          rw [List.nil_append, ← hin j (by simp) hj]
        · rw [List.filter_cons_of_neg (by simpa using hj), hne] at hi
          simp at hi
      · have hi' : (its.filter fun i => i.1.name = o.name).getLast? = some i := by
          by_cases hj : j.1.name = o.name
          · rw [List.filter_cons_of_pos (by simpa using hj), List.getLast?_cons] at hi
            cases hg : (its.filter fun i => i.1.name = o.name).getLast? with
            | none => rw [List.getLast?_eq_none_iff] at hg; exact absurd hg hne
            | some k => rw [hg] at hi; simpa using hi
          · rw [List.filter_cons_of_neg (by simpa using hj)] at hi; exact hi
        obtain ⟨pre, post, hp, hq⟩ := ih (fun i hm => hin i (by simp [hm])) i hi'
        exact ⟨j :: pre, post, by rw [hp]; rfl, hq⟩

/-- **C84** (values).  The value of every option is what was given last, or its default; a flag is on exactly if it was given; a list option
collects everything given. -/
theorem C84_value (h : Sensible opts) {argv : List String} {its : List Item} (hp : parse opts cv argv = some its) {o : Opt} (ho : o ∈ opts)
    (hh : o.action ≠ .help) : IsValue cv its o (value cv its o) := by
  obtain ⟨hr, hc, _, _⟩ := (C84_reading h).1 hp
  have hin : ∀ i ∈ its, i.1.name = o.name → i.1 = o := fun i hm hn => eq_of_name h (reads_mem hr hm).1 ho hn
  obtain ⟨hnone, hsome⟩ := getLast_filter hin
  have hmem : ∀ {i pre post}, its = pre ++ (o, i) :: post → (o, i) ∈ its := by rintro i pre post rfl; simp
  unfold IsValue value
  cases ha : o.action with
  | help => exact absurd ha hh
  | flag =>
    refine ⟨_, rfl, ?_⟩
    simp only [Bool.not_eq_true', List.isEmpty_eq_false_iff, ne_eq, List.filter_eq_nil_iff, decide_eq_true_eq, not_forall, not_not]
    constructor
    · rintro ⟨i, hm, hn⟩; exact ⟨i.2, by rw [← hin i hm hn]; exact hm⟩
    · rintro ⟨ws, hm⟩; exact ⟨_, hm, rfl⟩
  | words =>
    simp only
    by_cases hg : (its.filter fun i => decide (i.1.name = o.name)) = []
    · rw [if_pos hg]
      exact Or.inl ⟨hnone.1 (by rw [hg]; rfl), rfl⟩
    · rw [if_neg hg]
      refine Or.inr ⟨?_, ?_⟩
      · by_contra hno
        push Not at hno
        have := hnone.2 hno
        rw [List.getLast?_eq_none_iff] at this; exact hg this
      · congr 1
        clear hnone hsome hmem hg hc hr hp ‹NoConflict its› ‹Complete opts its›
        induction its with
        | nil => rfl
        | cons j its ih =>
          have ih := ih fun i hm => hin i (by simp [hm])
          by_cases hj : j.1.name = o.name
          · rw [List.filter_cons_of_pos (by simpa using hj), List.filterMap_cons_some (by rw [if_pos (hin j (by simp) hj)]), List.map_cons, ih]
          · rw [List.filter_cons_of_neg (by simpa using hj), List.filterMap_cons_none (by rw [if_neg (fun e => hj (by rw [e]))]), ih]
  | int =>
    simp only
    cases hg : (its.filter fun i => decide (i.1.name = o.name)).getLast? with
    | none => exact Or.inl ⟨hnone.1 hg, rfl⟩
    | some i =>
      obtain ⟨pre, post, he, hq⟩ := hsome i hg
      obtain ⟨w, hw⟩ := (reads_mem hr (hmem he)).2.2.2 (Or.inl ha)
      obtain ⟨n, hn⟩ := (hc _ (hmem he) w).1 ha hw
      have hi : i.1 = o := by
        have := List.mem_filter.1 (List.mem_of_getLast? hg)
        exact hin i this.1 (by simpa using this.2)
      simp only at hw
      refine Or.inr ⟨pre, w, post, n, by rw [← hw]; exact he, hq, hn, ?_⟩
      simp [convert, hi, ha, hw, hn]
  | float =>
    simp only
    cases hg : (its.filter fun i => decide (i.1.name = o.name)).getLast? with
    | none => exact Or.inl ⟨hnone.1 hg, rfl⟩
    | some i =>
      obtain ⟨pre, post, he, hq⟩ := hsome i hg
      obtain ⟨w, hw⟩ := (reads_mem hr (hmem he)).2.2.2 (Or.inr (Or.inl ha))
      obtain ⟨n, hn⟩ := (hc _ (hmem he) w).2 ha hw
      have hi : i.1 = o := by
        have := List.mem_filter.1 (List.mem_of_getLast? hg)
        exact hin i this.1 (by simpa using this.2)
      simp only at hw
      refine Or.inr ⟨pre, w, post, n, by rw [← hw]; exact he, hq, hn, ?_⟩
      simp [convert, hi, ha, hw, hn]
  | str =>
    simp only
    cases hg : (its.filter fun i => decide (i.1.name = o.name)).getLast? with
    | none => exact Or.inl ⟨hnone.1 hg, rfl⟩
    | some i =>
      obtain ⟨pre, post, he, hq⟩ := hsome i hg
      obtain ⟨w, hw⟩ := (reads_mem hr (hmem he)).2.2.2 (Or.inr (Or.inr ha))
      have hi : i.1 = o := by
        have := List.mem_filter.1 (List.mem_of_getLast? hg)
        exact hin i this.1 (by simpa using this.2)
      simp only at hw
      refine Or.inr ⟨pre, w, post, by rw [← hw]; exact he, hq, ?_⟩
      simp [convert, hi, ha, hw]

end Parser

/-! ## The programs -/

variable {cv : Conv}

/-- The option tables of the programs are sensible: argparse accepts them, and no option hides another. -/
theorem C84_tables (p : Prog) : Sensible (opts p) := by
  cases p <;> decide +kernel

/-- The wiring of one argument: the keyword is passed the attribute of the option with this name. -/
def wired (p : Prog) (kw name : String) : Bool :=
  match (call p).find? (fun e => e.1 = kw) with
  | none => false
  | some e => match (Cli.opts p).find? (fun o => o.dest = e.2) with
    | none => false
    | some o => o.name = name && o.action ≠ .help

theorem start_ok {p : Prog} {argv : List String} {a : String → Option Val} (hs : start p cv argv = some a) :
    ∃ its, parse (Cli.opts p) cv argv = some its ∧
      ∀ kw, a kw = ((call p).find? (fun e => e.1 = kw)).bind fun e => attr (Cli.opts p) cv its e.2 := by
  unfold start at hs
  cases hp : parse (Cli.opts p) cv argv with
  | none => rw [hp] at hs; cases hs
  | some its => rw [hp] at hs; cases hs; exact ⟨its, rfl, fun _ => rfl⟩

theorem wired_value {p : Prog} {kw name : String} (hw : wired p kw name = true) {its : List Item} :
    ∃ o ∈ Cli.opts p, o.name = name ∧ o.action ≠ .help ∧
      (((call p).find? (fun e => e.1 = kw)).bind fun e => attr (Cli.opts p) cv its e.2) = some (value cv its o) := by
  unfold wired at hw
  cases h1 : (call p).find? (fun e => e.1 = kw) with
  | none => rw [h1] at hw; cases hw
  | some e =>
    rw [h1] at hw
    simp only at hw
    cases h2 : (Cli.opts p).find? (fun o => o.dest = e.2) with
    | none => rw [h2] at hw; cases hw
    | some o =>
      rw [h2] at hw
      simp only [Bool.and_eq_true, decide_eq_true_eq, ne_eq] at hw
      exact ⟨o, List.mem_of_find?_eq_some h2, hw.1, by simpa using hw.2, by simp [attr, h2]⟩

/-- **C84** (acceptance).  Every program starts exactly on the command lines that can be read, convert, have no exclusive pair and no required
option missing. -/
theorem C84_starts_iff (p : Prog) {argv : List String} :
    (∃ a, start p cv argv = some a) ↔
      ∃ its, Reads (Cli.opts p) argv its ∧ Convertible cv its ∧ NoConflict its ∧ Complete (Cli.opts p) its := by
  unfold start
  constructor
  · rintro ⟨a, ha⟩
    cases hp : parse (Cli.opts p) cv argv with
    | none => rw [hp] at ha; cases ha
    | some its => exact ⟨its, (C84_reading (C84_tables p)).1 hp⟩
  · rintro ⟨its, h⟩
    rw [(C84_reading (C84_tables p)).2 h]
    exact ⟨_, rfl⟩

/-- **C84** (settings).  For every program and every command line it accepts: each of its settings has the value of its own option. -/
theorem C84_settings (p : Prog) {argv : List String} {a : String → Option Val} (hs : start p cv argv = some a) {its : List Item}
    (hr : Reads (Cli.opts p) argv its) {kw name : String} (hk : kw ∈ settings p) (hn : (kw, name) ∈ settingOption) :
    ∃ o ∈ Cli.opts p, o.name = name ∧ ∃ v, IsValue cv its o v ∧ a kw = some v := by
  obtain ⟨its', hp, ha⟩ := start_ok hs
  have : its' = its := by
    have h1 := (items_iff (C84_tables p)).2 ((C84_reading (C84_tables p)).1 hp).1
    rw [(items_iff (C84_tables p)).2 hr] at h1; exact (Option.some.inj h1).symm
  subst this
  have hall : (settings p).all (fun kw => settingOption.all fun e => !(e.1 = kw) || wired p kw e.2) = true := by
    cases p <;> decide +kernel
  have h1 := List.all_eq_true.1 (List.all_eq_true.1 hall kw hk) _ hn
  simp only [decide_true, Bool.not_true, Bool.false_or] at h1
  obtain ⟨o, ho, hname, hh, hv⟩ := wired_value (cv := cv) h1 (its := its')
  exact ⟨o, ho, hname, _, C84_value (C84_tables p) hp ho hh, by rw [ha, hv]⟩

/-- Whether an option with this table entry gives values of the type of the setting. -/
def fits (kw : String) (o : Opt) : Bool :=
  match o.action with
  | .int => decide (kw ∈ wholeSettings) && (match o.default with | .none => true | .int _ => true | _ => false)
  | .float => decide (kw ∈ numberSettings) && (match o.default with | .none => true | .float _ => true | _ => false)
  | .str => decide (kw ∈ fileSettings) && (o.required || (match o.default with | .str _ => true | _ => false))
  | .flag => decide (kw ∈ switchSettings)
  | .words => decide (kw ∈ listSettings) && (match o.default with | .none => true | .lists _ => true | _ => false)
  | .help => false

/-- **C84** (types).  For every program and every command line it accepts: each setting is of its type, whole numbers, numbers, file names, switches
and lists of names; nothing is passed on as text that is meant to be a number, and no file name is missing. -/
theorem C84_types (p : Prog) {argv : List String} {a : String → Option Val} (hs : start p cv argv = some a) {kw : String} (hk : kw ∈ settings p) :
    ∃ v, a kw = some v ∧ HasType kw v := by
  have hcov : ((settings p).all fun kw => settingOption.any fun e => e.1 = kw) = true := by cases p <;> decide +kernel
  obtain ⟨e, he, hek⟩ := List.any_eq_true.1 (List.all_eq_true.1 hcov kw hk)
  have hek : e.1 = kw := by simpa using hek
  obtain ⟨its, hp, _⟩ := start_ok hs
  obtain ⟨hr, _, _, hcomp⟩ := (C84_reading (C84_tables p)).1 hp
  obtain ⟨o, ho, hname, v, hv, hav⟩ := C84_settings p hs hr hk (name := e.2) (by rw [← hek]; exact he)
  refine ⟨v, hav, ?_⟩
  have hall : ((settings p).all fun kw => settingOption.all fun e => !(e.1 = kw) || (Cli.opts p).all fun o => !(o.name = e.2) || fits kw o) = true := by
    cases p <;> decide +kernel
  have h1 := List.all_eq_true.1 (List.all_eq_true.1 hall kw hk) e he
  simp only [hek, decide_true, Bool.not_true, Bool.false_or] at h1
  have h2 := List.all_eq_true.1 h1 o ho
  simp only [hname, decide_true, Bool.not_true, Bool.false_or] at h2
  unfold IsValue at hv
  unfold fits at h2
  unfold HasType
  cases hact : o.action with
  | help => rw [hact] at hv; exact hv.elim
  | flag =>
    rw [hact] at hv h2
    obtain ⟨b, rfl, _⟩ := hv
    exact Or.inr (Or.inr (Or.inr (Or.inl ⟨by simpa using h2, b, rfl⟩)))
  | words =>
    rw [hact] at hv h2
    simp only [Bool.and_eq_true, decide_eq_true_eq] at h2
    refine Or.inr (Or.inr (Or.inr (Or.inr ⟨h2.1, ?_⟩)))
    rcases hv with ⟨_, rfl⟩ | ⟨_, rfl⟩
    · cases hd : o.default <;> simp_all
    · exact Or.inr ⟨_, rfl⟩
  | int =>
    rw [hact] at hv h2
    simp only [Bool.and_eq_true, decide_eq_true_eq] at h2
    refine Or.inl ⟨h2.1, ?_⟩
    rcases hv with ⟨_, rfl⟩ | ⟨_, _, _, n, _, _, _, rfl⟩
    · cases hd : o.default <;> simp_all
    · exact Or.inr ⟨n, rfl⟩
  | float =>
    rw [hact] at hv h2
    simp only [Bool.and_eq_true, decide_eq_true_eq] at h2
    refine Or.inr (Or.inl ⟨h2.1, ?_⟩)
    rcases hv with ⟨_, rfl⟩ | ⟨_, _, _, n, _, _, _, rfl⟩
    · cases hd : o.default <;> simp_all
    · exact Or.inr ⟨n, rfl⟩
  | str =>
    rw [hact] at hv h2
    simp only [Bool.and_eq_true, decide_eq_true_eq, Bool.or_eq_true] at h2
    refine Or.inr (Or.inr (Or.inl ⟨h2.1, ?_⟩))
    rcases hv with ⟨hno, rfl⟩ | ⟨_, w, _, _, _, rfl⟩
    · rcases h2.2 with hq | hq
      · obtain ⟨ws, hm⟩ := hcomp o ho hq; exact absurd hm (hno ws)
      · cases hd : o.default <;> simp_all
    · exact ⟨w, rfl⟩

/-- **C84** (defaults).  A setting whose option is not given has the default the program prints. -/
theorem C84_defaults (p : Prog) {argv : List String} {a : String → Option Val} (hs : start p cv argv = some a) {its : List Item}
    (hr : Reads (Cli.opts p) argv its) {kw name : String} {d : Val} (hk : kw ∈ settings p) (hn : (kw, name) ∈ settingOption)
    (hd : (name, d) ∈ documentedDefault) (hno : ∀ i ∈ its, i.1.name ≠ name) : a kw = some d := by
  obtain ⟨o, ho, hname, v, hv, hav⟩ := C84_settings p hs hr hk hn
  rw [hav]
  congr 1
  have hnot : ∀ ws, (o, ws) ∉ its := fun ws hm => hno _ hm hname
  have hall : (Cli.opts p).all (fun o => documentedDefault.all fun e => !(e.1 = o.name) ||
      if o.action = .flag then e.2 = .bool false else e.2 = o.default) = true := by
    cases p <;> decide +kernel
  have h1 := List.all_eq_true.1 (List.all_eq_true.1 hall o ho) _ hd
  simp only [hname, decide_true, Bool.not_true, Bool.false_or] at h1
  unfold IsValue at hv
  cases ha : o.action with
  | help => rw [ha] at hv; exact hv.elim
  | flag =>
    rw [ha] at hv
    obtain ⟨b, rfl, hb⟩ := hv
    have : b = false := by
      cases b with
      | false => rfl
      | true => obtain ⟨ws, hm⟩ := hb.1 rfl; exact absurd hm (hnot ws)
    rw [this]
    have h2 : d = .bool false := by simpa [ha] using h1
    exact h2.symm
  | words | int | float | str =>
    rw [ha] at hv h1
    have hdef : d = o.default := by simpa using h1
    rcases hv with ⟨_, rfl⟩ | hv
    · exact hdef.symm
    · first
      | (obtain ⟨⟨ws, hm⟩, _⟩ := hv; exact absurd hm (hnot ws))
      | (obtain ⟨pre, w, post, n, he, _⟩ := hv; exact absurd (by rw [he]; simp) (hnot [w]))
      | (obtain ⟨pre, w, post, he, _⟩ := hv; exact absurd (by rw [he]; simp) (hnot [w]))

/-- **C84** (required options).  A program that starts was given each of the options it cannot do without, and only those are required; every
other setting of a program, except the numbers of components, has a documented default. -/
theorem C84_required (p : Prog) : (∀ o ∈ Cli.opts p, o.required = true ↔ o.name ∈ requiredOptions p) ∧
    (∀ name ∈ requiredOptions p, ∃ o ∈ Cli.opts p, o.name = name) ∧
    (∀ kw ∈ settings p, ∀ name, (kw, name) ∈ settingOption →
      name ∈ requiredOptions p ∨ name ∈ ["--n-pl", "--n-bpl", "--n-g"] ∨ ∃ d, (name, d) ∈ documentedDefault) := by
  have h1 : ((Cli.opts p).all fun o => o.required == decide (o.name ∈ requiredOptions p)) = true := by cases p <;> decide +kernel
  have h2 : ((requiredOptions p).all fun n => (Cli.opts p).any fun o => o.name = n) = true := by cases p <;> decide +kernel
  have h3 : ((settings p).all fun kw => settingOption.all fun e => !(e.1 = kw) || decide (e.2 ∈ requiredOptions p) ||
      decide (e.2 ∈ ["--n-pl", "--n-bpl", "--n-g"]) || documentedDefault.any fun d => d.1 = e.2) = true := by cases p <;> decide +kernel
  refine ⟨fun o ho => ?_, fun n hn => ?_, fun kw hk name hn => ?_⟩
  · have := List.all_eq_true.1 h1 o ho
    rw [beq_iff_eq] at this
    rw [this, decide_eq_true_eq]
  · simpa using List.all_eq_true.1 h2 n hn
  · have := List.all_eq_true.1 (List.all_eq_true.1 h3 kw hk) _ hn
    simp only [decide_true, Bool.not_true, Bool.false_or, Bool.or_eq_true, decide_eq_true_eq, List.any_eq_true] at this
    rcases this with (h | h) | ⟨d, hd, h⟩
    · exact Or.inl h
    · exact Or.inr (Or.inl h)
    · exact Or.inr (Or.inr ⟨d.2, by rw [← h]; exact hd⟩)

/-- The wiring of one switch: the option of the piece is a flag passed to the keyword that switches it, or the program does not have it. -/
def switched (p : Prog) (f : Flag) : Bool :=
  match switch p f with
  | some kw => wired p kw (pieceOption f) && (Cli.opts p).all (fun o => !(o.name = pieceOption f) || o.action = .flag)
  | none => (Cli.opts p).all (fun o => o.name ≠ pieceOption f)

/-- All optional pieces. -/
def allPieces : List Flag :=
  [.betaSpin, .spinMixture, .spinX, .spinY, .spinZ, .chiEffMixture, .chiEffSkew, .chiP, .tilt, .eccentricity, .redshift, .cosIota, .phi12,
    .polarization, .rightAscension, .sinDeclination, .detectionTime, .phi1, .phi2, .phiOrb, .meanAnomaly]

theorem switched_all (p : Prog) (f : Flag) : switched p f = true := by
  have h : allPieces.all (switched p) = true := by cases p <;> decide +kernel
  exact List.all_eq_true.1 h f (by cases f <;> simp [allPieces])

/-- **C84** (pieces).  For every program and every command line it accepts: the model has an optional piece exactly if its option was given. -/
theorem C84_pieces (p : Prog) {argv : List String} {a : String → Option Val} (hs : start p cv argv = some a) {its : List Item}
    (hr : Reads (Cli.opts p) argv its) (f : Flag) : pieces p a f = true ↔ ∃ i ∈ its, i.1.name = pieceOption f := by
  obtain ⟨its', hp, ha⟩ := start_ok hs
  have : its' = its := by
    have h1 := (items_iff (C84_tables p)).2 ((C84_reading (C84_tables p)).1 hp).1
    rw [(items_iff (C84_tables p)).2 hr] at h1; exact (Option.some.inj h1).symm
  subst this
  have hcase : (∃ kw, switch p f = some kw ∧ wired p kw (pieceOption f) = true ∧
        (Cli.opts p).all (fun o => !(o.name = pieceOption f) || o.action = .flag) = true) ∨
      (switch p f = none ∧ (Cli.opts p).all (fun o => o.name ≠ pieceOption f) = true) := by
    have hc := switched_all p f
    unfold switched at hc
    cases hsw : switch p f with
    | none => rw [hsw] at hc; exact Or.inr ⟨rfl, hc⟩
    | some kw => rw [hsw] at hc; exact Or.inl ⟨kw, rfl, (Bool.and_eq_true _ _ ▸ hc).1, (Bool.and_eq_true _ _ ▸ hc).2⟩
  rcases hcase with ⟨kw, hsw, hw, hfl⟩ | ⟨hsw, hno⟩
  · obtain ⟨o, ho, hname, hh, hv⟩ := wired_value (cv := cv) hw (its := its')
    have hact : o.action = .flag := by
      have := List.all_eq_true.1 hfl o ho
      simpa [hname] using this
    have hval := C84_value (C84_tables p) hp ho hh
    rw [IsValue, hact] at hval
    obtain ⟨b, hb, hiff⟩ := hval
    unfold pieces
    rw [hsw]
    simp only [ha, hv, hb, Option.some.injEq, Val.bool.injEq, decide_eq_true_eq, hiff]
    constructor
    · rintro ⟨ws, hm⟩; exact ⟨_, hm, hname⟩
    · rintro ⟨i, hm, hn⟩
      refine ⟨i.2, ?_⟩
      rw [← eq_of_name (C84_tables p) (reads_mem hr hm).1 ho (hn.trans hname.symm)]; exact hm
  · unfold pieces
    rw [hsw]
    simp only [Bool.false_eq_true, false_iff, not_exists, not_and]
    intro i hm hn
    have := List.all_eq_true.1 hno _ (reads_mem hr hm).1
    simp [hn] at this

/-- **C84** (exclusion).  No command line gives a model with both spin-magnitude models or both effective-spin models. -/
theorem C84_exclusive (p : Prog) {argv : List String} {a : String → Option Val} (hs : start p cv argv = some a) : Exclusive (pieces p a) := by
  obtain ⟨its, hp, ha⟩ := start_ok hs
  obtain ⟨hr, _, hnc, _⟩ := (C84_reading (C84_tables p)).1 hp
  have key : ∀ f g : Flag, (∀ o ∈ Cli.opts p, ∀ o' ∈ Cli.opts p, o.name = pieceOption f → o'.name = pieceOption g →
      o.group ≠ none ∧ o.group = o'.group) → pieceOption f ≠ pieceOption g → ¬ (pieces p a f = true ∧ pieces p a g = true) := by
    rintro f g hg hne ⟨h1, h2⟩
    obtain ⟨i, hi, hin⟩ := (C84_pieces p hs hr f).1 h1
    obtain ⟨j, hj, hjn⟩ := (C84_pieces p hs hr g).1 h2
    obtain ⟨g1, g2⟩ := hg _ (reads_mem hr hi).1 _ (reads_mem hr hj).1 hin hjn
    have := hnc i hi j hj g1 g2
    exact hne (by rw [← hin, ← hjn, this])
  exact ⟨key _ _ (by cases p <;> decide +kernel) (by decide), key _ _ (by cases p <;> decide +kernel) (by decide)⟩

theorem opt_sublist (b : Bool) (l : List String) : (if b = true then l else []).Sublist l := by
  cases b <;> simp

/-- **C84** (columns).  The columns a program works with are named once each, whatever it was asked for. -/
theorem C84_columns_distinct (p : Prog) {argv : List String} {a : String → Option Val} (hs : start p cv argv = some a) :
    (columns p a).Nodup := by
  have hex := C84_exclusive p hs
  have hsage : ∀ o : Flag → Bool, (sageColumns o).Nodup := by
    intro o
    refine List.Nodup.sublist (l₂ := sageColumns fun _ => true) ?_ (by decide +kernel)
    unfold sageColumns
    simp only [if_true, Bool.or_true]
    repeat' apply List.Sublist.append
    all_goals first | exact List.Sublist.refl _ | exact opt_sublist _ _
  have hsmooth : ∀ o : Flag → Bool, (smoothedColumns o).Nodup := by
    intro o
    refine List.Nodup.sublist (l₂ := smoothedColumns fun _ => true) ?_ (by decide +kernel)
    unfold smoothedColumns
    simp only [if_true, Bool.or_true]
    repeat' apply List.Sublist.append
    all_goals first | exact List.Sublist.refl _ | exact opt_sublist _ _
  have hgenie : ∀ o : Flag → Bool, Exclusive o → (genieColumns o).Nodup := by
    intro o ho
    have e1 : ∀ r : List String, (if o .betaSpin then ["a_1", "a_2"] else []) ++ ((if o .spinMixture then ["a_1", "a_2"] else []) ++ r) =
        (if o .betaSpin || o .spinMixture then ["a_1", "a_2"] else []) ++ r := by
      intro r
      have := ho.1
      revert this
      cases o .betaSpin <;> cases o .spinMixture <;> simp
    have e2 : ∀ r : List String, (if o .chiEffMixture then ["chi_eff"] else []) ++ ((if o .chiEffSkew then ["chi_eff"] else []) ++ r) =
        (if o .chiEffMixture || o .chiEffSkew then ["chi_eff"] else []) ++ r := by
      intro r
      have := ho.2
      revert this
      cases o .chiEffMixture <;> cases o .chiEffSkew <;> simp
    refine List.Nodup.sublist (l₂ := genieColumns fun f => decide (f ≠ .spinMixture ∧ f ≠ .chiEffSkew)) ?_ (by decide +kernel)
    unfold genieColumns
    simp only [List.flatten_cons, List.flatten_nil, e1, e2]
    simp only [ne_eq, reduceCtorEq, not_false_eq_true, and_self, decide_true, if_true, not_true_eq_false, false_and, and_false,
      decide_false, Bool.false_eq_true, if_false, List.nil_append]
    repeat' apply List.Sublist.append
    all_goals first | exact List.Sublist.refl _ | exact opt_sublist _ _
  cases p with
  | fSage | nSage | monk => exact hsage _
  | fSageO3 | nSageO3 | fSageO4 | nSageO4 => exact hsmooth _
  | genie => exact hgenie _ hex
  | fSageEcc | nSageEcc | monkEcc | genieEcc => show List.Nodup ["mass_1_source", "mass_2_source", "eccentricity"]; decide +kernel

/-- **C84** (model and columns).  For every command line an analysis accepts and every hyper-parameters for which its model is built, the
coordinates of every component are the columns read from the events: `n_pls_m_gs` … -/
theorem C84_model_has_columns {p : Prog} (hp : p = .fSage ∨ p = .nSage ∨ p = .monk) {argv : List String} {a : String → Option Val}
    (hs : start p cv argv = some a) {Npl Ng : Nat} {params : Dict String ℝ} {m : Mixture}
    (h : nPowerlawMGaussian (sageConstants (pieces p a)) Npl Ng params = .ok m) : ∀ c ∈ m.components, coordinates c = columns p a := by
  have := (C49_columns_are_coordinates (C84_exclusive p hs) h).2.2
  rcases hp with rfl | rfl | rfl <;> exact this

/-- … `o3_n_pls_m_gs` … -/
theorem C84_o3_model_has_columns {p : Prog} (hp : p = .fSageO3 ∨ p = .nSageO3) {argv : List String} {a : String → Option Val}
    (hs : start p cv argv = some a) {Npl Ng : Nat} {params : Dict String ℝ} {m : Smoothed}
    (h : nSmoothedPowerlawMSmoothedGaussian (pieces p a) Npl Ng params = .ok m) : ∀ c ∈ m.components, Smoothed.coordinates c = columns p a := by
  have := (C49_o3_columns_are_coordinates (C84_exclusive p hs) h).2.2
  rcases hp with rfl | rfl <;> exact this

/-- … and `o4_n_bpls_m_gs`. -/
theorem C84_o4_model_has_columns {p : Prog} (hp : p = .fSageO4 ∨ p = .nSageO4) {argv : List String} {a : String → Option Val}
    (hs : start p cv argv = some a) {Nbpl Ng : Nat} {params : Dict String ℝ} {m : Smoothed}
    (h : nBrokenPowerlawMGaussian (pieces p a) Nbpl Ng params = .ok m) : ∀ c ∈ m.components, Smoothed.coordinates c = columns p a := by
  have := (C49_o4_columns_are_coordinates (C84_exclusive p hs) h).2.2
  rcases hp with rfl | rfl <;> exact this

/-- **C84** (no option is idle).  Every option of every program is passed on, except the variance cut of the analyses of Gaussian events. -/
theorem C84_every_option_used (p : Prog) {o : Opt} (ho : o ∈ Cli.opts p) (hh : o.action ≠ .help)
    (hm : (p = .monk ∨ p = .monkEcc) → o.name ≠ "--variance-cut-threshold") : ∃ e ∈ call p, e.2 = o.dest := by
  have hall : (Cli.opts p).all (fun o => decide (o.action = .help) ||
      (decide (p = .monk ∨ p = .monkEcc) && decide (o.name = "--variance-cut-threshold")) ||
      (call p).any fun e => e.2 = o.dest) = true := by
    cases p <;> decide +kernel
  have := List.all_eq_true.1 hall o ho
  simp only [Bool.or_eq_true, decide_eq_true_eq, Bool.and_eq_true, List.any_eq_true] at this
  rcases this with (h1 | ⟨h1, h2⟩) | h1
  · exact absurd h1 hh
  · exact absurd h2 (hm h1)
  · exact h1

/-- **C84** (violated: an idle option).  The analyses of Gaussian events accept `--variance-cut-threshold` and ignore it. -/
theorem C84_variance_cut_ignored_violated (p : Prog) (hp : p = .monk ∨ p = .monkEcc) {argv argv' : List String} {its its' : List Item}
    (h : parse (Cli.opts p) cv argv = some its) (h' : parse (Cli.opts p) cv argv' = some its')
    (hsame : its.filter (fun i => i.1.name ≠ "--variance-cut-threshold") = its'.filter (fun i => i.1.name ≠ "--variance-cut-threshold")) :
    start p cv argv = start p cv argv' := by
  have hval : ∀ o : Opt, o.name ≠ "--variance-cut-threshold" → value cv its o = value cv its' o := by
    intro o ho
    have e : ∀ l : List Item, l.filter (fun i => i.1.name = o.name) =
        (l.filter (fun i => i.1.name ≠ "--variance-cut-threshold")).filter (fun i => i.1.name = o.name) := by
      intro l
      rw [List.filter_filter]
      apply List.filter_congr
      intro i _
      rw [Bool.eq_iff_iff]
      simp only [decide_eq_true_eq, Bool.and_eq_true]
      exact ⟨fun h => ⟨h, by rw [h]; exact ho⟩, fun h => h.1⟩
    unfold value
    rw [e its, e its', hsame]
  unfold start
  rw [h, h']
  simp only [Option.map_some, Option.some.injEq]
  funext kw
  cases hf : (call p).find? (fun e => e.1 = kw) with
  | none => rfl
  | some e =>
    simp only [Option.bind_some]
    unfold attr
    cases ho : (Cli.opts p).find? (fun o => o.dest = e.2) with
    | none => rfl
    | some o =>
      simp only [Option.map_some, Option.some.injEq]
      apply hval
      have hd : o.dest = e.2 := by simpa using List.find?_some ho
      have hall : (call p).all (fun e => (Cli.opts p).all fun o => !(o.dest = e.2) || o.name ≠ "--variance-cut-threshold") = true := by
        rcases hp with rfl | rfl <;> decide +kernel
      have := List.all_eq_true.1 (List.all_eq_true.1 hall e (List.mem_of_find?_eq_some hf)) o (List.mem_of_find?_eq_some ho)
      simpa [hd] using this

/-! ## Examples -/

/-- `int` and `float` on the words used in the examples. -/
def exConv : Conv where
  int s := if s = "1" then some 1 else if s = "2" then some 2 else if s = "-7" then some (-7) else none
  float s := if s = "0.5" then some (.rat (1 / 2)) else none

/-- An abbreviation, `=`, a negative value and a repeated option: all as documented. -/
example : (start .fSage exConv ["--n-pl", "1", "--n-g=2", "--add-tilt", "--add-red", "--data-loader-cfg", "events.json",
      "--sampler-config", "flow.json", "--seed", "1", "--seed", "-7", "--variance-cut-threshold", "0.5"]).map
    (fun a => ([a "N_pl", a "N_g", a "seed", a "variance_cut_threshold", a "threshold"], columns .fSage a)) =
    some ([some (.int 1), some (.int 2), some (.int (-7)), some (.float (.rat (1 / 2))), some (.float (.rat 3))],
      ["mass_1_source", "mass_2_source", "cos_tilt_1", "cos_tilt_2", "redshift"]) := by
  decide +kernel

/-- Lists of words. -/
example : (start .genieEcc exConv ["--tile-covariance", "mass_1_source", "mass_2_source", "--model-json", "m", "--tile-covariance",
      "eccentricity", "--err-json", "e"]).map (fun a => (a "tile_covariance", a "error_size")) =
    some (some (.lists [["mass_1_source", "mass_2_source"], ["eccentricity"]]), some (.int 2000)) := by
  decide +kernel

/-- Exclusive options, a missing required option, a value that does not convert, a stray word: the program stops. -/
example : start .fSage exConv ["--add-beta-spin-magnitude", "--data-loader-cfg", "d", "--add-spin-magnitude-mixture", "--sampler-config", "s"] = none
    ∧ start .fSage exConv ["--data-loader-cfg", "d"] = none
    ∧ start .fSage exConv ["--data-loader-cfg", "d", "--sampler-config", "s", "--n-pl", "three"] = none
    ∧ start .fSage exConv ["--data-loader-cfg", "d", "--sampler-config", "s", "extra"] = none := by
  refine ⟨?_, ?_, ?_, ?_⟩ <;> (unfold start; rw [Option.map_eq_none_iff]; decide +kernel)

/-- **C84** (violated: abbreviations).  The generator has an option `--add-phi-1`; the analysis has no such piece, but reads the same word as
an abbreviation of `--add-phi-12` and fits the angle between the spins instead of refusing. -/
theorem C84_abbreviation_violated :
    ∃ a, start .fSage exConv ["--add-phi-1", "--data-loader-cfg", "d", "--sampler-config", "s"] = some a ∧
      pieces .fSage a .phi12 = true ∧ pieces .fSage a .phi1 = false ∧
    ∃ g, start .genie exConv ["--add-phi-1", "--model-json", "m", "--err-json", "e"] = some g ∧
      pieces .genie g .phi1 = true ∧ pieces .genie g .phi12 = false := by
  have h1 : (start .fSage exConv ["--add-phi-1", "--data-loader-cfg", "d", "--sampler-config", "s"]).map
      (fun a => (pieces .fSage a .phi12, pieces .fSage a .phi1)) = some (true, false) := by decide +kernel
  have h2 : (start .genie exConv ["--add-phi-1", "--model-json", "m", "--err-json", "e"]).map
      (fun a => (pieces .genie a .phi1, pieces .genie a .phi12)) = some (true, false) := by decide +kernel
  obtain ⟨a, ha, hpa⟩ := Option.map_eq_some_iff.1 h1
  obtain ⟨g, hg, hpg⟩ := Option.map_eq_some_iff.1 h2
  exact ⟨a, ha, congrArg Prod.fst hpa, congrArg Prod.snd hpa, g, hg, congrArg Prod.fst hpg, congrArg Prod.snd hpg⟩

/-- **C84** (violated: numbers of components).  The options for the numbers of components are not required: without them the analysis is
built with `None` components (and fails later, on `None + None`). -/
theorem C84_component_counts_violated :
    ∃ a, start .fSage exConv ["--data-loader-cfg", "d", "--sampler-config", "s"] = some a ∧ a "N_pl" = some .none ∧ a "N_g" = some .none := by
  have h1 : (start .fSage exConv ["--data-loader-cfg", "d", "--sampler-config", "s"]).map (fun a => (a "N_pl", a "N_g")) =
      some (some .none, some .none) := by decide +kernel
  obtain ⟨a, ha, hpa⟩ := Option.map_eq_some_iff.1 h1
  exact ⟨a, ha, congrArg Prod.fst hpa, congrArg Prod.snd hpa⟩

end GW.Cli
