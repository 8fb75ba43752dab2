import Verif.Lemmas.PlotFiles

/-!
# C105: the plotting tools and files

A plotting tool changes no file but the one named as its output, saves there the drawing of the data it was given, uses every option, and
replaces an earlier plot only when it has a new one.

The first two hold.  The last two do not: the output is emptied while the options are still being read, so every mistake in the command line
and every error in the data destroys the plot (or the data) that was there; three options are accepted and ignored; `joint_plot` always ends
with an error.
-/

namespace GW.PlotFiles

open Spec

/-- Which programs this is about: the commands `gwk_<name>` of these eleven names, and no two are the same. -/
theorem C105_programs : tools.map Tool.name = ["batch_scatter2d", "batch_scatter3d", "chain_plot", "corner_plot", "ess_evolution_plot", "ess_plot", "hist_overplot",
    "joint_plot", "r_hat_plot", "scatter2d", "scatter3d"] ∧ ∀ t ∈ tools, ∀ u ∈ tools, t.name = u.name → t = u := by
  refine ⟨by decide +kernel, ?_⟩
  intro t ht u hu h
  simp only [tools, List.mem_cons, List.not_mem_nil, or_false] at ht hu
  rcases ht with rfl | rfl | rfl | rfl | rfl | rfl | rfl | rfl | rfl | rfl | rfl <;>
    rcases hu with rfl | rfl | rfl | rfl | rfl | rfl | rfl | rfl | rfl | rfl | rfl <;> first | rfl | exact absurd h (by decide +kernel)

/-- Two of them: the names tell the tools apart. -/
example : scatter2d ∈ tools ∧ scatter3d ∈ tools ∧ scatter2d.name ≠ scatter3d.name := by decide +kernel

/-- No tool, whatever the command line and however it ends, changes a file that was not named as its output (`<stdout>` is the file
written for `--output -`). -/
theorem C105_other_files {t : Tool} (ht : t ∈ tools) (W : World) (cl : List (String × String)) (fs : FS) (p : Path)
    (hp : ("--output", p) ∉ cl) (hstd : p ≠ "<stdout>") : (run W t cl fs).1 p = fs p := by
  have hs := shape ht
  have hno : p ∉ outputs cl := fun h => hp (mem_outputs.1 h).1
  have hparse := (parse_fs (W := W) hs cl fs [] false p).resolve_right fun h => hno h.1
  unfold run
  split
  · rename_i fs' oc h
    rw [h] at hparse; exact hparse
  · rename_i fs' ns h
    have hpn := parse_inr hs h
    rw [h] at hparse
    split
    · rename_i c out hd hg
      obtain ⟨v, ⟨b, a, hcl, _⟩, hm⟩ := last_meaning (by simpa [hpn.2.1] using get_eq_of_last hg)
      have hne : p ≠ out := by
        rintro rfl
        unfold meaning at hm
        simp only [Prod.mk.injEq, true_and] at hm
        split at hm
        · simp only [if_true] at hm
          rw [if_neg (by decide)] at hm
          exact hstd hm.symm
        · subst hm
          exact hp (by rw [hcl]; simp)
      exact (set_other _ _ hne).trans hparse
    · exact hparse

/-- A run that ends normally has been given every required option, nothing unknown, values of the right types, data that exist and outputs
that can be opened, and has written to the file named last as the
output the drawing of the options (all except the ignored ones) and of the files; every other file named as an output is empty. -/
theorem C105_saved {t : Tool} (ht : t ∈ tools) {W : World} {cl : List (String × String)} {fs : FS} (h : (run W t cl fs).2 = .done) :
    (∀ o ∈ t.opts, o.required → ∃ v, (o.name, v) ∈ cl) ∧ (∀ e ∈ cl, ∃ o ∈ t.opts, o.name = e.1) ∧
      (∀ e ∈ cl, ∀ o ∈ t.opts, o.name = e.1 → o.kind = .value → W.converts t.name o.name e.2) ∧
      (∀ p, ("--data", p) ∈ cl → p ≠ "-" → (fs p).isSome ∨ p ∈ outputs cl) ∧
      (∀ p, ("--output", p) ∈ cl → p ≠ "-" → W.canOpen p) ∧
      ∃ v c, LastGiven cl "--output" v ∧
        W.draw t.name ((cl.map meaning).filter fun e => (t.name, e.1) ∉ ignored) (emptied cl fs) = some c ∧
        (run W t cl fs).1 (meaning ("--output", v)).2 = some c ∧
        ∀ p, p ≠ (meaning ("--output", v)).2 → (run W t cl fs).1 p = emptied cl fs p := by
  have hs := shape ht
  unfold run at h ⊢
  cases hpar : parse W t cl fs [] false with
  | mk fs' r =>
    cases r with
    | inl oc =>
      rw [hpar] at h
      exfalso
      exact parse_ne_done cl fs [] false (by rw [hpar]; exact congrArg Sum.inl h)
    | inr ns =>
      rw [hpar] at h
      obtain ⟨rfl, hns, hacc, hreq⟩ := parse_inr hs hpar
      rw [List.nil_append] at hns
      subst hns
      dsimp only at h ⊢
      have hvis := visible_eq ht (ns := cl.map meaning) (by
        intro e he
        obtain ⟨e', he', rfl⟩ := List.mem_map.1 he
        exact hacc.known e' he')
      refine ⟨fun o ho hr => ?_, hacc.known, hacc.values,
        fun p hp hne => hacc.data _ hp rfl hne, fun p hp hne => hacc.output _ hp rfl hne, ?_⟩
      · obtain ⟨w, hw⟩ := get_isSome.1 (hreq o ho hr)
        obtain ⟨⟨m, v⟩, he, hm⟩ := List.mem_map.1 hw
        have hmn : m = o.name := congrArg Prod.fst hm
        exact ⟨v, hmn ▸ he⟩
      · split at h
        · rename_i c out hd hg
          obtain ⟨v, hl, hm⟩ := last_meaning (get_eq_of_last hg)
          refine ⟨v, c, hl, by rw [← hvis]; exact hd, ?_, fun p hp => ?_⟩
          · rw [hm]; exact set_self _ _ _
          · rw [hm] at hp
            exact set_other _ _ hp
        · cases h

/-- If the drawing does not depend on the files named as outputs, the plot that is saved is the drawing of the files as they were before
the run. -/
theorem C105_saved_from_the_data {t : Tool} (ht : t ∈ tools) {W : World} {cl : List (String × String)} {fs : FS}
    (hi : IgnoresOutputs W t cl) (h : (run W t cl fs).2 = .done) {out : Path} (ho : LastGiven cl "--output" out) (hout : out ≠ "-") :
    (run W t cl fs).1 out = W.draw t.name ((cl.map meaning).filter fun e => (t.name, e.1) ∉ ignored) fs := by
  obtain ⟨-, -, -, -, -, v, c, hl, hd, hr, -⟩ := C105_saved ht h
  have hv : v = out := by
    have e1 := get_of_last hl
    have e2 := get_of_last ho
    rw [e1] at e2
    exact Option.some.inj e2
  subst hv
  have hm : (meaning ("--output", v)).2 = v := by simp [meaning, hout]
  rw [hm] at hr
  rw [hr, ← hd]
  refine hi _ _ _ fun p hp => ?_
  simp [emptied, hp]

/-- A command line without mistakes whose drawing succeeds leaves the drawing in the output, and ends normally except with `joint_plot`. -/
theorem C105_correct_runs {t : Tool} (ht : t ∈ tools) {W : World} {cl : List (String × String)} {fs : FS}
    (hc : Correct W t cl fs)
    (hd : (W.draw t.name ((cl.map meaning).filter fun e => (t.name, e.1) ∉ ignored) (emptied cl fs)).isSome)
    {out : Path} (hl : LastGiven cl "--output" out) :
    (run W t cl fs).1 out = W.draw t.name ((cl.map meaning).filter fun e => (t.name, e.1) ∉ ignored) (emptied cl fs) ∧
      (t.name ≠ "joint_plot" → (run W t cl fs).2 = .done) := by
  have hs := shape ht
  have hget : ∀ o ∈ t.opts, o.required → (get ([] ++ cl.map meaning) o.name).isSome := by
    intro o ho hr
    obtain ⟨v, hv⟩ := hc.required o ho hr
    exact get_isSome.2 ⟨(meaning (o.name, v)).2, List.mem_map.2 ⟨_, hv, rfl⟩⟩
  have hp := parse_correct (W := W) (fs := fs) (ns := []) hs hc.known hc.values (fun e he hn => (hc.data e he hn).2)
    (fun e he hn => (hc.output e he hn).2) hget
  have hraise : ∀ t ∈ tools, t.name ≠ "joint_plot" → t.raisesAfterSaving = false := by decide +kernel
  rw [List.nil_append] at hp hget
  have hvis := visible_eq ht (ns := cl.map meaning) (by
    intro e he
    obtain ⟨e', he', rfl⟩ := List.mem_map.1 he
    exact hc.known e' he')
  unfold run
  rw [hp]
  dsimp only
  rw [hvis]
  obtain ⟨c, hc'⟩ := Option.isSome_iff_exists.1 hd
  have ho : get (cl.map meaning) "--output" = some out := by
    obtain ⟨b, a, hcl, ha⟩ := hl
    have hne : out ≠ "-" := (hc.output ("--output", out) (by rw [hcl]; simp) rfl).1
    refine get_of_last ⟨b.map meaning, a.map meaning, by rw [hcl]; simp [meaning, hne], fun e he => ?_⟩
    obtain ⟨e', he', rfl⟩ := List.mem_map.1 he
    exact ha e' he'
  rw [hc', ho]
  exact ⟨set_self _ _ _, fun hj => by simp [hraise t ht hj]⟩

/-- After a run that does not end normally (of any tool but `joint_plot`) every file is as it was, or was named as an output and is now
empty.  Missing from the property: that the files named as outputs are as they were (see `C105_plot_lost_violated`). -/
theorem C105_failure_partial {t : Tool} (ht : t ∈ tools) (hj : t.name ≠ "joint_plot") {W : World} {cl : List (String × String)} {fs : FS}
    (h : (run W t cl fs).2 ≠ .done) (p : Path) :
    (run W t cl fs).1 p = fs p ∨ (p ∈ outputs cl ∧ (run W t cl fs).1 p = some "") := by
  have hs := shape ht
  have hraise : ∀ t ∈ tools, t.name ≠ "joint_plot" → t.raisesAfterSaving = false := by decide +kernel
  have hparse := parse_fs (W := W) hs cl fs [] false p
  unfold run at h ⊢
  split
  · rename_i fs' oc hp
    rw [hp] at hparse; exact hparse
  · rename_i fs' ns hp
    rw [hp] at h hparse
    dsimp only at h
    split
    · rename_i c out hd hg
      rw [hd, hg] at h
      simp [hraise t ht hj] at h
    · exact hparse

/-- **Violated**: a plot that exists is destroyed by a run that draws nothing.  With every tool, giving nothing but the output is a usage
error that leaves the existing plot empty. -/
theorem C105_plot_lost_violated {t : Tool} (ht : t ∈ tools) (W : World) (fs : FS) (p : Path) (hp : p ≠ "-") (hw : W.canOpen p) :
    (run W t [("--output", p)] fs).2 = .usage ∧ (run W t [("--output", p)] fs).1 p = some "" := by
  have hs := shape ht
  have hreq : ∀ t ∈ tools, ∃ o ∈ t.opts, o.required = true ∧ o.name ≠ "--output" := by decide +kernel
  obtain ⟨o, ho, hr, hn⟩ := hreq t ht
  have hf := find_of hs hs.output
  dsimp only at hf
  have hany : (t.opts.any fun o => o.required && (get ([] ++ [("--output", handleName ⟨"--output", .write, true, true⟩ p)]) o.name).isNone)
      = true := by
    rw [List.any_eq_true]
    refine ⟨o, ho, ?_⟩
    have : ¬ ("--output" = o.name) := fun h => hn h.symm
    simp [hr, get, this]
  have hpar : parse W t [("--output", p)] fs [] false = (fs.set p "", .inl .usage) := by
    unfold parse
    rw [if_neg (by decide), hf]
    simp only [openArg, hp, hw, if_true, if_false]
    unfold parse
    rw [hany]
    simp
  unfold run
  rw [hpar]
  exact ⟨rfl, set_self _ _ _⟩

/-- **Violated**: asking for help (or any mistake) after the output has been named destroys the plot as well. -/
theorem C105_plot_lost_by_help_violated {t : Tool} (ht : t ∈ tools) (W : World) (fs : FS) (p : Path) (hp : p ≠ "-") (hw : W.canOpen p)
    (w : String) (rest : List (String × String)) :
    (run W t (("--output", p) :: ("--help", w) :: rest) fs).2 = .help ∧
      (run W t (("--output", p) :: ("--help", w) :: rest) fs).1 p = some "" := by
  have hs := shape ht
  have hf := find_of hs hs.output
  dsimp only at hf
  have hpar : parse W t (("--output", p) :: ("--help", w) :: rest) fs [] false = (fs.set p "", .inl .help) := by
    unfold parse
    rw [if_neg (by decide), hf]
    simp only [openArg, hp, hw, if_true, if_false]
    unfold parse
    rw [if_pos rfl]
  unfold run
  rw [hpar]
  exact ⟨rfl, set_self _ _ _⟩

/-- **Violated**: the data are destroyed when the output has the same name: whatever else is on the command line and whatever the library
does, with a tool that cannot draw from an empty table the run ends without a plot and the table is empty. -/
theorem C105_data_lost_violated {t : Tool} (ht : t ∈ tools) {W : World} {cl : List (String × String)} {fs : FS} (hc : Correct W t cl fs)
    (p : Path) (hd : LastGiven cl "--data" p) (ho : LastGiven cl "--output" p)
    (hempty : ∀ ns fs, LastGiven ns "--data" p → fs p = some "" → W.draw t.name ns fs = none) :
    (run W t cl fs).2 = .raised ∧ (run W t cl fs).1 p = some "" := by
  have hs := shape ht
  have hget : ∀ o ∈ t.opts, o.required → (get ([] ++ cl.map meaning) o.name).isSome := by
    intro o ho hr
    obtain ⟨v, hv⟩ := hc.required o ho hr
    exact get_isSome.2 ⟨(meaning (o.name, v)).2, List.mem_map.2 ⟨_, hv, rfl⟩⟩
  have hp := parse_correct (W := W) (fs := fs) (ns := []) hs hc.known hc.values (fun e he hn => (hc.data e he hn).2)
    (fun e he hn => (hc.output e he hn).2) hget
  rw [List.nil_append] at hp
  have hvis := visible_eq ht (ns := cl.map meaning) (by
    intro e he
    obtain ⟨e', he', rfl⟩ := List.mem_map.1 he
    exact hc.known e' he')
  have hpo : p ∈ outputs cl := by
    obtain ⟨b, a, hcl, -⟩ := ho
    have hm : ("--output", p) ∈ cl := by rw [hcl]; simp
    exact mem_outputs.2 ⟨hm, (hc.output _ hm rfl).1⟩
  have hnone : W.draw t.name (visible t (cl.map meaning)) (emptied cl fs) = none := by
    refine hempty _ _ ?_ (by simp [emptied, hpo])
    rw [hvis]
    obtain ⟨b, a, hcl, ha⟩ := hd
    have hne : p ≠ "-" := (mem_outputs.1 hpo).2
    have hni : (t.name, "--data") ∉ ignored := by simp [ignored]
    refine ⟨(b.map meaning).filter fun e => (t.name, e.1) ∉ ignored, (a.map meaning).filter fun e => (t.name, e.1) ∉ ignored, ?_, ?_⟩
    · rw [hcl, List.map_append, List.map_cons, List.filter_append, List.filter_cons]
      simp [meaning, hne, hni]
    · intro e he
      obtain ⟨e', he', rfl⟩ := List.mem_map.1 (List.mem_filter.1 he).1
      exact ha e' he'
  unfold run
  rw [hp]
  dsimp only
  rw [hnone]
  exact ⟨rfl, by simp [emptied, hpo]⟩

/-- **Violated**: `joint_plot` never ends normally, also when the plot has been saved. -/
theorem C105_joint_plot_violated (W : World) (cl : List (String × String)) (fs : FS) : (run W jointPlot cl fs).2 ≠ .done := by
  intro h
  unfold run at h
  split at h
  · rename_i fs' oc hp
    exact parse_ne_done cl fs [] false (by rw [hp]; exact congrArg Sum.inl h)
  · split at h
    · simp [jointPlot] at h
    · cases h

/-- **Violated**: three options have no effect.  Giving `--zlabel` to `batch_scatter3d`, `--delimiter` to `hist_overplot` or `--size` to
`joint_plot`, anywhere on any command line, changes neither the files nor the way the run ends. -/
theorem C105_ignored_options_violated (W : World) (pre post : List (String × String)) (fs : FS) (v : String) :
    (W.converts "batch_scatter3d" "--zlabel" v →
      run W batchScatter3d (pre ++ ("--zlabel", v) :: post) fs = run W batchScatter3d (pre ++ post) fs) ∧
    (W.converts "hist_overplot" "--delimiter" v →
      run W histOverplot (pre ++ ("--delimiter", v) :: post) fs = run W histOverplot (pre ++ post) fs) ∧
    (W.converts "joint_plot" "--size" v →
      run W jointPlot (pre ++ ("--size", v) :: post) fs = run W jointPlot (pre ++ post) fs) := by
  refine ⟨fun h => ?_, fun h => ?_, fun h => ?_⟩
  · exact run_ignored (o := ⟨"--zlabel", .value, false, false⟩) (shape (by decide +kernel)) (by decide +kernel) rfl rfl rfl h pre post fs
  · exact run_ignored (o := ⟨"--delimiter", .value, false, false⟩) (shape (by decide +kernel)) (by decide +kernel) rfl rfl rfl h pre post fs
  · exact run_ignored (o := ⟨"--size", .value, false, false⟩) (shape (by decide +kernel)) (by decide +kernel) rfl rfl rfl h pre post fs

/-! ## Concrete cases -/

/-- A library that draws the table named with `--data` if it is there and not empty. -/
def exampleWorld : World where
  converts := fun _ _ _ => true
  canOpen := fun _ => true
  draw := fun _ ns fs =>
    match (get ns "--data").bind fs with
    | some c => if c = "" then none else some ("plot of " ++ c)
    | none => none

/-- A directory with one table and one earlier plot. -/
def exampleFS : FS := fun p => if p = "m.dat" then some "1 2" else if p = "old.pdf" then some "old plot" else none

def exampleLine : List (String × String) := [("--data", "m.dat"), ("--output", "new.pdf"), ("--bins", "30")]

theorem exampleCorrect : Correct exampleWorld cornerPlot exampleLine exampleFS := by
  refine ⟨by decide +kernel, fun _ _ _ _ _ _ => rfl, by decide +kernel, by decide +kernel, ?_⟩
  have : ∀ o ∈ cornerPlot.opts, o.required → o.name = "--data" ∨ o.name = "--output" := by decide +kernel
  intro o ho hr
  rcases this o ho hr with h | h <;> rw [h]
  · exact ⟨"m.dat", by decide⟩
  · exact ⟨"new.pdf", by decide⟩

/-- A correct command line saves the plot of the table and leaves the rest alone. -/
example : (run exampleWorld cornerPlot exampleLine exampleFS).2 = .done ∧
    (run exampleWorld cornerPlot exampleLine exampleFS).1 "new.pdf" = some "plot of 1 2" ∧
    (run exampleWorld cornerPlot exampleLine exampleFS).1 "old.pdf" = some "old plot" ∧
    (run exampleWorld cornerPlot exampleLine exampleFS).1 "m.dat" = some "1 2" := by decide +kernel

/-- The hypotheses of `C105_correct_runs` are met by it. -/
example : (run exampleWorld cornerPlot exampleLine exampleFS).2 = .done :=
  (C105_correct_runs (by decide +kernel) exampleCorrect (by decide +kernel) (out := "new.pdf")
    ⟨[("--data", "m.dat")], [("--bins", "30")], rfl, by decide⟩).2 (by decide)

/-- A data file that is missing, named after the output: the old plot is gone. -/
example : (run exampleWorld cornerPlot [("--output", "old.pdf"), ("--data", "n.dat")] exampleFS).2 = .usage ∧
    (run exampleWorld cornerPlot [("--output", "old.pdf"), ("--data", "n.dat")] exampleFS).1 "old.pdf" = some "" := by decide +kernel

/-- The same mistake with the options in the other order does no harm. -/
example : (run exampleWorld cornerPlot [("--data", "n.dat"), ("--output", "old.pdf")] exampleFS).1 "old.pdf" = some "old plot" := by
  decide +kernel

/-- The table named as its own output is lost: an instance of `C105_data_lost_violated`. -/
example : (run exampleWorld cornerPlot [("--data", "m.dat"), ("--output", "m.dat")] exampleFS).2 = .raised ∧
    (run exampleWorld cornerPlot [("--data", "m.dat"), ("--output", "m.dat")] exampleFS).1 "m.dat" = some "" := by decide +kernel

/-- `joint_plot` saves its plot and then fails. -/
example : (run exampleWorld jointPlot [("--data", "m.dat"), ("--output", "new.pdf"), ("--x-column-name", "x"), ("--y-column-name", "y")]
      exampleFS).2 = .raised ∧
    (run exampleWorld jointPlot [("--data", "m.dat"), ("--output", "new.pdf"), ("--x-column-name", "x"), ("--y-column-name", "y")]
      exampleFS).1 "new.pdf" = some "plot of 1 2" := by decide +kernel

/-- With `--output -` the plot goes to a file called `<stdout>`. -/
example : (run exampleWorld cornerPlot [("--data", "m.dat"), ("--output", "-")] exampleFS).1 "<stdout>" = some "plot of 1 2" := by
  decide +kernel

end GW.PlotFiles
