import Verif.Model.PlotFiles

/-!
# What is asked of the plotting tools and files
-/

namespace GW.PlotFiles.Spec

/-- The files a command line names as outputs (`-` names no file). -/
def outputs (cl : List (String × String)) : List Path := (cl.filter fun e => e.1 = "--output" ∧ e.2 ≠ "-").map (·.2)

/-- The value of an option on a command line is the one given last. -/
def LastGiven (cl : List (String × String)) (n v : String) : Prop :=
  ∃ before after, cl = before ++ (n, v) :: after ∧ ∀ e ∈ after, e.1 ≠ n

/-- The files as they were, except that the named outputs are empty. -/
def emptied (cl : List (String × String)) (fs : FS) : FS := fun p => if p ∈ outputs cl then some "" else fs p

/-- What an option stands for: the words given, and `<stdin>` or `<stdout>` for a `-` given as data or output. -/
def meaning (e : String × String) : String × String :=
  (e.1, if e.2 = "-" then if e.1 = "--data" then "<stdin>" else if e.1 = "--output" then "<stdout>" else e.2 else e.2)

/-- The drawing does not depend on the files named as outputs. -/
def IgnoresOutputs (W : World) (t : Tool) (cl : List (String × String)) : Prop :=
  ∀ ns fs fs', (∀ p, p ∉ outputs cl → fs p = fs' p) → W.draw t.name ns fs = W.draw t.name ns fs'

/-- Options that are accepted and then not looked at: (script, option). -/
def ignored : List (String × String) :=
  [("batch_scatter3d", "--zlabel"), ("hist_overplot", "--delimiter"), ("joint_plot", "--size")]

/-- The tools that read one table named with `--data`. -/
def dataTools : List String := ["corner_plot", "hist_overplot", "joint_plot", "scatter2d", "scatter3d"]

/-- A command line without mistakes: every option exists, its value is of the right type, the data file exists, the output can be written,
and everything required is there. -/
structure Correct (W : World) (t : Tool) (cl : List (String × String)) (fs : FS) : Prop where
  known : ∀ e ∈ cl, ∃ o ∈ t.opts, o.name = e.1
  values : ∀ e ∈ cl, ∀ o ∈ t.opts, o.name = e.1 → o.kind = .value → W.converts t.name o.name e.2
  data : ∀ e ∈ cl, e.1 = "--data" → e.2 ≠ "-" ∧ (fs e.2).isSome
  output : ∀ e ∈ cl, e.1 = "--output" → e.2 ≠ "-" ∧ W.canOpen e.2
  required : ∀ o ∈ t.opts, o.required → ∃ v, (o.name, v) ∈ cl

end GW.PlotFiles.Spec
