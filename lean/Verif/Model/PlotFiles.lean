/-!
# The files of the plotting tools

Model of how the plotting scripts of `/repo/src/gwkokab_scripts` treat files: `argparse` handles the options from left to right, and an
option declared with `type=argparse.FileType("r")` or `FileType("w")` opens its file as soon as it is met; `main` then draws and saves
with `savefig`.  argparse, pandas and matplotlib are libraries: what is drawn from the options and the files is a parameter.

Simplifications: an option is its long name (the short spellings and abbreviations name the same option), all the words given to it are one
string, and whether a value converts (`type=int`, `choices`, `nargs`) is a parameter.  Two different paths are different files.
-/

namespace GW.PlotFiles

/-- A file path, as in `args.data.name`, gwkokab_scripts/corner_plot.py:145. -/
abbrev Path := String

/-- The content of a file, as `savefig` writes it, gwkokab_scripts/corner_plot.py:167.  Simplification: bytes are a string. -/
abbrev Content := String

/-- The files a script sees, gwkokab_scripts/corner_plot.py:145 and 167. -/
abbrev FS := Path → Option Content

/-- Writing a whole file (`open(..., "w")`, `savefig`), gwkokab_scripts/corner_plot.py:26 and 167. -/
def FS.set (fs : FS) (p : Path) (c : Content) : FS := fun q => if q = p then some c else fs q

/-- The `type=` of an option: `argparse.FileType("r")`, `argparse.FileType("w")` or anything else, gwkokab_scripts/corner_plot.py:14–27. -/
inductive Kind
  | read | write | value
  deriving DecidableEq

/-- One `add_argument` call, gwkokab_scripts/corner_plot.py:14–27: its long name, its type, `required=`, and whether `main` reads the
attribute it is stored in. -/
structure Opt where
  name : String
  kind : Kind
  required : Bool
  used : Bool
  deriving DecidableEq

/-- One script, gwkokab_scripts/corner_plot.py:8–168: its options and whether it raises after having saved the plot. -/
structure Tool where
  name : String
  opts : List Opt
  raisesAfterSaving : Bool := false
  deriving DecidableEq

/-- The options with their values in the order given, as `parser.parse_args()` stores them, gwkokab_scripts/corner_plot.py:133. -/
abbrev Namespace := List (String × String)

/-- What the scripts rest on, gwkokab_scripts/corner_plot.py:133–167: which values convert to the type of an option, which paths can be
opened for writing, and what is drawn from the options read by `main` and the files (`none`: an exception is raised before `savefig` has
opened its file). -/
structure World where
  converts : String → String → String → Bool
  canOpen : Path → Bool
  draw : String → Namespace → FS → Option Content

/-- How a script ends, gwkokab_scripts/corner_plot.py:130–168: normally, with an exception, with a usage error or after printing the help. -/
inductive Outcome
  | done | raised | usage | help
  deriving DecidableEq

/-- Handling one value, gwkokab_scripts/corner_plot.py:14–27: `FileType("r")` opens the file and fails if it does not exist,
`FileType("w")` opens it and thereby empties it, and `-` stands for the standard streams in both. -/
def openArg (W : World) (t : Tool) (o : Opt) (v : String) (fs : FS) : Option FS :=
  match o.kind with
  | .read => if v = "-" then some fs else if (fs v).isSome then some fs else none
  | .write => if v = "-" then some fs else if W.canOpen v then some (fs.set v "") else none
  | .value => if W.converts t.name o.name v then some fs else none

/-- `args.output.name`, gwkokab_scripts/corner_plot.py:163: the `name` of the standard streams is `<stdin>` and `<stdout>`. -/
def handleName (o : Opt) (v : String) : String :=
  match o.kind with
  | .read => if v = "-" then "<stdin>" else v
  | .write => if v = "-" then "<stdout>" else v
  | .value => v

/-- `args.output` for a given option: the last value given, gwkokab_scripts/corner_plot.py:163. -/
def get (ns : Namespace) (n : String) : Option String := (ns.reverse.find? fun e => e.1 = n).map (·.2)

/-- `parser.parse_args()`, gwkokab_scripts/corner_plot.py:133: the options are handled from left to right; a value that cannot be handled
and the help option stop the program at once, an unknown or missing option only after all of them have been handled. -/
def parse (W : World) (t : Tool) : List (String × String) → FS → Namespace → Bool → FS × Sum Outcome Namespace
  | [], fs, ns, bad =>
    if bad || t.opts.any (fun o => o.required && (get ns o.name).isNone) then (fs, .inl .usage) else (fs, .inr ns)
  | (n, v) :: rest, fs, ns, bad =>
    if n = "--help" then (fs, .inl .help)
    else
      match t.opts.find? (fun o => o.name = n) with
      | none => parse W t rest fs ns true
      | some o =>
        match openArg W t o v fs with
        | none => (fs, .inl .usage)
        | some fs' => parse W t rest fs' (ns ++ [(n, handleName o v)]) bad

/-- The part of the namespace `main` reads, gwkokab_scripts/corner_plot.py:141–167. -/
def visible (t : Tool) (ns : Namespace) : Namespace := ns.filter fun e => t.opts.any fun o => o.name = e.1 && o.used

/-- `main`, gwkokab_scripts/corner_plot.py:130–168 (the other scripts have the same shape): parse, draw, save under the name of the output
handle. -/
def run (W : World) (t : Tool) (cl : List (String × String)) (fs : FS) : FS × Outcome :=
  match parse W t cl fs [] false with
  | (fs', .inl oc) => (fs', oc)
  | (fs', .inr ns) =>
    match W.draw t.name (visible t ns) fs', get ns "--output" with
    | some c, some out => (fs'.set out c, if t.raisesAfterSaving then .raised else .done)
    | _, _ => (fs', .raised)

/-- gwkokab_scripts/batch_scatter2d.py:22–109 (the options) and 114–163 (what `main` reads of them). -/
def batchScatter2d : Tool where
  name := "batch_scatter2d"
  opts := [
    ⟨"--data-regex", .value, true, true⟩, ⟨"--output", .write, true, true⟩, ⟨"--x-value-column-name", .value, true, true⟩,
    ⟨"--y-value-column-name", .value, true, true⟩, ⟨"--title", .value, false, true⟩, ⟨"--xlabel", .value, false, true⟩,
    ⟨"--ylabel", .value, false, true⟩, ⟨"--scatter-size", .value, false, true⟩, ⟨"--alpha", .value, false, true⟩,
    ⟨"--marker", .value, false, true⟩, ⟨"--use-latex", .value, false, true⟩, ⟨"--font-family", .value, false, true⟩,
    ⟨"--dpi", .value, false, true⟩]

/-- gwkokab_scripts/batch_scatter3d.py:22–142 (the options) and 147–211 (what `main` reads of them). -/
def batchScatter3d : Tool where
  name := "batch_scatter3d"
  opts := [
    ⟨"--data-regex", .value, true, true⟩, ⟨"--output", .write, true, true⟩, ⟨"--x-value-column-name", .value, true, true⟩,
    ⟨"--y-value-column-name", .value, true, true⟩, ⟨"--z-value-column-name", .value, true, true⟩, ⟨"--title", .value, false, true⟩,
    ⟨"--xlabel", .value, false, true⟩, ⟨"--ylabel", .value, false, true⟩, ⟨"--zlabel", .value, false, false⟩,
    ⟨"--color-map", .value, false, true⟩, ⟨"--color", .value, false, true⟩, ⟨"--color-bar", .value, false, true⟩,
    ⟨"--scatter-size", .value, false, true⟩, ⟨"--alpha", .value, false, true⟩, ⟨"--marker", .value, false, true⟩,
    ⟨"--use-latex", .value, false, true⟩, ⟨"--font-family", .value, false, true⟩, ⟨"--dpi", .value, false, true⟩]

/-- gwkokab_scripts/chain_plot.py:13–102 (the options) and 107–239 (what `main` reads of them). -/
def chainPlot : Tool where
  name := "chain_plot"
  opts := [
    ⟨"--data-regex", .value, true, true⟩, ⟨"--output", .write, true, true⟩, ⟨"--band", .value, false, true⟩,
    ⟨"--band-color", .value, false, true⟩, ⟨"--labels", .value, true, true⟩, ⟨"--alpha", .value, false, true⟩,
    ⟨"--title", .value, false, true⟩, ⟨"--width", .value, false, true⟩, ⟨"--height", .value, false, true⟩,
    ⟨"--x-scale", .value, false, true⟩, ⟨"--y-scale", .value, false, true⟩, ⟨"--use-latex", .value, false, true⟩,
    ⟨"--font-family", .value, false, true⟩, ⟨"--dpi", .value, false, true⟩]

/-- gwkokab_scripts/corner_plot.py:13–125 (the options) and 130–168 (what `main` reads of them). -/
def cornerPlot : Tool where
  name := "corner_plot"
  opts := [
    ⟨"--data", .read, true, true⟩, ⟨"--output", .write, true, true⟩, ⟨"--labels", .value, false, true⟩,
    ⟨"--truths", .value, false, true⟩, ⟨"--quantiles", .value, false, true⟩, ⟨"--bins", .value, false, true⟩,
    ⟨"--smooth", .value, false, true⟩, ⟨"--show-titles", .value, false, true⟩, ⟨"--scale", .value, false, true⟩,
    ⟨"--size", .value, false, true⟩, ⟨"--range", .value, false, true⟩, ⟨"--truth-color", .value, false, true⟩,
    ⟨"--color", .value, false, true⟩, ⟨"--use-latex", .value, false, true⟩, ⟨"--font-family", .value, false, true⟩,
    ⟨"--dpi", .value, false, true⟩, ⟨"--title-fmt", .value, false, true⟩]

/-- gwkokab_scripts/ess_evolution_plot.py:22–100 (the options) and 105–183 (what `main` reads of them). -/
def essEvolutionPlot : Tool where
  name := "ess_evolution_plot"
  opts := [
    ⟨"--chains-regex", .value, true, true⟩, ⟨"--output", .write, true, true⟩, ⟨"--n-split", .value, false, true⟩,
    ⟨"--method", .value, false, true⟩, ⟨"--title", .value, false, true⟩, ⟨"--x-scale", .value, false, true⟩,
    ⟨"--y-scale", .value, false, true⟩, ⟨"--labels", .value, false, true⟩, ⟨"--use-latex", .value, false, true⟩,
    ⟨"--font-family", .value, false, true⟩, ⟨"--dpi", .value, false, true⟩]

/-- gwkokab_scripts/ess_plot.py:11–65 (the options) and 70–158 (what `main` reads of them). -/
def essPlot : Tool where
  name := "ess_plot"
  opts := [
    ⟨"--train-chain-regex", .value, true, true⟩, ⟨"--production-chain-regex", .value, true, true⟩, ⟨"--output", .write, true, true⟩,
    ⟨"--labels", .value, true, true⟩, ⟨"--width", .value, false, true⟩, ⟨"--height", .value, false, true⟩,
    ⟨"--use-latex", .value, false, true⟩, ⟨"--font-family", .value, false, true⟩, ⟨"--dpi", .value, false, true⟩]

/-- gwkokab_scripts/hist_overplot.py:13–110 (the options) and 115–172 (what `main` reads of them). -/
def histOverplot : Tool where
  name := "hist_overplot"
  opts := [
    ⟨"--data", .read, true, true⟩, ⟨"--delimiter", .value, false, false⟩, ⟨"--output", .write, true, true⟩,
    ⟨"--column-names", .value, true, true⟩, ⟨"--labels", .value, false, true⟩, ⟨"--xlabel", .value, false, true⟩,
    ⟨"--ylabel", .value, false, true⟩, ⟨"--title", .value, false, true⟩, ⟨"--size", .value, false, true⟩,
    ⟨"--use-latex", .value, false, true⟩, ⟨"--font-family", .value, false, true⟩, ⟨"--dpi", .value, false, true⟩,
    ⟨"--bins", .value, false, true⟩, ⟨"--alpha", .value, false, true⟩, ⟨"--x-scale", .value, false, true⟩,
    ⟨"--y-scale", .value, false, true⟩]

/-- gwkokab_scripts/joint_plot.py:13–98 (the options) and 103–136 (what `main` reads of them; its last line is
`g.close("all")`, and a seaborn `JointGrid` has no `close`). -/
def jointPlot : Tool where
  name := "joint_plot"
  opts := [
    ⟨"--data", .read, true, true⟩, ⟨"--output", .write, true, true⟩, ⟨"--x-column-name", .value, true, true⟩,
    ⟨"--y-column-name", .value, true, true⟩, ⟨"--xlabel", .value, false, true⟩, ⟨"--ylabel", .value, false, true⟩,
    ⟨"--title", .value, false, true⟩, ⟨"--size", .value, false, false⟩, ⟨"--cmap", .value, false, true⟩,
    ⟨"--color", .value, false, true⟩, ⟨"--use-latex", .value, false, true⟩, ⟨"--font-family", .value, false, true⟩,
    ⟨"--dpi", .value, false, true⟩]
  raisesAfterSaving := true

/-- gwkokab_scripts/r_hat_plot.py:23–82 (the options) and 87–166 (what `main` reads of them). -/
def rHatPlot : Tool where
  name := "r_hat_plot"
  opts := [
    ⟨"--chains-regex", .value, true, true⟩, ⟨"--output", .write, true, true⟩, ⟨"--n-split", .value, false, true⟩,
    ⟨"--title", .value, false, true⟩, ⟨"--x-scale", .value, false, true⟩, ⟨"--y-scale", .value, false, true⟩,
    ⟨"--labels", .value, false, true⟩, ⟨"--use-latex", .value, false, true⟩, ⟨"--font-family", .value, false, true⟩,
    ⟨"--dpi", .value, false, true⟩]

/-- gwkokab_scripts/scatter2d.py:22–122 (the options) and 127–180 (what `main` reads of them). -/
def scatter2d : Tool where
  name := "scatter2d"
  opts := [
    ⟨"--data", .read, true, true⟩, ⟨"--output", .write, true, true⟩, ⟨"--x-value-column-name", .value, true, true⟩,
    ⟨"--y-value-column-name", .value, true, true⟩, ⟨"--title", .value, false, true⟩, ⟨"--xlabel", .value, false, true⟩,
    ⟨"--ylabel", .value, false, true⟩, ⟨"--x-scale", .value, false, true⟩, ⟨"--y-scale", .value, false, true⟩,
    ⟨"--color", .value, false, true⟩, ⟨"--legend", .value, false, true⟩, ⟨"--pointer-size", .value, false, true⟩,
    ⟨"--override-color", .value, false, true⟩, ⟨"--use-latex", .value, false, true⟩, ⟨"--font-family", .value, false, true⟩,
    ⟨"--dpi", .value, false, true⟩]

/-- gwkokab_scripts/scatter3d.py:22–128 (the options) and 133–188 (what `main` reads of them). -/
def scatter3d : Tool where
  name := "scatter3d"
  opts := [
    ⟨"--data", .read, true, true⟩, ⟨"--output", .write, true, true⟩, ⟨"--x-value-column-name", .value, true, true⟩,
    ⟨"--y-value-column-name", .value, true, true⟩, ⟨"--z-value-column-name", .value, true, true⟩, ⟨"--title", .value, false, true⟩,
    ⟨"--xlabel", .value, false, true⟩, ⟨"--ylabel", .value, false, true⟩, ⟨"--zlabel", .value, false, true⟩,
    ⟨"--color-map", .value, false, true⟩, ⟨"--color", .value, false, true⟩, ⟨"--color-bar", .value, false, true⟩,
    ⟨"--alpha", .value, false, true⟩, ⟨"--use-latex", .value, false, true⟩, ⟨"--font-family", .value, false, true⟩,
    ⟨"--dpi", .value, false, true⟩]

/-- The plotting scripts whose output is opened by argparse: every `type=argparse.FileType("w")` of the repository, e.g.
gwkokab_scripts/corner_plot.py:26. -/
def tools : List Tool :=
  [batchScatter2d, batchScatter3d, chainPlot, cornerPlot, essEvolutionPlot, essPlot, histOverplot, jointPlot, rHatPlot, scatter2d, scatter3d]

end GW.PlotFiles
