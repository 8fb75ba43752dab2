import Verif.Model.VarianceCut
import Verif.Model.Ppd
import Mathlib.Algebra.Order.Floor.Semiring
import Mathlib.Analysis.Real.Sqrt
import Mathlib.Data.List.Sort

/-!
# Command-line helpers

Models of the calculations of three scripts: `/repo/src/gwkokab_scripts/flowMC_info.py` (what a flowMC configuration means for the training set),
`/repo/src/gwkokab_scripts/diag_mass_matrix.py` (a mass matrix from a pilot run) and `/repo/src/gwkokab_scripts/ppd_plot.py` (bands and files of the plots of the
posterior predictive).  Printing and drawing are not modelled; numbers are exact.
-/

namespace GW.Scripts

/-! ## `flowMC_info.py` -/

/-- The numbers read from the configuration (lines 301–311). -/
structure Run where
  nChains : ℕ
  nLocal : ℕ
  localThin : ℕ
  nGlobal : ℕ
  globalThin : ℕ
  window : ℕ
  nMax : ℕ

/-- `kept_per_chain` (lines 315–319). -/
def Run.keptPerChain (r : Run) : ℕ := r.nLocal / max r.localThin 1 + r.nGlobal / max r.globalThin 1

/-- `kept_total_per_loop` (line 324). -/
def Run.keptTotal (r : Run) : ℕ := r.keptPerChain * r.nChains

/-- `history_capacity` (line 325). -/
def Run.capacity (r : Run) : ℕ := r.window * r.nChains

/-- `loops_to_fill` (lines 328–333): `ceil(history_window / kept_per_chain)`. -/
def Run.loopsToFill (r : Run) : ℕ :=
  if r.keptPerChain > 0 ∧ r.window > 0 then (r.window + r.keptPerChain - 1) / r.keptPerChain else 0

/-- `first_forget_loop` (line 336). -/
def Run.firstForget (r : Run) : ℕ := if r.loopsToFill > 0 then r.loopsToFill + 1 else 0

/-- A row of the table.  Source: gwkokab_scripts/flowMC_info.py line 448. -/
structure Row where
  total : ℕ
  candidates : ℕ
  nTrain : ℕ
  saturated : Bool
  forgetting : Bool
deriving DecidableEq

/-- The row of loop `L` (lines 431–448). -/
def Run.row (r : Run) (L : ℕ) : Row :=
  let total := r.keptTotal * L
  let candidates := if r.capacity > 0 then min total r.capacity else total
  { total
    candidates
    nTrain := if r.nMax > 0 then min candidates r.nMax else candidates
    saturated := L = r.loopsToFill
    forgetting := L ≥ r.firstForget ∧ r.firstForget > 0 }

/-- The suggestions of `generate_heuristics`.  Source: gwkokab_scripts/flowMC_info.py lines 53–103. -/
structure Suggestion where
  window : ℕ
  historyLoops : ℕ
  nMax : ℕ
  capacity : ℕ
  batchSize : ℕ
  trainingLoops : ℕ
  productionLoops : ℕ
deriving DecidableEq

/-- `generate_heuristics` (lines 53–102); nothing is suggested for an unknown dimension. -/
def suggest (nDims nChains keptTotal : ℕ) : Option Suggestion :=
  if nDims = 0 then none
  else
    let historyLoops := if nDims ≤ 15 then 5 else if nDims ≤ 30 then 6 else 8
    let target := if nDims ≤ 15 then 20000 else if nDims ≤ 30 then 30000 else 40000
    let kept := keptTotal / max nChains 1
    let window := historyLoops * kept
    let capacity := window * nChains
    let nMax := min target capacity
    let trainingLoops := max (4 * historyLoops) 24
    some
      { window
        historyLoops
        nMax
        capacity
        batchSize := if nMax > 0 then max 1024 (min (nMax / 16) 10000) else 4096
        trainingLoops
        productionLoops := max (2 * historyLoops) (trainingLoops / 2) }

noncomputable section

/-! ## `diag_mass_matrix.py` -/

/-- `np.atleast_2d(np.loadtxt(...))` (lines 38–41): a file with one column becomes one row. -/
def samples (file : List (List ℝ)) : List (List ℝ) :=
  match file with
  | [] => []
  | [r] => [r]
  | r :: r' :: rest => if r.length = 1 then [(r :: r' :: rest).map fun x => x.headD 0] else r :: r' :: rest

/-- A column.  Source: gwkokab_scripts/diag_mass_matrix.py lines 38–49. -/
def column (rows : List (List ℝ)) (j : ℕ) : List ℝ := rows.map fun r => r.getD j 0

/-- `np.std(column, ddof=1)` (line 49). -/
def std (c : List ℝ) : ℝ := Real.sqrt ((c.map fun x => (x - c.sum / c.length) ^ 2).sum / ((c.length : ℝ) - 1))

/-- The script: the printed numbers (lines 43–57), or `RuntimeError`. -/
def diagMass (eps : ℝ) (file : List (List ℝ)) : Except Unit (List ℝ) :=
  let s := samples file
  if s.length < 2 then .error ()
  else .ok ((List.range (s.headD []).length).map fun j => ((std (column s j)) ^ 2 + eps)⁻¹)

/-! ## `ppd_plot.py` -/

/-- `np.quantile` of one line of data with the default (linear) method, used by `get_quantiles` (lines 229–245). -/
def quantile (data : List ℝ) (p : ℝ) : ℝ :=
  let s := data.mergeSort
  let h := p * ((data.length : ℝ) - 1)
  let lo := ⌊h⌋₊
  let a := s.getD lo 0
  let b := s.getD (min (lo + 1) (data.length - 1)) 0
  a + (h - lo) * (b - a)

/-- The levels of the bands (lines 272–278). -/
def levels : List ℝ := [0.05, 0.25, 0.5, 0.75, 0.95]

/-- What is read from one file: the headers, and for each header the densities of the samples at the points of its grid.
Source: gwkokab_scripts/ppd_plot.py lines 283–287. -/
structure PlotFile where
  headers : List String
  marginals : List (List (List ℝ))

/-- What is drawn in one figure: one entry per file, the parameter and the five curves.  Source: gwkokab_scripts/ppd_plot.py lines 291–330. -/
abbrev Figure := List (String × List (List ℝ))

/-- The curves of one parameter: for each level the quantiles at all grid points.  Source: gwkokab_scripts/ppd_plot.py lines 229–244 and 302. -/
def curves (marginal : List (List ℝ)) : List (List ℝ) := levels.map fun p => marginal.map fun line => quantile line p

/-- The inner loop (lines 294–356): draw the `i`-th parameter of the file in the `i`-th figure; too many parameters are an `IndexError`. -/
def drawFile (axes : List Figure) (f : PlotFile) : Except Unit (List Figure) :=
  if f.headers.length ≤ axes.length then
    .ok (axes.mapIdx fun i fig => match f.headers[i]? with | some h => fig ++ [(h, curves (f.marginals.getD i []))] | none => fig)
  else .error ()

/-- The outer loop (lines 282–356). -/
def drawFiles : List PlotFile → List Figure → Except Unit (List Figure)
  | [], axes => .ok axes
  | f :: fs, axes =>
    match drawFile (if axes.isEmpty then f.headers.map fun _ => [] else axes) f with
    | .error e => .error e
    | .ok axes => drawFiles fs axes

/-- The file name of the `i`-th of `n` figures (lines 358–364). -/
def plotName (dir pre header : String) (n i : ℕ) : String :=
  dir ++ "/" ++ pre ++ header ++ "_ppd_plot" ++ (if n > 1 then "_" ++ toString i ++ ".pdf" else ".pdf")

/-- `main`: the files that are written, with the figures; the names use the headers of the last file (lines 358–374). -/
def plotAll (dir pre : String) (files : List PlotFile) : Except Unit (List (String × Figure)) :=
  match drawFiles files [] with
  | .error e => .error e
  | .ok axes =>
    let headers := match files.getLast? with | some f => f.headers | none => []
    if headers.length < axes.length then .error ()
    else .ok (axes.mapIdx fun i fig => (plotName dir pre (headers.getD i "") axes.length i, fig))

end

end GW.Scripts
