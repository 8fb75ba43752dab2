import Verif.Model.Tables
import Verif.Model.Scripts

/-!
# What the plotting scripts draw

Models of `/repo/src/gwkokab_scripts/chain_plot.py` (`main`, lines 107–239), `ess_plot.py` (`main`, lines 70–158), `scatter2d.py` (`main`, lines 127–180) and the
colours of `scatter3d.py` (`main`, lines 133–188) and `batch_scatter3d.py` (lines 147–211): from the files to the things drawn on the axes.  Colours, fonts, sizes,
scales, grids and the saving of the picture are left out.  A cell which is not a number stops the models; the scripts draw a gap, or stop.
-/

namespace GW.Plots
open GW.Tables (File Tok Frame readCsv loadtxt)
open GW.Tools (Err)
open GW.Scripts (quantile)

noncomputable section
open Classical

/-! ## `chain_plot.py` -/

/-- A thing drawn on an axis over the steps 0, 1, …: a line, or the area between two lines.  Source: gwkokab_scripts/chain_plot.py lines 147–170. -/
inductive Mark where
  | line (ys : List ℝ)
  | area (lo hi : List ℝ)

/-- An axis: the label of its values and what is drawn on it.  Source: gwkokab_scripts/chain_plot.py lines 171 and 194. -/
structure Panel where
  label : String
  marks : List Mark

/-- A cell as a number.  Simplification: a missing cell or text (matplotlib would leave a gap or draw categories) is an error here; no theorem is about such files.  Source: gwkokab_scripts/chain_plot.py lines 132, 144 and 183. -/
def number : Option (Tok ℝ) → Except Err ℝ
  | some (.val v) => .ok v
  | _ => .error .valueError

/-- `pd.read_csv(file, delimiter=" ", skiprows=1).to_numpy()`: the number of columns and the rows.
Source: gwkokab_scripts/chain_plot.py lines 132, 144 and 183. -/
def samples (f : File ℝ) : Except Err (ℕ × List (List ℝ)) := do
  let df ← readCsv 1 f
  let rows ← df.rows.mapM fun r => r.mapM number
  return (df.columns.length, rows)

/-- `ax.plot(data)` of a matrix: one line for each of its `w` columns.  Source: gwkokab_scripts/chain_plot.py lines 147 and 206. -/
def lines (w : ℕ) (data : List (List ℝ)) : List Mark := (List.range w).map fun j => .line (data.map fun r => r.getD j 0)

/-- `np.mean` of one line of data.  Source: gwkokab_scripts/chain_plot.py lines 150 and 189. -/
def mean (l : List ℝ) : ℝ := l.sum / l.length

/-- The two areas and the line of `--band`, taken along the last axis.  Source: gwkokab_scripts/chain_plot.py lines 149–170 and 187–228. -/
def bandMarks (data : List (List ℝ)) : List Mark :=
  [.area (data.map fun r => quantile r 0.05) (data.map fun r => quantile r 0.95),
   .area (data.map fun r => quantile r 0.25) (data.map fun r => quantile r 0.75),
   .line (data.map mean)]

/-- What is drawn for a matrix with one row for each step.  Source: gwkokab_scripts/chain_plot.py lines 146–170 and 204–228. -/
def draw (band : Bool) (w : ℕ) (data : List (List ℝ)) : List Mark := if band then bandMarks data else lines w data

/-- `data[:, i, :]` of the stacked files.  Source: gwkokab_scripts/chain_plot.py lines 182–186 and 205. -/
def slice (data : List (List (List ℝ))) (nPoints i : ℕ) : List (List ℝ) :=
  (List.range nPoints).map fun t => data.map fun d => (d.getD t []).getD i 0

/-- `main`: the axes.  `files` are in the order of `glob.glob`.  No files: `files[0]` raises `IndexError`.
Source: gwkokab_scripts/chain_plot.py lines 123–228. -/
def chainPlot (band : Bool) (labels : List String) (files : List (File ℝ)) : Except Err (List Panel) :=
  match files with
  | [] => .error .index
  | f :: _ => do
    let first ← samples f
    let nDim := first.1
    if nDim = 0 then .error .valueError
    else if nDim = 1 then do
      let marks ← files.mapM fun f => do
        let data ← samples f
        return draw band data.1 data.2
      match labels with
      | [] => .error .index
      | l :: _ => return [⟨l, marks.flatten⟩]
    else do
      let data ← files.mapM samples
      let nPoints := first.2.length
      if data.all (fun d => d.1 == nDim && d.2.length == nPoints) then
        if labels.length < nDim then .error .index
        else return (List.range nDim).map fun i => ⟨labels.getD i "", draw band files.length (slice (data.map Prod.snd) nPoints i)⟩
      else .error .valueError

/-! ## `ess_plot.py` -/

/-- What `np.loadtxt` returns: a table of one row or one column is squeezed to a vector.  Source: gwkokab_scripts/ess_plot.py lines 94 and 104. -/
inductive Loaded where
  | vec (v : List ℝ)
  | mat (m : List (List ℝ))

/-- The squeezing of `np.loadtxt`.  Source: gwkokab_scripts/ess_plot.py lines 94 and 104. -/
def squeeze (rows : List (List ℝ)) : Loaded :=
  match rows with
  | [r] => .vec r
  | rows => if (rows.headD []).length = 1 then .vec (rows.map fun r => r.headD 0) else .mat rows

/-- The chains as `az.convert_to_inference_data` sees them: one number, or `nParams` numbers, for each of `draws` draws of each chain.
Source: gwkokab_scripts/ess_plot.py lines 97–109. -/
inductive Chains where
  | scalar (draws : ℕ) (chains : List (List ℝ))
  | vector (draws nParams : ℕ) (chains : List (List (List ℝ)))

/-- `np.array` of the files: files of different shapes raise `ValueError`, and so does an empty list of files (in arviz).
Source: gwkokab_scripts/ess_plot.py lines 91–109. -/
def stack (files : List Loaded) : Except Err Chains :=
  match files with
  | [] => .error .valueError
  | .vec v :: _ => do
    let cs ← files.mapM fun f => match f with
      | .vec w => if w.length = v.length then .ok w else .error .valueError
      | .mat _ => .error .valueError
    return .scalar v.length cs
  | .mat m :: _ => do
    let w := (m.headD []).length
    let cs ← files.mapM fun f => match f with
      | .vec _ => .error .valueError
      | .mat m' => if m'.length = m.length ∧ (m'.headD []).length = w then .ok m' else .error .valueError
    return .vector m.length w cs

/-- `data.posterior.dims["draw"]`.  Source: gwkokab_scripts/ess_plot.py line 114. -/
def Chains.draws : Chains → ℕ
  | .scalar n _ => n
  | .vector n _ _ => n

/-- `az.ess(data).to_array().data.squeeze() / n_draws` as a column of a data frame with `n` rows: a single number fills the column, other lengths than `n` raise
`ValueError`.  `ess` is `az.ess` of the chains of one parameter, each the list of its draws.  Source: gwkokab_scripts/ess_plot.py lines 111–124. -/
def Chains.essColumn (ess : List (List ℝ) → ℝ) (nDraws n : ℕ) : Chains → Except Err (List ℝ)
  | .scalar _ cs => .ok (List.replicate n (ess cs / nDraws))
  | .vector _ w cs =>
    if w = 1 then .ok (List.replicate n (ess (cs.map fun m => m.map fun r => r.getD 0 0) / nDraws))
    else if w = n then .ok ((List.range w).map fun j => ess (cs.map fun m => m.map fun r => r.getD j 0) / nDraws)
    else .error .valueError

/-- A row of the plotted table: the parameter and the heights of its two bars.  Source: gwkokab_scripts/ess_plot.py lines 118–124. -/
structure EssRow where
  parameter : String
  training : ℝ
  production : ℝ

/-- The files of one kind.  Source: gwkokab_scripts/ess_plot.py lines 91–109. -/
def readChains (files : List (File ℝ)) : Except Err Chains := do
  let ls ← files.mapM fun f => do return squeeze (← loadtxt 0 f)
  stack ls

/-- `main`: the plotted table.  Source: gwkokab_scripts/ess_plot.py lines 88–124. -/
def essPlot (ess : List (List ℝ) → ℝ) (labels : List String) (train prod : List (File ℝ)) : Except Err (List EssRow) := do
  let t ← readChains train
  let p ← readChains prod
  let nDraws := t.draws
  let et ← t.essColumn ess nDraws labels.length
  let ep ← p.essColumn ess nDraws labels.length
  return (List.range labels.length).map fun i => ⟨labels.getD i "", et.getD i 0, ep.getD i 0⟩

/-! ## `scatter2d.py` -/

/-- A group of points of one colour, with its label in the legend.  Source: gwkokab_scripts/scatter2d.py lines 160–166. -/
structure Group (C : Type) where
  points : List (ℝ × ℝ)
  label : Option String
  colour : C

/-- The picture: the groups, and whether `plt.legend` is called.  Source: gwkokab_scripts/scatter2d.py lines 150–180. -/
structure Picture (C : Type) where
  groups : List (Group C)
  legend : Bool

/-- `np.unique`.  Source: gwkokab_scripts/scatter2d.py line 153. -/
def unique (l : List ℝ) : List ℝ := l.mergeSort.dedup

/-- `int(x)`: rounds towards zero.  Source: gwkokab_scripts/scatter2d.py line 164. -/
def trunc (x : ℝ) : ℤ := if 0 ≤ x then ⌊x⌋ else ⌈x⌉

/-- `l[i]` with Python's negative indices.  Source: gwkokab_scripts/scatter2d.py lines 163–164. -/
def pyIndex {C} (l : List C) (i : ℤ) : Except Err C :=
  let j := if i < 0 then i + l.length else i
  if j < 0 then .error .index
  else match l[j.toNat]? with
    | some c => .ok c
    | none => .error .index

/-- `x[color == c], y[color == c]`.  Source: gwkokab_scripts/scatter2d.py lines 159–162. -/
def selectPoints (xy : List (ℝ × ℝ)) (colour : List ℝ) (c : ℝ) : List (ℝ × ℝ) :=
  ((xy.zip colour).filter fun p => decide (p.2 = c)).map Prod.fst

/-- `args.legend[i] if args.legend else None`.  Source: gwkokab_scripts/scatter2d.py line 163. -/
def legendLabel (legend : Option (List String)) (i : ℕ) : Except Err (Option String) :=
  match legend with
  | none => .ok none
  | some l => match l[i]? with
    | some s => .ok (some s)
    | none => .error .index

/-- The branch with a colour file: `colour` are its numbers, `palette k` the palette of `k` colours of `glasbey`, `override` the option `--override-color`.
A mask of another length than the data raises `IndexError`.  `plt.legend` is not called.  (A file with a single number is an array without axes, which is not
modelled.)  Source: gwkokab_scripts/scatter2d.py lines 152–180. -/
def scatterColour {C} (palette : ℕ → List C) (override : Option (List C)) (legend : Option (List String)) (xy : List (ℝ × ℝ)) (colour : List ℝ) :
    Except Err (Picture C) := do
  let us := unique colour
  let all := override.getD (palette us.length)
  let gs ← us.zipIdx.mapM fun (u, i) =>
    if colour.length ≠ xy.length then .error .index
    else do
      let label ← legendLabel legend i
      let c ← pyIndex all (trunc u)
      return ⟨selectPoints xy colour u, label, c⟩
  return ⟨gs, false⟩

/-! ## `scatter3d.py` and `batch_scatter3d.py` -/

/-- `c=data[:, args.color] if args.color is not None else z`: a pair is not the name of a column of a `DataFrame`, so the lookup raises (`KeyError`, or
`InvalidIndexError`, depending on the version of pandas).  Source: gwkokab_scripts/scatter3d.py line 160, batch_scatter3d.py line 185. -/
def colour3d (_data : Frame ℝ) (colour : Option ℤ) (z : List (Option (Tok ℝ))) : Except Err (List (Option (Tok ℝ))) :=
  match colour with
  | some _ => .error .key
  | none => .ok z

/-- `main` up to the call of `ax.scatter`: the coordinates and the numbers which are shown as colours.  Source: gwkokab_scripts/scatter3d.py lines 147–160. -/
def scatter3d (f : File ℝ) (x y z : String) (colour : Option ℤ) :
    Except Err (List (Option (Tok ℝ)) × List (Option (Tok ℝ)) × List (Option (Tok ℝ)) × List (Option (Tok ℝ))) := do
  let df ← readCsv 0 f
  let xs ← df.col x
  let ys ← df.col y
  let zs ← df.col z
  let cs ← colour3d df colour zs
  return (xs, ys, zs, cs)

end
end GW.Plots
