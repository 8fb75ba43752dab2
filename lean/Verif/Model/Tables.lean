import Verif.Model.Tools
import Mathlib.Data.Nat.Basic

/-!
# Text tables: the writers and the readers

Every tool of the package exchanges samples through text files: a header line with the names of the columns and one line per sample.  This file models the
three ways in which the package writes such a file (`np.savetxt` with `comments=""`, `comments="#"` and the default `"# "`) and the five ways in which
it reads one (`pd.read_csv` with and without `skiprows=1`, `np.loadtxt`, the header line read by hand, and `pd.read_csv` with `comment="#"`).

A file is a list of lines and a line the list of its words, those separated by single spaces.  A word is a number or another text: the decimal form of a
number is not modelled (trusted: what `np.savetxt` prints, both readers parse back).  Names of columns are words, so they hold no space and are not numbers.
-/

namespace GW.Tables
open GW.Tools (Err)

/-- A word of a line.  Source: files written at gwkanal/core/flowMC_based.py lines 749–815. -/
inductive Tok (V : Type) where
  | txt (s : String)
  | val (v : V)
deriving DecidableEq, Repr

/-- A line as its words; files written at gwkanal/core/flowMC_based.py lines 749–815. -/
abbrev Line (V : Type) := List (Tok V)
/-- A text file; files written at gwkanal/core/flowMC_based.py lines 749–815. -/
abbrev File (V : Type) := List (Line V)

/-! ## Writing -/

/-- The argument `comments` of `np.savetxt`: `""` (`gwkanal/core/population.py` lines 254, 272 and 339), `"#"` (`gwkanal/core/numpyro_based.py` line 53,
`gwkanal/core/flowMC_based.py` line 710) or the default `"# "` (`numpyro_based.py` lines 37–41, `flowMC_based.py` lines 749–753 and 799–803,
`gwkanal/core/sage.py` lines 280–284). -/
inductive Comments where
  | none
  | hash
  | hashSpace
deriving DecidableEq, Repr

/-- The header line: `comments` followed by the names joined by spaces, split into words.  `labels` is not empty.
Source: gwkanal/core/flowMC_based.py lines 749–758. -/
def headerLine {V} : Comments → List String → Line V
  | .none, ls => ls.map .txt
  | .hash, [] => [.txt "#"]
  | .hash, l :: ls => .txt ("#" ++ l) :: ls.map .txt
  | .hashSpace, ls => .txt "#" :: ls.map .txt

/-- `np.savetxt(file, rows, header=" ".join(labels), comments=…)`.
Source: gwkanal/core/flowMC_based.py lines 749–758, gwkanal/core/population.py lines 250–280. -/
def savetxt {V} (c : Comments) (labels : List String) (rows : List (List V)) : File V :=
  headerLine c labels :: rows.map (·.map .val)

/-! ## Reading -/

/-- A `pandas.DataFrame`; `none` is a missing cell (NaN).  Source: gwkokab_scripts/joint_plot.py line 118. -/
structure Frame (V : Type) where
  columns : List (Tok V)
  rows : List (List (Option (Tok V)))
deriving DecidableEq, Repr

/-- The cells of a line in a table of `w` columns: a short line is filled with NaN on the right, the excess words of a long one become the index, on
the left.  (pandas takes the number of index columns from the first line of data; here all lines of data have one length.).
Source: gwkokab_scripts/joint_plot.py line 118. -/
def fit {V} (w : ℕ) (l : Line V) : List (Option (Tok V)) := (l.drop (l.length - w)).map some ++ List.replicate (w - l.length) none

/-- `pd.read_csv(file, delimiter=" ", skiprows=skip)`: the first line after the skipped ones names the columns.  An empty file raises `EmptyDataError`, a
`ValueError`.  Source: gwkokab_scripts/joint_plot.py line 118, corner_plot.py line 145. -/
def readCsv {V} (skip : ℕ) (f : File V) : Except Err (Frame V) :=
  match f.drop skip with
  | [] => .error .valueError
  | h :: ls => .ok { columns := h, rows := ls.map (fit h.length) }

/-- `df[name].to_numpy()`.  Source: gwkokab_scripts/scatter2d.py lines 146–150. -/
def Frame.col {V} [DecidableEq V] (df : Frame V) (name : String) : Except Err (List (Option (Tok V))) :=
  match df.columns.findIdx? (· == .txt name) with
  | none => .error .key
  | some j => .ok (df.rows.map fun r => (r[j]?).getD none)

/-- Whether a word starts a comment.  Source: gwkokab_scripts/hist_overplot.py line 140, ess_plot.py line 94. -/
def isComment {V} : Tok V → Bool
  | .txt s => s.toList.head? == some '#'
  | .val _ => false

/-- The words of a line before a comment.  (A `#` inside a word is not considered.).
Source: gwkokab_scripts/hist_overplot.py line 140, ess_plot.py line 94. -/
def uncomment {V} (l : Line V) : Line V := l.takeWhile (!isComment ·)

/-- The lines which are not empty after the comments are removed.  Source: gwkokab_scripts/hist_overplot.py line 140, ess_plot.py line 94. -/
def dataLines {V} (f : File V) : File V := (f.map uncomment).filter (!·.isEmpty)

/-- A word as a number.  Source: gwkokab_scripts/ess_plot.py line 94. -/
def Tok.number? {V} : Tok V → Option V
  | .val v => some v
  | .txt _ => none

/-- `np.loadtxt(file, skiprows=skip)`: a word which is not a number, or lines of different lengths, raise `ValueError`.  The squeezing of tables of one row or one
column is left to the callers.  Source: gwkokab_scripts/r_hat_plot.py line 106, gwkanal/core/population.py line 305. -/
def loadtxt {V} (skip : ℕ) (f : File V) : Except Err (List (List V)) :=
  let ls := dataLines (f.drop skip)
  if ls.all (fun l => l.length == (ls.headD []).length) then
    match ls.mapM (fun l => l.mapM Tok.number?) with
    | some rows => .ok rows
    | none => .error .valueError
  else .error .valueError

/-- `str.lstrip("#")`.  Source: gwkokab_scripts/corner_overplot.py line 162, hist_overplot.py line 138. -/
def lstripHash (s : String) : String := String.ofList (s.toList.dropWhile (· == '#'))

/-- `f.readline().lstrip("#").strip().split()` (`gwkokab_scripts/hist_overplot.py` lines 137–138, `corner_overplot.py` lines 161–162 and 178–179). -/
def readHeader {V} (f : File V) : List (Tok V) :=
  match f with
  | [] => []
  | [] :: _ => []
  | (.val v :: ts) :: _ => .val v :: ts
  | (.txt s :: ts) :: _ => if lstripHash s = "" then ts else .txt (lstripHash s) :: ts

/-! ## The scripts -/

/-- A column asked for by its name: `scatter2d.py` lines 146–148, `scatter3d.py` lines 148–151, `batch_scatter2d.py` lines 141–143, `batch_scatter3d.py` lines
177–180, `joint_plot.py` lines 118–123, and the event files of `gwkanal/core/inference_io/_discrete.py` line 150. -/
def namedColumn {V} [DecidableEq V] (f : File V) (name : String) : Except Err (List (Option (Tok V))) := do
  let df ← readCsv 0 f
  df.col name

/-- All the samples: `corner_plot.py` line 145, `chain_plot.py` lines 132, 144 and 183, `corner_overplot.py` line 177. -/
def allSamples {V} (f : File V) : Except Err (List (List (Option (Tok V)))) := do
  let df ← readCsv 1 f
  return df.rows

/-- The columns drawn by `hist_overplot.py` (lines 137–148): lines without comments, all of the width of the first; the header read by hand names them. -/
def histColumn {V} [DecidableEq V] (f : File V) (name : String) : Except Err (List (Option (Tok V))) :=
  match dataLines f with
  | [] => .error .valueError
  | l :: ls =>
    if l.length ≠ (readHeader f).length then .error .valueError
    else
      match (readHeader f).findIdx? (· == .txt name) with
      | none => .error .valueError
      | some j => .ok ((l :: ls).map fun r => ((fit l.length r)[j]?).getD none)

/-- `header.index(col)`: `ValueError` if missing.  Source: gwkokab_scripts/corner_overplot.py line 183. -/
def indexOf {V} [DecidableEq V] (header : List (Tok V)) (t : Tok V) : Except Err ℕ :=
  match header.findIdx? (· == t) with
  | none => .error .valueError
  | some j => .ok j

/-- The loop over the files of `corner_overplot.py` (lines 175–187) for one file, with the header of the first. -/
def overplotOne {V} [DecidableEq V] (header : List (Tok V)) (f : File V) : Except Err (List (List (Option (Tok V)))) := do
  let rows ← allSamples f
  if (readHeader f).length ≠ header.length then .error .assertion
  else do
    let idx ← (readHeader f).mapM (indexOf header)
    return rows.map fun r => idx.map fun j => (r[j]?).getD none

/-- `corner_overplot.py` lines 161–187 without column labels: the names of the axes and the samples of each file. -/
def overplot {V} [DecidableEq V] (files : List (File V)) : Except Err (List (Tok V) × List (List (List (Option (Tok V))))) :=
  match files with
  | [] => .error .index
  | f :: fs =>
    if readHeader f = [] then .error .assertion
    else do
      let data ← (f :: fs).mapM (overplotOne (readHeader f))
      return (readHeader f, data)

end GW.Tables
