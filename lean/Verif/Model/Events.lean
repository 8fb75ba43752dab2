import Verif.Model.Injections
import Mathlib.Data.List.Sort
import Mathlib.Data.String.Basic

/-!
# Reading posterior samples of events and their reference priors

Models src/gwkanal/core/inference_io/_discrete.py and `_read_mean_covariances` of src/gwkanal/core/monk.py.

Simplifications: a data frame is a list of column names and a list of rows, each row a function of the column name; column arithmetic (always
elementwise here) is a function of the row.  `glob` and the files are parameters; so is the choice of rows by `DataFrame.sample`, constrained in the
specification by numpy's contract (distinct positions within range, as many as asked).  A JSON value is a null, string, integer or string-to-string
object; anything else (and pydantic's lax conversions) is not modelled.  Log messages are dropped.
-/

namespace GW.Events
open GW XR GW.PyDict GW.Injections

/-- The exceptions.  Source: gwkanal/core/inference_io/_discrete.py lines 58–322. -/
inductive Err where
  | keyError
  | valueError
  | fileNotFound
  | typeError
  | validationError
  | assertion
deriving DecidableEq

/-- The entries of the `mass_prior` literal other than None, lines 43–48. -/
inductive MassPrior where
  | detectorComponents | detectorChirpRatio | sourceComponents
deriving DecidableEq

/-- The entries of the `distance_prior` literal other than None, line 54. -/
inductive DistancePrior where
  | comoving | euclidean
deriving DecidableEq

/-- The fields, lines 34–55. -/
structure Loader where
  filenames : List String
  aliases : Dict String String := []
  maxSamples : Option ℕ := none
  massPrior : Option MassPrior := none
  spinComponent : Bool := false
  distancePrior : Option DistancePrior := none

/-- The values of a JSON configuration.  Source: gwkanal/core/inference_io/_discrete.py lines 58–97. -/
inductive Json where
  | null
  | str (s : String)
  | num (n : ℤ)
  | obj (d : Dict String String)

/-- Validation of `parameter_aliases`, line 37. -/
def parseAliases (j : Option Json) : Except Err (Dict String String) := match j with
  | none => .ok []
  | some (.obj d) => .ok d
  | _ => .error .validationError

/-- Validation of `max_samples`, line 40. -/
def parseMax (j : Option Json) : Except Err (Option ℕ) := match j with
  | none => .ok none
  | some .null => .ok none
  | some (.num n) => if 0 < n then .ok (some n.toNat) else .error .validationError
  | _ => .error .validationError

/-- Validation of `mass_prior`, lines 43–48. -/
def parseMass (j : Option Json) : Except Err (Option MassPrior) := match j with
  | none => .ok none
  | some .null => .ok none
  | some (.str "flat-detector-components") => .ok (some .detectorComponents)
  | some (.str "flat-detector-chirp-mass-ratio") => .ok (some .detectorChirpRatio)
  | some (.str "flat-source-components") => .ok (some .sourceComponents)
  | _ => .error .validationError

/-- Validation of `spin_prior`, line 51. -/
def parseSpin (j : Option Json) : Except Err Bool := match j with
  | none => .ok false
  | some .null => .ok false
  | some (.str "component") => .ok true
  | _ => .error .validationError

/-- Validation of `distance_prior`, line 54. -/
def parseDistance (j : Option Json) : Except Err (Option DistancePrior) := match j with
  | none => .ok none
  | some .null => .ok none
  | some (.str "comoving") => .ok (some .comoving)
  | some (.str "euclidean") => .ok (some .euclidean)
  | _ => .error .validationError

/-- `from_json`, lines 58–97, on the content of the configuration file (`none`: `read_json` raised ValueError).  `**raw_data` together with
`filenames=` is a TypeError when the file has that key; unknown keys are ignored by pydantic. -/
def fromJson (glob : String → List String) (raw : Option (Dict String Json)) : Except Err Loader :=
  match raw with
  | none => .error .valueError
  | some raw =>
    match get? raw "regex" with
    | none => .error .keyError
    | some (.str regex) =>
      let filenames := (glob regex).insertionSort (· ≤ ·)
      if filenames.length = 0 then .error .fileNotFound
      else if (get? raw "filenames").isSome then .error .typeError
      else do
        let a ← parseAliases (get? raw "parameter_aliases")
        let n ← parseMax (get? raw "max_samples")
        let m ← parseMass (get? raw "mass_prior")
        let s ← parseSpin (get? raw "spin_prior")
        let d ← parseDistance (get? raw "distance_prior")
        .ok { filenames := filenames, aliases := a, maxSamples := n, massPrior := m, spinComponent := s, distancePrior := d }
    | some _ => .error .typeError

/-- A row of a data frame: the value in each column.  Source: gwkanal/core/inference_io/_discrete.py line 150. -/
abbrev Rec := String → XR

/-- A data frame read by `pd.read_csv`.  Source: gwkanal/core/inference_io/_discrete.py line 150. -/
structure Frame where
  columns : List String
  rows : List Rec

/-- `df[name].to_numpy()`.  Source: gwkanal/core/inference_io/_discrete.py line 165. -/
def Frame.col (df : Frame) (name : String) : Except Err (Rec → XR) := if df.columns.contains name then .ok fun r => r name else .error .keyError

/-- `self.parameter_aliases.get(p, p)`, lines 124 and 143. -/
def Loader.name (L : Loader) (p : String) : String := (get? L.aliases p).getD p

/-- `_validate_columns`, lines 186–193. -/
def validateColumns (df : Frame) (columns : List String) : Except Err Unit := if columns.all (df.columns.contains ·) then .ok () else .error .keyError

/-- `_subsample`, lines 171–184; `pick seed total n` are the positions `df.sample(n=n, random_state=seed)` takes. -/
def subsample (L : Loader) (pick : ℕ → ℕ → ℕ → List ℕ) (df : Frame) (seed : ℕ) : Frame :=
  match L.maxSamples with
  | none => df
  | some n => if df.rows.length ≤ n then df else { df with rows := (pick seed df.rows.length n).filterMap (df.rows[·]?) }

/-- What the priors take from elsewhere: the Planck 2015 cosmology and the two isotropic-spin densities of `_analytic_spin_prior.py`.
Source: gwkanal/core/inference_io/_discrete.py lines 209–322. -/
structure Env where
  logdVcdz : XR → XR
  zToDL : XR → XR
  dDLdz : XR → XR
  chiEffChiP : XR → XR → XR → XR
  chiEffOnly : XR → XR → XR

noncomputable section

/-- `_get_q`, lines 195–207. -/
def getQ (L : Loader) (df : Frame) : Except Err (Rec → XR) :=
  if df.columns.contains (L.name "mass_ratio") then df.col (L.name "mass_ratio")
  else if df.columns.contains (L.name "mass_1_source") then do
    let m2 ← df.col (L.name "mass_2_source")
    let m1 ← df.col (L.name "mass_1_source")
    .ok fun r => m2 r / m1 r
  else do
    let m2 ← df.col (L.name "mass_2")
    let m1 ← df.col (L.name "mass_1")
    .ok fun r => m2 r / m1 r

/-- `_calculate_distance_prior`, lines 209–239. -/
def distancePrior (L : Loader) (e : Env) (ps : List String) (df : Frame) : Except Err (Rec → XR) :=
  match L.distancePrior with
  | none => .ok fun _ => fin 0
  | some dp =>
    if !ps.contains "redshift" then .error .valueError
    else do
      let z ← df.col (L.name "redshift")
      match dp with
      | .comoving => .ok fun r => e.logdVcdz (z r) + log (fin (4 * Real.pi)) - log1p (z r)
      | .euclidean => .ok fun r => fin 2 * log (e.zToDL (z r)) + log (e.dDLdz (z r))

/-- `_calculate_mass_prior`, lines 241–286. -/
def massPrior (L : Loader) (ps : List String) (df : Frame) : Except Err (Rec → XR) :=
  match L.massPrior with
  | none => .ok fun _ => fin 0
  | some mp => do
    let q ← getQ L df
    if !ps.contains "redshift" then .error .valueError
    else
      let z ← df.col (L.name "redshift")
      let lp : Rec → XR ←
        if ps.contains "mass_1_source" then do
          let m1 ← df.col (L.name "mass_1_source")
          let lp : Rec → XR := match mp with
            | .detectorComponents => fun r => fin 0 + fin 2 * log1p (z r)
            | .detectorChirpRatio => fun r => fin 0 - (log (m1 r) - log1p (z r) + log (chirpJacobian (q r)))
            | .sourceComponents => fun _ => fin 0
          pure (if ps.contains "mass_ratio" then fun r => lp r + log (m1 r) else lp)
        else if ps.contains "mass_1" then do
          let m1 ← df.col (L.name "mass_1")
          let lp : Rec → XR := match mp with
            | .detectorChirpRatio => fun r => fin 0 - (log (m1 r) + log (chirpJacobian (q r)))
            | _ => fun _ => fin 0
          pure (if ps.contains "mass_ratio" then fun r => lp r + log (m1 r) else lp)
        else pure fun _ => fin 0
      .ok (if ps.contains "chirp_mass" || ps.contains "chirp_mass_detector" then fun r => lp r + log (chirpJacobian (q r)) else lp)

/-- Lines 300–314 of `_calculate_spin_prior`. -/
def effectivePrior (L : Loader) (e : Env) (ps : List String) (df : Frame) : Except Err (Rec → XR) :=
  if ps.contains "chi_eff" then do
    let x ← df.col (L.name "chi_eff")
    let q ← getQ L df
    if ps.contains "chi_p" then do
      let xp ← df.col (L.name "chi_p")
      .ok fun r => log (e.chiEffChiP (x r) (xp r) (q r))
    else .ok fun r => log (e.chiEffOnly (x r) (q r))
  else .ok fun _ => fin 0

/-- Lines 316–320 of `_calculate_spin_prior` for one of the two keys. -/
def chiPrior (L : Loader) (ps : List String) (df : Frame) (key : String) : Except Err (Rec → XR) :=
  if ps.contains key then do
    let x ← df.col (L.name key)
    .ok fun r => log (alignedSpinPrior (x r))
  else .ok fun _ => fin 0

/-- `_calculate_spin_prior`, lines 288–322 (adding 0 where the code adds nothing). -/
def spinPrior (L : Loader) (e : Env) (ps : List String) (df : Frame) : Except Err (Rec → XR) := do
  let lp : XR := if L.spinComponent then fin 0 - log (fin 4) else fin 0
  let f ← effectivePrior L e ps df
  let g1 ← chiPrior L ps df "chi_1"
  let g2 ← chiPrior L ps df "chi_2"
  .ok fun r => lp + f r + g1 r + g2 r

/-- Lines 155–163: the log reference prior of a row. -/
def logPrior (L : Loader) (e : Env) (ps : List String) (df : Frame) : Except Err (Rec → XR) := do
  let d ← distancePrior L e ps df
  let m ← massPrior L ps df
  let s ← spinPrior L e ps df
  .ok fun r => fin 0 + d r + m r + s r

/-- The loop body, lines 147–166: the samples and log priors of one event. -/
def loadEvent (L : Loader) (e : Env) (pick : ℕ → ℕ → ℕ → List ℕ) (ps : List String) (df : Frame) (seed : ℕ) : Except Err (List (List XR) × List XR) := do
  validateColumns df (ps.map L.name)
  let df' := subsample L pick df seed
  let lp ← logPrior L e ps df'
  .ok (df'.rows.map fun r => ps.map fun p => r (L.name p), df'.rows.map lp)

/-- The loop over the files, from number `i` on; `read` is `pd.read_csv`.  Source: gwkanal/core/inference_io/_discrete.py lines 147–169. -/
def loadFrom (L : Loader) (e : Env) (read : String → Option Frame) (pick : ℕ → ℕ → ℕ → List ℕ) (ps : List String) (seed : ℕ) :
    ℕ → List String → Except Err (List (List (List XR)) × List (List XR))
  | _, [] => .ok ([], [])
  | i, event :: rest => do
    match read event with
    | none => .error .fileNotFound
    | some df => do
      let (data, lp) ← loadEvent L e pick ps df (seed + i)
      let (datas, lps) ← loadFrom L e read pick ps seed (i + 1) rest
      .ok (data :: datas, lp :: lps)

/-- `load`, lines 99–169. -/
def load (L : Loader) (e : Env) (read : String → Option Frame) (pick : ℕ → ℕ → ℕ → List ℕ) (ps : List String) (seed : ℕ) :
    Except Err (List (List (List XR)) × List (List XR)) :=
  loadFrom L e read pick ps seed 0 L.filenames

end

/-! ## monk.py -/

/-- An HDF5 group: the vector `mean` and the rows of `cov`, when present.  Source: gwkanal/core/monk.py lines 48–73. -/
structure Group where
  mean : Option (List XR)
  cov : Option (List (List XR))

/-- Lines 49–73 of monk.py for one key.  A square-shape check compares `cov.shape` with `(n_dim, n_dim)`; a nested list has that shape when it has `n_dim`
rows of `n_dim` entries. -/
def readGroup (g : Group) : Except Err (List XR × List (List XR)) :=
  match g.mean with
  | none => .error .valueError
  | some mean =>
    match g.cov with
    | none => .error .valueError
    | some cov => if cov.length = mean.length && cov.all (·.length = mean.length) then .ok (mean, cov) else .error .valueError

/-- The loop of `_read_mean_covariances`, monk.py:48–73. -/
def readGroups : List (String × Group) → Except Err (List (List XR) × List (List (List XR)))
  | [] => .ok ([], [])
  | (key, g) :: rest =>
    if !"event_".toList.isPrefixOf key.toList then readGroups rest
    else do
      let (m, c) ← readGroup g
      let (ms, cs) ← readGroups rest
      .ok (m :: ms, c :: cs)

/-- `_read_mean_covariances`, monk.py:27–75; `f` lists the groups of the file in the order of `f.keys()`. -/
def readMeanCovariances (filename : String) (f : List (String × Group)) : Except Err (List (List XR) × List (List (List XR))) :=
  if ".hdf5".toList.isSuffixOf filename.toList || ".h5".toList.isSuffixOf filename.toList then readGroups f else .error .assertion

end GW.Events
