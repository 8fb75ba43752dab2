import Verif.Model.Conversions
import Verif.Model.PyDict

/-!
# Sensitivity injections (gwkokab/poisson_mean)

`_injection_based_helper.py`, and lines 34–58 of `_injection_based.py`.

Simplifications: every numeric column of a file has the same number `n` of rows, so a column is a function on `Fin n`; attribute values are real
numbers; element-wise operations on filtered columns are written row by row; logging is dropped.
-/

namespace GW.Injections
open GW XR GW.PyDict

/-- Exceptions.  Source: gwkokab/poisson_mean/_injection_based_helper.py lines 118–242. -/
inductive Err where
  | keyError
  | typeError
  | indexError
  | noKeys          -- ValueError("Cannot find keys to filter sensitivity injections.")
  | noneFound       -- ValueError("No sensitivity injections pass threshold.")
  | noTime          -- AttributeError
  | readOnly        -- assigning to a group of a file opened with mode "r"
deriving DecidableEq, Repr

/-! ## Strings -/

/-- `s.lower()`.  Source: gwkokab/poisson_mean/_injection_based_helper.py lines 79–100. -/
def lower (s : String) : List Char := s.toList.map Char.toLower

/-- `needle in s`, `s.startswith(needle)`, `s.endswith(needle)`.  Source: gwkokab/poisson_mean/_injection_based_helper.py lines 79–100. -/
def contains (needle : List Char) (s : List Char) : Bool := decide (needle <:+: s)
/-- `s.startswith(needle)`, gwkokab/poisson_mean/_injection_based_helper.py lines 84 and 200. -/
def startsWith (needle : List Char) (s : List Char) : Bool := decide (needle <+: s)
/-- `s.endswith(needle)`, gwkokab/poisson_mean/_injection_based_helper.py lines 85 and 201. -/
def endsWith (needle : List Char) (s : List Char) : Bool := decide (needle <:+ s)

/-- `s.replace("far", "ifar")`.  Source: gwkokab/poisson_mean/_injection_based_helper.py line 94. -/
def replaceFar : List Char → List Char
  | 'f' :: 'a' :: 'r' :: cs => 'i' :: 'f' :: 'a' :: 'r' :: replaceFar cs
  | c :: cs => c :: replaceFar cs
  | [] => []

/-- `"ifar" in key.lower()`, _injection_based_helper.py:79, 100. -/
def isIfar (key : String) : Bool := contains ['i', 'f', 'a', 'r'] (lower key)

/-- The filter of lines 83–87. -/
def isFar (key : String) : Bool :=
  startsWith ['f', 'a', 'r', '_'] (lower key) || endsWith ['_', 'f', 'a', 'r'] (lower key) || contains ['_', 'f', 'a', 'r', '_'] (lower key)

/-! ## The data of a file -/

/-- A column of `n` numbers, gwkokab/poisson_mean/_injection_based_helper.py line 207. -/
abbrev Col (n : ℕ) := Fin n → XR

/-- `data`: the columns, the byte-string column "name" if there is one, and whether it is a group of a file opened read-only (format "injections")
rather than a dictionary (format "events").  Source: gwkokab/poisson_mean/_injection_based_helper.py lines 72–118. -/
structure Data (n : ℕ) where
  cols : Dict String (Col n)
  name : Option (Fin n → String)
  readOnly : Bool

noncomputable section
open Classical

/-- Lines 93–94: for every FAR column, `data[far_key.replace("far", "ifar")] = 1 / data[far_key][()]`. -/
def addIfar {n : ℕ} (farKeys : List String) (cols : Dict String (Col n)) : Dict String (Col n) :=
  farKeys.foldl (fun d k => match get? d k with
    | some c => PyDict.set d (String.ofList (replaceFar k.toList)) fun i => fin 1 / c i
    | none => d) cols

/-- `data[key][()] > threshold`.  Source: gwkokab/poisson_mean/_injection_based_helper.py line 101. -/
def above (c : XR) (t : ℝ) : Bool := decide (lt (fin t) c)

/-- Lines 102–104 for one row. -/
def gwtc1 {n : ℕ} (name : Option (Fin n → String)) (snr : Option (Col n)) (t : ℝ) (i : Fin n) : Bool :=
  match name, snr with
  | some nm, some s => (nm i == "o1" || nm i == "o2") && above (s i) t
  | _, _ => false

/-- `get_found_injections`, lines 72–118. -/
def getFound {n : ℕ} (d : Data n) (ifarThreshold snrThreshold : Option ℝ) : Except Err (Fin n → Bool) :=
  let hasIfar := d.cols.any fun p => isIfar p.1
  let farKeys := (keys d.cols).filter isFar
  if !hasIfar && !farKeys.isEmpty && d.readOnly then .error .readOnly
  else
    let cols := if !hasIfar && !farKeys.isEmpty then addIfar farKeys d.cols else d.cols
    let t := ifarThreshold.getD 1e300
    if hasIfar || !farKeys.isEmpty then
      let snr := get? cols "optimal_snr_net"
      let semi := get? cols "semianalytic_observed_phase_maximized_snr_net"
      if d.name.isSome && snr.isNone then .error .keyError
      else if (d.name.isSome || semi.isSome) && snrThreshold.isNone then .error .typeError
      else
        let s := snrThreshold.getD 0
        .ok fun i => (cols.any fun p => isIfar p.1 && above (p.2 i) t) || gwtc1 d.name snr s i ||
          (match semi with | some c => above (c i) s | none => false)
    else match snrThreshold with
      | some s => .ok fun i => match get? cols "observed_phase_maximized_snr_net" with
        | some c => above (c i) s
        | none => match get? cols "observed_snr_net" with
          | some c => above (c i) s
          | none => false
      | none => .error .noKeys

/-! ## Loading -/

/-- Which of the known layouts the file has, lines 157, 161, 225. -/
inductive Layout where
  | injections
  | events
  | unknown
deriving DecidableEq, Repr

/-- A file: its layout, the columns of the group or table, the attributes read for that layout, and whether its name contains "v1_1ifo".
Source: gwkokab/poisson_mean/_injection_based_helper.py lines 153–227. -/
structure File (n : ℕ) where
  layout : Layout
  cols : Dict String (Col n)
  name : Option (Fin n → String)
  attrs : Dict String ℝ
  oneIfo : Bool

/-- `keys_of_interest` without "name", lines 162–192. -/
def keysOfInterest : List String :=
  ["mass1_source", "mass2_source", "mass_1_source", "mass_2_source", "spin1x", "spin1y", "spin1z", "spin2x", "spin2y", "spin2z", "redshift", "z",
    "sampling_pdf", "lnpdraw_mass1_source_mass2_source_redshift_spin1x_spin1y_spin1z_spin2x_spin2y_spin2z", "lnpdraw_mass1_source",
    "lnpdraw_mass2_source_GIVEN_mass1_source", "lnpdraw_z", "lnpdraw_spin1_magnitude", "lnpdraw_spin2_magnitude", "lnpdraw_spin1_polar_angle",
    "lnpdraw_spin2_polar_angle", "v1_1ifo", "weights", "weights_1ifo", "observed_phase_maximized_snr_net", "observed_snr_net", "optimal_snr_net",
    "semianalytic_observed_phase_maximized_snr_net"]

/-- The test of lines 199–203 for one of the two substrings. -/
def namesRate (substr : List Char) (key : String) : Bool :=
  startsWith (substr ++ ['_']) key.toList || endsWith ('_' :: substr) key.toList || contains ('_' :: substr ++ ['_']) key.toList

/-- The keys copied from the table "events", lines 193–205. -/
def keptKey (key : String) : Bool := keysOfInterest.contains key || namesRate ['f', 'a', 'r'] key || namesRate ['i', 'f', 'a', 'r'] key

/-- `int(x)`.  Source: gwkokab/poisson_mean/_injection_based_helper.py lines 159 and 208. -/
def pyInt (x : ℝ) : ℤ := if 0 ≤ x then ⌊x⌋ else ⌈x⌉

/-- gwkokab/constants.py: `SECONDS_PER_YEAR`.  Source: gwkokab/constants.py line 14. -/
def secondsPerYear : ℝ := 60 * 60 * 24 * 365.25

/-- Lines 156–226: the data, `total_generated` and `analysis_time`. -/
def openFile {n : ℕ} (f : File n) : Except Err (Data n × ℤ × ℝ) :=
  match f.layout with
  | .injections => match get? f.attrs "total_generated", get? f.attrs "analysis_time_s" with
    | some t, some a => .ok (⟨f.cols, f.name, true⟩, pyInt t, a / secondsPerYear)
    | _, _ => .error .keyError
  | .events => match get? f.attrs "total_generated" with
    | none => .error .keyError
    | some t =>
      match (["total_analysis_time", "analysis_time", "total_analysis_time_1ifo"].filterMap fun k => get? f.attrs k).head? with
      | none => .error .noTime
      | some a =>
        let years := a / secondsPerYear
        .ok (⟨f.cols.filter fun p => keptKey p.1, f.name, false⟩, pyInt t, if years = 0 then 1 / 12 else years)
  | .unknown => .error .keyError

/-- `data[key]`.  Source: gwkokab/poisson_mean/_injection_based_helper.py lines 238–246. -/
def column {n : ℕ} (d : Data n) (key : String) : Except Err (Col n) := match get? d.cols key with
  | some c => .ok c
  | none => .error .keyError

/-- `data.get(key, np.zeros(n_found))[()][found]`, lines 254–255: indexing the `n_found` zeros with a mask of length `n` raises unless they have the
same length. -/
def columnOrZeros {n : ℕ} (d : Data n) (nFound : ℕ) (key : String) : Except Err (Col n) := match get? d.cols key with
  | some c => .ok c
  | none => if nFound = n then .ok fun _ => fin 0 else .error .indexError

/-- `a_{ii}`, lines 252–259, for one row. -/
def spinMagnitude (x y z : XR) : XR := sqrt (square x + square y + square z)

/-- `gwpop_data`.  Source: gwkokab/poisson_mean/_injection_based_helper.py lines 243–308. -/
structure Loaded where
  mass1 : List XR
  mass2 : List XR
  redshift : List XR
  a1 : List XR
  cosTilt1 : List XR
  a2 : List XR
  cosTilt2 : List XR
  prior : List XR
  total : ℤ
  years : ℝ
  idx : List ℕ

/-- Lines 263–300: the density of the injections in (m1, m2, z, a1, a2, cos tilt 1, cos tilt 2) before the weights. -/
def rawPrior {n : ℕ} (d : Data n) (a1 a2 c1 c2 : Col n) : Except Err (Col n) :=
  match get? d.cols "sampling_pdf" with
  | some p => .ok fun i => p i * square (fin (2 * Real.pi) * a1 i * a2 i)
  | none => match get? d.cols "lnpdraw_mass1_source_mass2_source_redshift_spin1x_spin1y_spin1z_spin2x_spin2y_spin2z" with
    | some p => .ok fun i => exp (p i + fin 2 * log (fin (2 * Real.pi) * a1 i * a2 i))
    | none => do
      let cs ← ["lnpdraw_mass1_source", "lnpdraw_mass2_source_GIVEN_mass1_source", "lnpdraw_z", "lnpdraw_spin1_magnitude", "lnpdraw_spin2_magnitude",
        "lnpdraw_spin1_polar_angle", "lnpdraw_spin2_polar_angle"].mapM (column d)
      .ok fun i => exp (XR.sum (cs.map fun c => c i)) / sin (arccos (c1 i)) / sin (arccos (c2 i))

/-- Lines 302–307: the weights, `1.0` when there are none. -/
def weights {n : ℕ} (f : File n) (d : Data n) : Except Err (Col n) :=
  if f.oneIfo then column d "weights_1ifo" else match get? d.cols "weights" with
    | some w => .ok w
    | none => .ok fun _ => fin 1

/-- `load_injection_data`, lines 121–308. -/
def load {n : ℕ} (f : File n) (ifarThreshold snrThreshold : Option ℝ) : Except Err Loaded := do
  let (d, total, years) ← openFile f
  let (k1, k2) := if (get? d.cols "mass1_source").isSome then ("mass1_source", "mass2_source") else ("mass_1_source", "mass_2_source")
  let kz := if (get? d.cols "redshift").isSome then "redshift" else "z"
  let m1 ← column d k1
  let found ← getFound d ifarThreshold snrThreshold
  let rows := (List.finRange n).filter found
  if rows.length = 0 then .error .noneFound
  else
    let m2 ← column d k2
    let z ← column d kz
    let x1 ← columnOrZeros d rows.length "spin1x"
    let y1 ← columnOrZeros d rows.length "spin1y"
    let z1 ← column d "spin1z"
    let x2 ← columnOrZeros d rows.length "spin2x"
    let y2 ← columnOrZeros d rows.length "spin2y"
    let z2 ← column d "spin2z"
    let a1 : Col n := fun i => spinMagnitude (x1 i) (y1 i) (z1 i)
    let a2 : Col n := fun i => spinMagnitude (x2 i) (y2 i) (z2 i)
    let c1 : Col n := fun i => z1 i / a1 i
    let c2 : Col n := fun i => z2 i / a2 i
    let p ← rawPrior d a1 a2 c1 c2
    let w ← weights f d
    .ok ⟨rows.map m1, rows.map m2, rows.map z, rows.map a1, rows.map c1, rows.map a2, rows.map c2, rows.map fun i => p i / w i, total, years,
      List.range n⟩

/-! ## Conversion of the density -/

/-- One row of the dictionary handed to `apply_injection_prior`; the optional entries are those it may add.
Source: gwkokab/poisson_mean/_injection_based_helper.py lines 311–400. -/
structure Row where
  m1 : XR
  m2 : XR
  z : XR
  a1 : XR
  a2 : XR
  c1 : XR
  c2 : XR
  prior : XR
  q : Option XR := none
  mc : Option XR := none
  chiEff : Option XR := none
  chiP : Option XR := none
  chi1 : Option XR := none
  chi2 : Option XR := none
  m1d : Option XR := none
  m2d : Option XR := none
  mcd : Option XR := none
  dl : Option XR := none

/-- `aligned_spin_prior`, lines 32–49. -/
def alignedSpinPrior (spin : XR) : XR := -(log (abs spin)) / fin 2

/-- `primary_mass_to_chirp_mass_jacobian`, lines 52–69. -/
def chirpJacobian (q : XR) : XR := pow (fin 1 + q) (1 / 5) / pow q (3 / 5)

/-- What `apply_injection_prior` takes from elsewhere: the two isotropic-spin densities of `_analytic_spin_prior.py` (with amax = 1) and the Planck
2015 cosmology's `z_to_DL` and `dDLdz`.  Source: gwkokab/poisson_mean/_injection_based_helper.py lines 311–400. -/
structure Env where
  chiEffChiP : XR → XR → XR → XR
  chiEffOnly : XR → XR → XR
  zToDL : XR → XR
  dDLdz : XR → XR

/-- `data[key]` for an entry that may be absent.  Source: gwkokab/poisson_mean/_injection_based_helper.py lines 311–400. -/
def need (o : Option XR) : Except Err XR := match o with
  | some x => .ok x
  | none => .error .keyError

/-- Lines 316–318. -/
def stepRatio (ps : List String) (r : Row) : Row :=
  if ps.contains "mass_ratio" then { r with q := some (r.m2 / r.m1), prior := r.prior * r.m1 } else r

/-- Lines 319–322. -/
def stepChirp (ps : List String) (r : Row) : Except Err Row :=
  if ps.contains "chirp_mass" then do
    let q ← need r.q
    let j := chirpJacobian q
    .ok { r with mc := some (r.m1 / j), prior := r.prior * j }
  else .ok r

/-- Lines 323–367, with amax = 1. -/
def stepEffective (e : Env) (ps : List String) (r : Row) : Row :=
  if ps.contains "chi_eff" then
    let x := Conv.chiEffFromTilts r.m1 r.m2 r.a1 r.a2 r.c1 r.c2
    let q := r.q.getD (r.m2 / r.m1)
    if ps.contains "chi_p" then
      let xp := Conv.chiP r.a1 r.c1 r.a2 r.c2 q
      { r with chiEff := some x, chiP := some xp, q := some q, prior := r.prior * (e.chiEffChiP x xp q / fin ((1 / 2) ^ 2 * (1 / 1) ^ 2)) }
    else
      { r with chiEff := some x, q := some q, prior := r.prior * (e.chiEffOnly x q / fin ((1 / 2) ^ 2 * (1 / 1) ^ 2)) }
  else r

/-- Lines 368–370. -/
def stepChi1 (ps : List String) (r : Row) : Row :=
  if ps.contains "chi_1" then { r with chi1 := some (r.a1 * r.c1), prior := r.prior * (fin 2 * alignedSpinPrior (r.a1 * r.c1)) } else r

/-- Lines 371–373. -/
def stepChi2 (ps : List String) (r : Row) : Row :=
  if ps.contains "chi_2" then { r with chi2 := some (r.a2 * r.c2), prior := r.prior * (fin 2 * alignedSpinPrior (r.a2 * r.c2)) } else r

/-- Lines 374–378. -/
def stepDetected1 (ps : List String) (r : Row) : Row :=
  if ps.contains "mass_1" then { r with m1d := some (r.m1 * (fin 1 + r.z)), prior := r.prior / (fin 1 + r.z) } else r

/-- Lines 379–383. -/
def stepDetected2 (ps : List String) (r : Row) : Except Err Row :=
  if ps.contains "mass_2" then do
    let m1d ← need r.m1d
    let q ← need r.q
    .ok { r with m2d := some (m1d * q), prior := r.prior / m1d }
  else .ok r

/-- Lines 384–393. -/
def stepChirpDetected (ps : List String) (r : Row) : Except Err Row :=
  if ps.contains "chirp_mass_detector" then do
    let q ← need r.q
    let j := chirpJacobian q
    match r.m1d with
    | some m => .ok { r with mcd := some (m / j), prior := r.prior * j }
    | none => .ok { r with mcd := some (r.m1 * (fin 1 + r.z) / j), prior := r.prior * (j / (fin 1 + r.z)) }
  else .ok r

/-- Lines 394–398. -/
def stepDistance (e : Env) (ps : List String) (r : Row) : Row :=
  if ps.contains "luminosity_distance" then { r with dl := some (e.zToDL r.z), prior := r.prior / e.dDLdz r.z } else r

/-- `apply_injection_prior`, lines 311–399. -/
def applyPrior (e : Env) (ps : List String) (r : Row) : Except Err Row := do
  let r ← stepChirp ps (stepRatio ps r)
  let r ← stepDetected2 ps (stepDetected1 ps (stepChi2 ps (stepChi1 ps (stepEffective e ps r))))
  let r ← stepChirpDetected ps r
  .ok (stepDistance e ps r)

/-- `injections_dict[param]` for one row after the renaming of _injection_based.py:36–51. -/
def Row.entry (r : Row) (param : String) : Option XR :=
  if param = "mass_1_source" then some r.m1
  else if param = "mass_2_source" then some r.m2
  else if param = "redshift" then some r.z
  else if param = "a_1" then some r.a1
  else if param = "a_2" then some r.a2
  else if param = "cos_tilt_1" then some r.c1
  else if param = "cos_tilt_2" then some r.c2
  else if param = "mass_ratio" then r.q
  else if param = "chirp_mass" then r.mc
  else if param = "chi_eff" then r.chiEff
  else if param = "chi_p" then r.chiP
  else if param = "chi_1" then r.chi1
  else if param = "chi_2" then r.chi2
  else if param = "mass_1" then r.m1d
  else if param = "mass_2" then r.m2d
  else if param = "chirp_mass_detector" then r.mcd
  else if param = "luminosity_distance" then r.dl
  else none

/-- _injection_based.py:52–58 for one row: the sample handed to the model, in the order of `parameters`, and its log weight. -/
def prepare (e : Env) (ps : List String) (r : Row) : Except Err (List XR × XR) := do
  let r ← applyPrior e ps r
  let xs ← ps.mapM fun p => need (r.entry p)
  .ok (xs, log r.prior)

end

end GW.Injections
