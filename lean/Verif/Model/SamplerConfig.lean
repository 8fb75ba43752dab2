import Verif.Model.PyDict
import Mathlib.LinearAlgebra.Matrix.PosDef
import Mathlib.Analysis.Matrix.Spectrum

/-!
# The flowMC settings file

Model of the reading and the validation of the settings in `FlowMCBased.driver`, `/repo/src/gwkanal/core/flowMC_based.py:831–935`, of the choice of the local
sampler (line 280) and of the template `/repo/src/gwkokab_scripts/flowMC_cfg_template.py:8–50`.

Simplifications: floats are reals (`NaN` and `Infinity`, which Python's JSON reader accepts, are not modelled); a list inside a list inside a list is only known to
be too deep; objects have no content; `strip` removes the ASCII blanks and `lower` lowers the ASCII letters.
-/

namespace GW.Settings
open GW.PyDict

/-- A JSON value that is not a list or an object.  Source: gwkanal/core/flowMC_based.py lines 831–855. -/
inductive Atom where
  | int (n : Int)
  | float (x : ℝ)
  | bool (b : Bool)
  | str (s : String)
  | null

/-- An entry of a list.  Source: gwkanal/core/flowMC_based.py lines 831–855. -/
inductive Item where
  | atom (a : Atom)
  | row (as : List Atom)
  | deep

/-- A JSON value.  Source: gwkanal/core/flowMC_based.py lines 831–855. -/
inductive JV where
  | atom (a : Atom)
  | list (items : List Item)
  | object

/-- The content of the settings file, gwkanal/core/flowMC_based.py lines 831–855. -/
abbrev Cfg := Dict String JV

/-- The expected types of the validation table (lines 859–883). -/
inductive Kind where
  | int
  | num
  | str
  | numOrSeq
  | list
  | tuple
  | bool
deriving DecidableEq

/-- Exceptions, with the name of the setting.  Source: gwkanal/core/flowMC_based.py lines 831–935. -/
inductive Err where
  | key (name : String)
  | type (name : String)
  | value (name : String)
deriving DecidableEq

/-- The settings in program order with their types and defaults (lines 833–883). -/
def settings : List (String × Kind × Option JV) :=
  [("batch_size", .int, none), ("chain_batch_size", .int, none), ("global_thinning", .int, none), ("learning_rate", .num, none),
    ("local_thinning", .int, none), ("local_sampler_name", .str, some (.atom (.str "mala"))), ("step_size", .num, none),
    ("mass_matrix", .numOrSeq, some (.atom (.float 1))), ("n_leapfrog", .int, some (.atom (.int 10))), ("n_chains", .int, none), ("n_epochs", .int, none),
    ("n_global_steps", .int, none), ("n_local_steps", .int, none), ("n_max_examples", .int, none), ("history_window", .int, some (.atom (.int 100))),
    ("n_NFproposal_batch_size", .int, none), ("n_production_loops", .int, none), ("n_training_loops", .int, none), ("rq_spline_hidden_units", .list, none),
    ("rq_spline_n_bins", .int, none), ("rq_spline_n_layers", .int, none),
    ("rq_spline_range", .tuple, some (.list [.atom (.float (-10)), .atom (.float 10)])), ("verbose", .bool, none)]

/-- One look-up (lines 833–855).  `tuple(...)` is applied to the range at once; it raises for anything that cannot be iterated over. -/
def lookup (cfg : Cfg) (s : String × Kind × Option JV) : Except Err JV :=
  match get? cfg s.1 with
  | some v =>
    match s.2.1, v with
    | .tuple, .atom (.str _) => .ok v
    | .tuple, .atom _ => .error (.type s.1)
    | _, v => .ok v
  | none =>
    match s.2.2 with
    | some d => .ok d
    | none => .error (.key s.1)

/-- The look-ups in order.  Source: gwkanal/core/flowMC_based.py lines 831–855. -/
def lookups (cfg : Cfg) : List (String × Kind × Option JV) → Except Err (Dict String JV)
  | [] => .ok []
  | s :: ss =>
    match lookup cfg s with
    | .error e => .error e
    | .ok v =>
      match lookups cfg ss with
      | .error e => .error e
      | .ok r => .ok ((s.1, v) :: r)

/-- `isinstance(x, int)` and the value: booleans are integers.  Source: gwkanal/core/flowMC_based.py line 885. -/
def Atom.int? : Atom → Option Int
  | .int n => some n
  | .bool b => some (if b then 1 else 0)
  | _ => none

/-- A number.  Source: gwkanal/core/flowMC_based.py lines 885 and 911. -/
noncomputable def Atom.num? : Atom → Option ℝ
  | .int n => some n
  | .bool b => some (if b then 1 else 0)
  | .float x => some x
  | _ => none

/-- `isinstance(var, expected_type)`; a string is a `Sequence`, a list is one too.  The range is a tuple by now.
Source: gwkanal/core/flowMC_based.py lines 884–888. -/
def hasKind : Kind → JV → Bool
  | .int, .atom a => a.int?.isSome
  | .num, .atom (.float _) => true
  | .num, .atom a => a.int?.isSome
  | .str, .atom (.str _) => true
  | .numOrSeq, .atom (.float _) => true
  | .numOrSeq, .atom (.str _) => true
  | .numOrSeq, .atom a => a.int?.isSome
  | .numOrSeq, .list _ => true
  | .list, .list _ => true
  | .tuple, _ => true
  | .bool, .atom (.bool _) => true
  | _, _ => false

/-- `var < 1` for an integer setting.  Source: gwkanal/core/flowMC_based.py lines 889–894. -/
def belowOne : JV → Bool
  | .atom a => match a.int? with | some n => decide (n < 1) | none => false
  | _ => false

/-- The validation loop (lines 859–896). -/
def validateAll (values : Dict String JV) : List (String × Kind × Option JV) → Except Err Unit
  | [] => .ok ()
  | s :: ss =>
    match get? values s.1 with
    | none => .error (.key s.1)
    | some v =>
      if hasKind s.2.1 v = false then .error (.type s.1)
      else if s.2.1 = .int ∧ belowOne v = true ∧ s.1 ≠ "chain_batch_size" then .error (.value s.1)
      else validateAll values ss

/-- Lines 897–900: every entry is a positive integer. -/
def unitsOk : JV → Bool
  | .list items => items.all fun i => match i with | .atom a => (match a.int? with | some n => decide (0 < n) | none => false) | _ => false
  | _ => false

/-- `local_sampler_name.strip().lower()`.  Source: gwkanal/core/flowMC_based.py line 903. -/
def normalName (s : String) : String := String.ofList ((((s.toList.dropWhile Char.isWhitespace).reverse.dropWhile Char.isWhitespace).reverse).map Char.toLower)

/-- Lines 902–905. -/
def samplerOk : JV → Bool
  | .atom (.str s) => normalName s ∈ ["mala", "hmc"]
  | _ => false

/-- The choice of the local sampler in the bundle: MALA for this name, HMC otherwise (line 280). -/
def isMala : JV → Bool
  | .atom (.str s) => decide (normalName s = "mala")
  | _ => false

noncomputable section
open Classical

/-- `jnp.array` of a list of numbers.  Source: gwkanal/core/flowMC_based.py line 915. -/
def vector? (items : List Item) : Option (List ℝ) := items.mapM fun i => match i with | .atom a => a.num? | _ => none

/-- `jnp.array` of a list of lists of numbers, before the check that the rows have one length.  Source: gwkanal/core/flowMC_based.py line 915. -/
def rows? (items : List Item) : Option (List (List ℝ)) := items.mapM fun i => match i with | .row as => as.mapM Atom.num? | _ => none

/-- The matrix with these rows.  Source: gwkanal/core/flowMC_based.py line 915. -/
def ofRows (n : ℕ) (rows : List (List ℝ)) : Matrix (Fin n) (Fin n) ℝ := fun i j => ((rows.getD i []).getD j 0)

/-- What `jnp.linalg.eigvalsh` works on: the input is symmetrised.  Source: gwkanal/core/flowMC_based.py line 929. -/
def symmetrised {n : ℕ} (A : Matrix (Fin n) (Fin n) ℝ) : Matrix (Fin n) (Fin n) ℝ := (1 / 2 : ℝ) • (A + A.conjTranspose)

theorem symmetrised_isHermitian {n : ℕ} (A : Matrix (Fin n) (Fin n) ℝ) : (symmetrised A).IsHermitian := by
  unfold symmetrised Matrix.IsHermitian
  simp [add_comm]

/-- The mass matrix handed to the sampler: a matrix, or (for a string) whatever was given.  Source: gwkanal/core/flowMC_based.py lines 911–935. -/
inductive Mass (n : ℕ) where
  | matrix (M : Matrix (Fin n) (Fin n) ℝ)
  | other (v : JV)

/-- Lines 911–935.  `jnp.array` raises on ragged lists, on strings and on `None`; the class of that exception
is not distinguished from that of the checks. -/
def massMatrix (n : ℕ) (v : JV) : Except Err (Mass n) :=
  match v with
  | .atom a =>
    match a.num? with
    | some m => if m ≤ 0 then .error (.value "mass_matrix") else .ok (.matrix (m • 1))
    | none => .ok (.other v)
  | .list items =>
    match vector? items with
    | some d =>
      if d.length ≠ n then .error (.value "mass_matrix")
      else if ∃ x ∈ d, x ≤ 0 then .error (.value "mass_matrix")
      else .ok (.matrix (Matrix.diagonal fun i => d.getD i 0))
    | none =>
      match rows? items with
      | none => .error (.value "mass_matrix")
      | some rows =>
        if rows.length ≠ n ∨ ∃ r ∈ rows, r.length ≠ n then .error (.value "mass_matrix")
        else if ∃ i, (symmetrised_isHermitian (ofRows n rows)).eigenvalues i ≤ 0 then .error (.value "mass_matrix")
        else .ok (.matrix (ofRows n rows))
  | .object => .ok (.other v)

/-- What the run is started with: the values, the mass matrix, and whether the local sampler is MALA (line 280). -/
structure Config (n : ℕ) where
  values : Dict String JV
  mass : Mass n
  mala : Bool

/-- `FlowMCBased.driver` up to the bundle, for priors of `n` dimensions (lines 831–935). -/
def configure (n : ℕ) (cfg : Cfg) : Except Err (Config n) :=
  match lookups cfg settings with
  | .error e => .error e
  | .ok values =>
    match validateAll values settings with
    | .error e => .error e
    | .ok _ =>
      match get? values "rq_spline_hidden_units", get? values "local_sampler_name", get? values "mass_matrix" with
      | some units, some name, some mass =>
        if unitsOk units = false then .error (.value "rq_spline_hidden_units")
        else if samplerOk name = false then .error (.value "local_sampler_name")
        else
          match massMatrix n mass with
          | .error e => .error e
          | .ok M => .ok ⟨values, M, isMala name⟩
      | _, _, _ => .error (.key "")

/-- `get_cfg` of the template script (flowMC_cfg_template.py:8–50). -/
def template : Cfg :=
  [("chain_batch_size", .atom (.int 0)), ("n_chains", .atom (.int 10)), ("batch_size", .atom (.int 1000)), ("history_window", .atom (.int 500)),
    ("n_epochs", .atom (.int 4)), ("n_max_examples", .atom (.int 100000)), ("n_NFproposal_batch_size", .atom (.int 10)), ("n_global_steps", .atom (.int 20)),
    ("n_local_steps", .atom (.int 300)), ("global_thinning", .atom (.int 1)), ("local_thinning", .atom (.int 1)), ("n_production_loops", .atom (.int 40)),
    ("n_training_loops", .atom (.int 15)), ("local_sampler_name", .atom (.str "hmc")), ("step_size", .atom (.float (1 / 100))), ("n_leapfrog", .atom (.int 5)),
    ("mass_matrix", .atom (.float 1)), ("learning_rate", .atom (.float (1 / 1000))), ("rq_spline_hidden_units", .list [.atom (.int 128), .atom (.int 128)]),
    ("rq_spline_n_bins", .atom (.int 8)), ("rq_spline_n_layers", .atom (.int 10)),
    ("rq_spline_range", .list [.atom (.float (-10)), .atom (.float 10)]), ("verbose", .atom (.bool false))]

end

end GW.Settings
