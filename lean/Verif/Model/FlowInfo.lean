import Verif.Model.SamplerConfig

/-!
# The configuration report (gwkokab_scripts/flowMC_info.py)

Model of `load_config`, `infer_n_dims`, `generate_heuristics` and `main` of `/repo/src/gwkokab_scripts/flowMC_info.py`, from the content of the file and the
options to what is shown and drawn.

Simplifications: Python integers are integers and the float division in `math.ceil(a / b)` is exact; the content of the file is an object (for anything else
the first look-up raises); the layout of the tables, the colours and the rounded "effective depth" are not modelled.
-/

namespace GW.FlowInfo
open GW.PyDict GW.Settings

/-- The options with their defaults (flowMC_info.py lines 275–290). -/
structure Options where
  maxLoops : ℤ := -1
  plot : Bool := false
  plotPath : String := "flowmc_history_plot.png"
  nDims : Option ℤ := none

/-- How the program ends early: `sys.exit(1)` when the file cannot be loaded (lines 294–298), or an exception of a look-up (lines 301–311). -/
inductive Err where
  | exit (status : ℕ)
  | key (name : String)
  | type (name : String)
  | value (name : String)
deriving DecidableEq

/-- `int(v)`; `parse` is what Python makes of a text.  Source: flowMC_info.py lines 301–311. -/
noncomputable def pyInt (parse : String → Option ℤ) (name : String) : JV → Except Err ℤ
  | .atom (.int n) => .ok n
  | .atom (.bool b) => .ok (if b then 1 else 0)
  | .atom (.float x) => .ok (if 0 ≤ x then ⌊x⌋ else ⌈x⌉)
  | .atom (.str s) => match parse s with | some n => .ok n | none => .error (.value name)
  | .atom .null => .error (.type name)
  | .list _ => .error (.type name)
  | .object => .error (.type name)

/-- The look-ups in program order; one has a default.  Source: flowMC_info.py lines 301–311. -/
def wanted : List (String × Option ℤ) :=
  [("n_chains", none), ("n_local_steps", none), ("local_thinning", none), ("n_global_steps", none), ("global_thinning", none), ("history_window", none),
    ("n_max_examples", none), ("n_training_loops", none), ("n_production_loops", some 0), ("batch_size", none), ("n_epochs", none)]

/-- One look-up.  Source: flowMC_info.py lines 301–311. -/
noncomputable def number (parse : String → Option ℤ) (cfg : Cfg) (w : String × Option ℤ) : Except Err ℤ :=
  match get? cfg w.1 with
  | some v => pyInt parse w.1 v
  | none =>
    match w.2 with
    | some d => .ok d
    | none => .error (.key w.1)

/-- All look-ups.  Source: flowMC_info.py lines 301–311. -/
noncomputable def numbers (parse : String → Option ℤ) (cfg : Cfg) : List (String × Option ℤ) → Except Err (Dict String ℤ)
  | [] => .ok []
  | w :: ws =>
    match number parse cfg w with
    | .error e => .error e
    | .ok k =>
      match numbers parse cfg ws with
      | .error e => .error e
      | .ok r => .ok ((w.1, k) :: r)

/-- A variable that was assigned in lines 301–311 of flowMC_info.py. -/
def val (d : Dict String ℤ) (name : String) : ℤ := (get? d name).getD 0

/-- `infer_n_dims` (flowMC_info.py lines 35–50). -/
noncomputable def inferNDims (parse : String → Option ℤ) (cfg : Cfg) (cli : Option ℤ) : ℤ :=
  match cli with
  | some n => n
  | none =>
    match (get? cfg "n_dims").map (pyInt parse "n_dims") with
    | some (.ok n) => n
    | _ =>
      match get? cfg "mass_matrix" with
      | some (.list items) => items.length
      | _ => 0

/-- `kept_per_chain` (flowMC_info.py lines 315–319). -/
def keptPerChain (d : Dict String ℤ) : ℤ :=
  val d "n_local_steps" / max (val d "local_thinning") 1 + val d "n_global_steps" / max (val d "global_thinning") 1

/-- `kept_total_per_loop` (flowMC_info.py line 324). -/
def keptTotal (d : Dict String ℤ) : ℤ := keptPerChain d * val d "n_chains"

/-- `history_capacity` (flowMC_info.py line 325). -/
def capacity (d : Dict String ℤ) : ℤ := val d "history_window" * val d "n_chains"

/-- `loops_to_fill`: the quotient rounded up (flowMC_info.py lines 328–333). -/
def loopsToFill (d : Dict String ℤ) : ℤ :=
  if keptPerChain d > 0 ∧ val d "history_window" > 0 then -(-val d "history_window" / keptPerChain d) else 0

/-- `first_forget_loop` (flowMC_info.py line 336). -/
def firstForget (d : Dict String ℤ) : ℤ := if loopsToFill d > 0 then loopsToFill d + 1 else 0

/-- A row of the table (flowMC_info.py line 448). -/
structure Line where
  loop : ℤ
  total : ℤ
  candidates : ℤ
  nTrain : ℤ
  saturated : Bool
  forgetting : Bool
deriving DecidableEq

/-- One turn of the loop (flowMC_info.py lines 431–448). -/
def line (d : Dict String ℤ) (L : ℤ) : Line :=
  let total := keptTotal d * L
  let candidates := if capacity d > 0 then min total (capacity d) else total
  { loop := L
    total
    candidates
    nTrain := if val d "n_max_examples" > 0 then min candidates (val d "n_max_examples") else candidates
    saturated := decide (L = loopsToFill d)
    forgetting := decide (L ≥ firstForget d ∧ firstForget d > 0) }

/-- `limit` (flowMC_info.py lines 417–424). -/
def limit (d : Dict String ℤ) (o : Options) : ℤ :=
  if o.maxLoops < 0 then
    if firstForget d ≠ 0 then min (val d "n_training_loops") (firstForget d + 2) else val d "n_training_loops"
  else min o.maxLoops (val d "n_training_loops")

/-- `range(a, b)`.  Source: flowMC_info.py lines 431 and 455. -/
def pyRange (a b : ℤ) : List ℤ := (List.range (b - a).toNat).map fun (i : ℕ) => a + i

/-- The rows of the table (flowMC_info.py lines 431–448). -/
def rows (d : Dict String ℤ) (o : Options) : List Line := (pyRange 1 (limit d o + 1)).map (line d)

/-- A point of the two curves (flowMC_info.py lines 450–452 and 463–465). -/
def point (d : Dict String ℤ) (L : ℤ) : ℤ × ℤ × ℤ := (L, (line d L).candidates, (line d L).nTrain)

/-- The curves of the plot: the loops of the table and, if these are not all, the rest (flowMC_info.py lines 450–465). -/
def points (d : Dict String ℤ) (o : Options) : List (ℤ × ℤ × ℤ) :=
  (pyRange 1 (limit d o + 1)).map (point d) ++
    if o.plot = true ∧ limit d o < val d "n_training_loops" then (pyRange (limit d o + 1) (val d "n_training_loops" + 1)).map (point d) else []

/-- The suggestions (flowMC_info.py lines 92–102). -/
structure Suggestion where
  window : ℤ
  historyLoops : ℤ
  nMax : ℤ
  capacity : ℤ
  batchSize : ℤ
  hidden : List ℤ
  layers : ℤ
  trainingLoops : ℤ
  productionLoops : ℤ
deriving DecidableEq

/-- `generate_heuristics` for `n_dims ≠ 0` (flowMC_info.py lines 53–102). -/
def heuristics (nDims nChains kept : ℤ) : Suggestion :=
  let historyLoops := if nDims ≤ 15 then 5 else if nDims ≤ 30 then 6 else 8
  let target := if nDims ≤ 15 then 20000 else if nDims ≤ 30 then 30000 else 40000
  let units := if nDims ≤ 15 then 64 else if nDims ≤ 30 then 128 else 256
  let layers := if nDims ≤ 15 then 4 else if nDims ≤ 30 then 6 else 8
  let window := historyLoops * (kept / max nChains 1)
  let capacity := window * nChains
  let nMax := min target capacity
  let trainingLoops := max (4 * historyLoops) 24
  { window
    historyLoops
    nMax
    capacity
    batchSize := if nMax > 0 then max 1024 (min (nMax / 16) 10000) else 4096
    hidden := [units, units]
    layers
    trainingLoops
    productionLoops := max (2 * historyLoops) (trainingLoops / 2) }

/-- What the program shows, and what it draws into which file. -/
structure Report where
  /-- `n_dims`, unknown if zero (flowMC_info.py line 365) -/
  nDims : ℤ
  /-- the warning that the mass matrix is missing (line 370) -/
  warned : Bool
  /-- lines 382–387 -/
  capacity : ℤ
  keptLocal : ℤ
  keptGlobal : ℤ
  keptTotal : ℤ
  /-- the note on the training subset: on all visible samples or on a random subset (lines 392–399) -/
  trainsOnAll : Option Bool
  /-- the epoch (0-based) and the sampler steps where forgetting matters, if ever (lines 338–357) -/
  forgets : Option (ℤ × ℤ)
  /-- the table (line 467) -/
  table : List Line
  /-- lines 471–484 -/
  suggestion : Option Suggestion
  /-- the name of the picture and its curves (lines 487–491) -/
  picture : Option (String × List (ℤ × ℤ × ℤ))

/-- `main` after the loading (flowMC_info.py lines 301–491); `file` is none if `load_config` raised: no such file, or not JSON (lines 23–32, 294–298). -/
noncomputable def report (parse : String → Option ℤ) (o : Options) (file : Option Cfg) : Except Err Report :=
  match file with
  | none => .error (.exit 1)
  | some cfg =>
    match numbers parse cfg wanted with
    | .error e => .error e
    | .ok d =>
      let nDims := inferNDims parse cfg o.nDims
      .ok
        { nDims
          warned := decide ((get? cfg "mass_matrix").isNone)
          capacity := capacity d
          keptLocal := val d "n_local_steps" / max (val d "local_thinning") 1 * val d "n_chains"
          keptGlobal := val d "n_global_steps" / max (val d "global_thinning") 1 * val d "n_chains"
          keptTotal := keptTotal d
          trainsOnAll :=
            if val d "n_max_examples" > 0 ∧ val d "n_max_examples" < capacity d then some false
            else if val d "n_max_examples" ≥ capacity d then some true else none
          forgets :=
            if firstForget d > 0 then
              some (loopsToFill d * val d "n_epochs", loopsToFill d * val d "n_local_steps" + loopsToFill d * val d "n_global_steps")
            else none
          table := rows d o
          suggestion := if nDims > 0 then some (heuristics nDims (val d "n_chains") (keptTotal d)) else none
          picture := if o.plot then some (o.plotPath, points d o) else none }

end GW.FlowInfo
