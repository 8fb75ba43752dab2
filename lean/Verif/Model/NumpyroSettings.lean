import Verif.Model.Numpyro
import Mathlib.Data.Rat.Defs

/-!
# The settings file of the NumPyro driver

Model of `NumpyroBased.driver`, `/repo/src/gwkanal/core/numpyro_based.py` lines 107–136, of the arguments of the sampler in `_run_mcmc`, lines 65–83, and of the template
`/repo/src/gwkokab_scripts/numpyro_cfg_template.py` lines 8–39.  `NUTS` and `MCMC` are not modelled: the model is what they are called with.
-/

namespace GW.NumpyroSettings
open GW.PyDict (Dict get?)
open GW.Tools (Err)

/-- A JSON value; numbers are rationals.  Source: gwkanal/core/numpyro_based.py lines 117–126. -/
inductive J where
  | null
  | bool (b : Bool)
  | num (q : ℚ)
  | str (s : String)
  | list (l : List J)
  | obj (d : List (String × J))

/-- `d` without the key `k`, as `d.pop(k)` leaves it.  Source: gwkanal/core/numpyro_based.py lines 66, 74, 120–128. -/
def erase (d : Dict String J) (k : String) : Dict String J := d.filter fun p => p.1 ≠ k

/-- The argument `dense_mass` of `NUTS`: a value of the file, or a list of tuples.  Source: gwkanal/core/numpyro_based.py lines 128–136. -/
inductive Dense where
  | asIs (j : J)
  | blocks (l : List (List J))

/-- `tuple(x)` (line 134): a string gives its characters, a dict its keys; numbers, booleans and `None` are not iterable. -/
def toTuple : J → Except Err (List J)
  | .list l => .ok l
  | .str s => .ok (s.toList.map fun c => .str (String.singleton c))
  | .obj d => .ok (d.map fun p => .str p.1)
  | _ => .error .type

/-- Lines 128–134. -/
def denseMass (kernel : Dict String J) : Except Err Dense :=
  match (get? kernel "dense_mass").getD (.bool false) with
  | .list l =>
    match l.mapM toTuple with
    | .ok t => .ok (.blocks t)
    | .error e => .error e
  | j => .ok (.asIs j)

/-- `num_chains` as a number of chains (line 74 and its uses): a missing one is 1, a boolean counts as 0 or 1, and `0` fails in the division of line 78.  A value which is not an
integer fails in `min`, in the division or in `range`.  Negative numbers are outside the model. -/
def numChains : Option J → Except Err ℕ
  | none => .ok 1
  | some (.num q) => if q.den ≠ 1 then .error .type else if q.num = 0 then .error .zeroDivision else if q.num < 0 then .error .notImplemented else .ok q.num.toNat
  | some (.bool true) => .ok 1
  | some (.bool false) => .error .zeroDivision
  | some _ => .error .type

/-- A value as `chain_method`: only strings are equal to the names of the methods.  Source: gwkanal/core/numpyro_based.py lines 66–81. -/
def methodName : J → String
  | .str s => s
  | _ => ""

/-- What the library is called with.  Source: gwkanal/core/numpyro_based.py lines 83 and 136. -/
structure Plan where
  dense : Dense
  kernelArgs : Dict String J
  chains : ℕ
  batch : ℕ
  method : String
  mcmcArgs : Dict String J


/-- The values `chain_method`, `num_chains`, and the rest (lines 66–83). -/
def mcmcPlan (mcmc : Dict String J) (nDevices : ℕ) (dense : Dense) (kernelArgs : Dict String J) : Except Err Plan :=
  match get? mcmc "chain_method" with
  | none => .error .key
  | some m =>
    match numChains (get? mcmc "num_chains") with
    | .error e => .error e
    | .ok n =>
      let batch := Numpyro.batchSize (methodName m) nDevices n
      .ok { dense, kernelArgs, chains := n, batch
            method := if batch = 1 then "sequential" else Numpyro.effectiveMethod (methodName m) nDevices
            mcmcArgs := erase (erase mcmc "chain_method") "num_chains" }

/-- `driver` up to the call of the sampler, for the content of the settings file.  Both sections are looked up before either is used.
Source: gwkanal/core/numpyro_based.py lines 107–140 and 58–83. -/
def plan (settings : J) (nDevices : ℕ) : Except Err Plan :=
  match settings with
  | .obj cfg =>
    match get? cfg "kernel", get? cfg "mcmc" with
    | none, _ => .error .valueError
    | some .null, _ => .error .valueError
    | _, none => .error .valueError
    | _, some .null => .error .valueError
    | some (.obj kernel), some (.obj mcmc) =>
      match denseMass kernel with
      | .error e => .error e
      | .ok dense => mcmcPlan mcmc nDevices dense (erase kernel "dense_mass")
    | _, _ => .error .type
  | _ => .error .type

/-- `get_cfg()` of the template (lines 17–39). -/
def template : J := .obj
  [("kernel", .obj
    [("step_size", .num 1), ("inverse_mass_matrix", .null), ("adapt_step_size", .bool true), ("adapt_mass_matrix", .bool true), ("dense_mass", .bool false),
     ("target_accept_prob", .num (4 / 5)), ("max_tree_depth", .num 8), ("find_heuristic_step_size", .bool false), ("forward_mode_differentiation", .bool false),
     ("regularize_mass_matrix", .bool true)]),
   ("mcmc", .obj
    [("num_warmup", .num 1000), ("num_samples", .num 2000), ("num_chains", .num 10), ("thinning", .num 1), ("chain_method", .str "parallel"),
     ("progress_bar", .bool true), ("jit_model_args", .bool false)])]

end GW.NumpyroSettings
