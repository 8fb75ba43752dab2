import Verif.Model.PyDict
import Mathlib.Data.Rat.Defs

/-!
# The selection-function file (gwkokab/poisson_mean/poisson_factory.py)

The four programs that need an expected-rate estimator read a JSON object and call
`get_selection_fn_and_poisson_mean_estimator(key=…, parameters=…, **config)`.

Simplifications: the random key is left out; the values of the object are strings, numbers, `null` or anything else; running the file of a custom
estimator either raises or yields a module that has the required function or not; what the estimators do with their arguments is the subject of
Verif.Model.PoissonMean and Verif.Model.Injections.
-/

namespace GW.Selection
open GW.PyDict

/-- A value of the configuration.  Source: `read_json`, gwkanal/core/sage.py line 171. -/
inductive Val where
  | null
  | str (s : String)
  | num (q : ℚ)
  | other (what : String)
deriving DecidableEq

/-- What can be raised.  Source: gwkokab/poisson_mean/poisson_factory.py lines 36–102 and Python's binding of keyword arguments. -/
inductive Err where
  /-- `TypeError`: a keyword given twice -/
  | multiple (name : String)
  /-- `TypeError`: a required argument not given -/
  | missing (name : String)
  | unknownEstimator
  | noModulePath
  | pathNotString
  | notPython
  /-- whatever loading or running the file raises -/
  | moduleFails (path : String)
  | noFunction
deriving DecidableEq

/-- The call the factory delegates to, with its arguments.  Source: gwkokab/poisson_mean/poisson_factory.py lines 41–48, 50–57, 59–66, 100–102. -/
inductive Request where
  | injection (parameters : List String) (filename batchSize farCut snrCut : Val)
  | neuralVT (parameters : List String) (filename batchSize numSamples timeScale : Val)
  | neuralPdet (parameters : List String) (filename batchSize numSamples timeScale : Val)
  | custom (path : String) (parameters : List String) (filename batchSize : Val) (kwargs : Dict String Val)
deriving DecidableEq

/-- `del`-like removal by `pop`.  Source: Python dictionaries as used in gwkokab/poisson_mean/poisson_factory.py line 73. -/
def without (d : Dict String Val) (ns : List String) : Dict String Val := d.filter fun p => !ns.contains p.1

/-- The branch for custom estimators, gwkokab/poisson_mean/poisson_factory.py lines 67–102.  `run path` is what executing the file yields: `none` if
it raises, otherwise whether the module has `custom_poisson_mean_estimator`. -/
def custom (run : String → Option Bool) (parameters : List String) (filename batchSize : Val) (kwargs : Dict String Val) : Except Err Request :=
  match get? kwargs "python_module_path" with
  | none => .error .noModulePath
  | some .null => .error .noModulePath
  | some (.str p) =>
    if !p.endsWith ".py" then .error .notPython
    else match run p with
      | none => .error (.moduleFails p)
      | some false => .error .noFunction
      | some true => .ok (.custom p parameters filename batchSize (without kwargs ["python_module_path"]))
  | some _ => .error .pathNotString

/-- `get_selection_fn_and_poisson_mean_estimator`, gwkokab/poisson_mean/poisson_factory.py lines 36–105; `kwargs` are the keyword arguments without
a parameter of their own. -/
def factory (run : String → Option Bool) (estimatorType : Val) (parameters : List String) (filename batchSize : Val) (kwargs : Dict String Val) :
    Except Err Request :=
  if estimatorType ∉ [.str "injection", .str "neural_vt", .str "neural_pdet", .str "custom"] then .error .unknownEstimator
  else if estimatorType = .str "injection" then
    .ok (.injection parameters filename batchSize ((get? kwargs "far_cut").getD (.num 1)) ((get? kwargs "snr_cut").getD (.num 10)))
  else if estimatorType = .str "neural_vt" then
    .ok (.neuralVT parameters filename batchSize ((get? kwargs "num_samples").getD (.num 1000)) ((get? kwargs "time_scale").getD (.num 1)))
  else if estimatorType = .str "neural_pdet" then
    .ok (.neuralPdet parameters filename batchSize ((get? kwargs "num_samples").getD (.num 1000)) ((get? kwargs "time_scale").getD (.num 1)))
  else custom run parameters filename batchSize kwargs

/-- `get_selection_fn_and_poisson_mean_estimator(key=…, parameters=…, **config)`, gwkanal/core/sage.py lines 171–176, gwkanal/core/monk.py lines
164–169, gwkanal/n_pls_m_gs/genie.py lines 1090–1095, gwkanal/ecc_matters/genie.py lines 121–126: Python's binding of the keywords to the signature
of poisson_factory.py lines 23–30 (a keyword given twice is reported first, in the order of the file; of several missing arguments only the first is
recorded). -/
def select (run : String → Option Bool) (parameters : List String) (config : Dict String Val) : Except Err Request :=
  match (keys config).find? fun n => n == "key" || n == "parameters" with
  | some n => .error (.multiple n)
  | none => match get? config "estimator_type" with
    | none => .error (.missing "estimator_type")
    | some t => match get? config "filename" with
      | none => .error (.missing "filename")
      | some f => factory run t parameters f ((get? config "batch_size").getD .null) (without config ["estimator_type", "filename", "batch_size"])

end GW.Selection
