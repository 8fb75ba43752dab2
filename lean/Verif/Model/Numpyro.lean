import Verif.Model.Key
import Verif.Model.PyDict
import Verif.Model.Tools

/-!
# NumPyro chains: batches and files

Model of `_save_inference_data` and `_run_mcmc`, `/repo/src/gwkanal/core/numpyro_based.py`.

The sampler is an oracle: run with a key and a number of chains, it returns for each chain a list of draws, a draw giving a value
to every label.  The file system is a dictionary from file names to lines.
-/

namespace GW.Numpyro
open PyDict (Dict get?)
open GW.Tools (Err)

/-- A line of a text file: the header, or a row of values.  Source: gwkanal/core/numpyro_based.py lines 37–55. -/
inductive Line (V : Type) where
  | header (labels : List String)
  | row (values : List V)
deriving DecidableEq, Repr

/-- The text files by name, gwkanal/core/numpyro_based.py lines 28–55. -/
abbrev Files (V : Type) := Dict String (List (Line V))

/-- Rows of one chain: the columns are the labels (line 31). -/
def chainRows {V} (labels : List String) (chain : List (String → V)) : List (Line V) :=
  chain.map fun draw => .row (labels.map draw)

/-- The loop writing one file per chain (lines 49-56). -/
def writeChains {V} (labels : List String) (start : Nat) : List (List (String → V)) → Files V → Files V
  | [], fs => fs
  | c :: cs, fs =>
    writeChains labels (start + 1) cs
      (PyDict.set fs ("chain_" ++ toString start ++ ".dat") (.header labels :: chainRows labels c))

/-- `_save_inference_data` (lines 28-56); `combined` is the name of the file with all the samples. -/
def save {V} (combined : String) (labels : List String) (samples : List (List (String → V))) (start : Nat) (fs : Files V) : Files V :=
  let rows := (samples.map (chainRows labels)).flatten
  let fs :=
    if start = 0 then PyDict.set fs combined (.header labels :: rows)
    else PyDict.set fs combined ((get? fs combined).getD [] ++ rows)
  writeChains labels start samples fs

/-- `chain_method` after lines 66-73. -/
def effectiveMethod (chainMethod : String) (nDevices : Nat) : String :=
  if chainMethod ≠ "parallel" ∧ nDevices > 1 then "parallel" else chainMethod

/-- `batch_size` (lines 76-78). -/
def batchSize (chainMethod : String) (nDevices nChains : Nat) : Nat :=
  if effectiveMethod chainMethod nDevices = "vectorized" then nChains else min nChains nDevices

/-- State of the run: the key, the index of the next chain, the files, and the calls of the sampler made so far.
Source: gwkanal/core/numpyro_based.py lines 83–101. -/
structure St (V : Type) where
  key : Key
  chainIdx : Nat
  files : Files V
  calls : List (Key × Nat) := []

/-- `_run_batch_and_save` (lines 86-93), with the number of chains of the sampler object, and the update of `chain_idx`. -/
def runBatch {V} (sampler : Key → Nat → List (List (String → V))) (combined : String) (labels : List String) (size : Nat)
    (st : St V) : St V :=
  let subkey := Key.sub st.key 1
  { key := Key.sub st.key 0
    chainIdx := st.chainIdx + size
    files := save combined labels (sampler subkey size) st.chainIdx st.files
    calls := st.calls ++ [(subkey, size)] }

/-- The loop over batches, gwkanal/core/numpyro_based.py lines 95–101. -/
def runBatches {V} (sampler : Key → Nat → List (List (String → V))) (combined : String) (labels : List String) (size : Nat) :
    Nat → St V → St V
  | 0, st => st
  | n + 1, st => runBatches sampler combined labels size n (runBatch sampler combined labels size st)

/-- `_run_mcmc` (lines 59-102). -/
def runMcmc {V} (sampler : Key → Nat → List (List (String → V))) (combined : String) (labels : List String) (key : Key)
    (chainMethod : String) (nDevices nChains : Nat) (fs : Files V) : Except Err (St V) :=
  let size := batchSize chainMethod nDevices nChains
  if size = 0 then .error .zeroDivision
  else
    let nBatches := nChains / size
    let st := runBatches sampler combined labels size nBatches { key, chainIdx := 0, files := fs }
    let remaining := nChains - nBatches * size
    .ok (if remaining > 0 then runBatch sampler combined labels remaining st else st)

end GW.Numpyro
