import Verif.Model.Tools
import Verif.Model.Likelihood

/-!
# Variance cut on posterior samples

Model of the post-processing in `/repo/src/gwkanal/core/sage.py` lines 205-285.
-/

namespace GW.VarianceCut
open GW GW.Tools
open Classical

/-- `np.loadtxt` followed by `device_put` (lines 228-231): a file with a single row or a single column gives a
one-dimensional array. -/
inductive Loaded where
  | matrix (rows : List (List XR))
  | vector (vals : List XR)

/-- `np.loadtxt` of the samples, gwkanal/core/sage.py line 230. -/
def loadtxt (rows : List (List XR)) : Loaded :=
  match rows with
  | [] => .vector []
  | [r] => .vector r
  | r :: r' :: rest => if r.length = 1 then .vector ((r :: r' :: rest).map fun x => x.headD 0) else .matrix (r :: r' :: rest)

/-- `np.nan_to_num(variance, nan=inf) < threshold` (lines 254-262); `big` is the largest float, the default replacement of
infinities. -/
noncomputable def below (big : ℝ) (thr : XR) (v : XR) : Bool :=
  decide (XR.lt (XR.nanToNum .pinf (.fin big) (.fin (-big)) v) thr)

/-- One iteration of the loop (lines 256-262). -/
def maskStep {α} (v : α → Bool) (m : Option (List Bool)) (c : List α) : Option (List Bool) :=
  match m with
  | none => some (c.map v)
  | some m => some (m ++ c.map v)

/-- The mask built over the batches and the remainder (lines 238-270); no batch at all is an `AssertionError`. -/
def mask {α} (v : α → Bool) (samples : List α) (batchSize : Nat) : Except Err (List Bool) := do
  let (batches, rem) ← batchAndRemainder samples batchSize
  let chunks := if rem.length > 0 then batches ++ [rem] else batches
  match chunks.foldl (maskStep v) none with
  | none => throw .assertion
  | some m => pure m

/-- `samples[mask]` (line 282). -/
def applyMask {α} (samples : List α) (mask : List Bool) : List α :=
  ((samples.zip mask).filter (·.2)).map (·.1)

/-- The whole filter on the rows of the posterior file.  `sample[variables_index[var]]` (line 213) on the scalar entries
of a one-dimensional array raises `IndexError`. -/
noncomputable def cut (variance : List XR → XR) (big : ℝ) (thr : XR) (batchSize : Nat) (file : List (List XR)) :
    Except Err (List (List XR)) :=
  match loadtxt file with
  | .vector [] => .error .assertion
  | .vector (_ :: _) => .error .index
  | .matrix rows => do
    let m ← mask (fun r => below big thr (variance r)) rows batchSize
    pure (applyMask rows m)

end GW.VarianceCut
