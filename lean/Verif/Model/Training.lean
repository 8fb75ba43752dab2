import Verif.Model.Tools
import Verif.Model.TrainTargets
import Verif.Model.XRMath
import Verif.Model.PyDict
import Mathlib.Analysis.SpecialFunctions.Trigonometric.Basic

/-!
# Training of the detection-probability network (gwkokab/utils/train.py)

`train_regressor`, lines 195–426, with the losses of lines 27–53, `read_data` of lines 66–70 and the learning-rate schedule it asks optax 0.2.6 (uv.lock)
for.  Rows are lists of floats.  Not modelled: the network and the optimiser (arbitrary functions here), what the plots look like, the log messages.
Simplifications: sizes and numbers of epochs are natural numbers, and a data file without a row is outside the model.
-/

namespace GW.Training
open GW XR Tools PyDict

noncomputable section
open Classical

/-- A row of floats.  Source: gwkokab/utils/train.py lines 66–70. -/
abbrev Row := List XR

/-- `jnp.mean` of the entries; no entries give `0 / 0`.  Source: gwkokab/utils/train.py lines 33 and 52. -/
def mean (l : List XR) : XR := l.foldl (· + ·) (fin 0) / fin l.length

/-- `jax.nn.log_sigmoid(x) = -softplus(-x)`.  Source: inside optax's loss, used at gwkokab/utils/train.py line 52. -/
def logSigmoid (x : XR) : XR := -softplus (-x)

/-- `jnp.clip(y, eps, 1.0 - eps)`, train.py line 50. -/
def clip (eps : ℝ) (y : XR) : XR := XR.min (XR.max y (fin eps)) (fin (1 - eps))

/-- `optax.sigmoid_binary_cross_entropy(logits, labels)` for one entry: `-labels * log_sigmoid(logits) - (1 - labels) * log_sigmoid(-logits)`.
Source: used at gwkokab/utils/train.py line 52. -/
def sigmoidBce (logit label : XR) : XR := -label * logSigmoid logit - (fin 1 - label) * logSigmoid (-logit)

/-- The two losses.  Source: gwkokab/utils/train.py lines 28–53. -/
inductive Loss where
  | mse
  | bce
deriving DecidableEq

/-- One entry of the loss: `jnp.square(y - y_pred)` (line 33), or the cross-entropy with the clipped target (lines 49–52, `eps = 1e-6`). -/
def entry : Loss → XR → XR → XR
  | .mse, y, p => square (y - p)
  | .bce, y, p => sigmoidBce p (clip 1e-6 y)

/-- `mse_loss_fn`, lines 27–34, and `bce_logits_loss_fn`, lines 37–53: the mean over all entries of all rows. -/
def lossFn {M : Type} (eval : M → Row → Row) (k : Loss) (m : M) (X Y : List Row) : XR :=
  mean (List.zipWith (fun x y => List.zipWith (entry k) y (eval m x)) X Y).flatten

/-- The choice of the loss, lines 307–314. -/
def chooseLoss (lossType : String) : Except Err Loss :=
  let l := lossType.toLower
  if l = "mse" then .ok .mse
  else if l = "bce" ∨ l = "bce_logits" ∨ l = "bcelogits" then .ok .bce
  else .error .valueError

/-- `optax.linear_schedule(init, end, steps)` (a polynomial of degree one): constant if `steps <= 0`.
Source: inside optax's schedule, used at gwkokab/utils/train.py lines 289–296. -/
def linearSchedule (init fin' : ℝ) (steps : ℕ) (count : ℕ) : ℝ :=
  if steps = 0 then init else (init - fin') * (1 - ((Min.min count steps : ℕ) : ℝ) / steps) + fin'

/-- `optax.cosine_decay_schedule(init, decay_steps, alpha)`; raises unless `decay_steps > 0`.
Source: inside optax's schedule, used at gwkokab/utils/train.py lines 289–296. -/
def cosineDecay (init : ℝ) (decaySteps : ℤ) (alpha : ℝ) : Except Err (ℕ → ℝ) :=
  if ¬ 0 < decaySteps then .error .valueError
  else .ok fun count =>
    init * ((1 - alpha) * (0.5 * (1 + Real.cos (Real.pi * Min.min (count : ℝ) decaySteps / decaySteps))) + alpha)

/-- `optax.warmup_cosine_decay_schedule(init, peak, warmup_steps, decay_steps, end)`: a linear warm-up joined at `warmup_steps` to a cosine decay over the
remaining `decay_steps - warmup_steps` steps.  Source: used at gwkokab/utils/train.py lines 289–296. -/
def warmupCosine (init peak : ℝ) (warmup decaySteps : ℕ) (end' : ℝ) : Except Err (ℕ → ℝ) :=
  let alpha := if peak = 0 then 0 else end' / peak
  match cosineDecay peak ((decaySteps : ℤ) - warmup) alpha with
  | .error e => .error e
  | .ok c => .ok fun step => if step < warmup then linearSchedule init peak warmup step else c (step - warmup)

/-- The arguments of `train_regressor`, lines 195–216 (`seed` only selects the permutation, which is a parameter of the environment here). -/
structure Settings where
  inputKeys : List String
  outputKeys : List String
  batchSize : ℕ
  checkpoint : Option String
  epochs : ℕ
  validationSplit : ℚ
  learningRate : ℝ
  trainInLog : Bool
  lossType : String
  useCosine : Bool
  minLr : ℝ
  warmupEpochs : ℤ

/-- `steps_per_epoch`, line 285. -/
def stepsPerEpoch (len b : ℕ) : ℕ := Max.max 1 (len / b)

/-- `total_steps`, line 286. -/
def totalSteps (len b epochs : ℕ) : ℕ := Max.max 1 (stepsPerEpoch len b * epochs)

/-- `warmup_steps`, line 287. -/
def warmupSteps (len b epochs : ℕ) (warmupEpochs : ℤ) : ℕ :=
  Min.min (totalSteps len b epochs) ((Max.max 0 warmupEpochs).toNat * stepsPerEpoch len b)

/-- The learning rate as a function of the number of optimiser steps taken, lines 289–298. -/
def schedule (st : Settings) (len : ℕ) : Except Err (ℕ → ℝ) :=
  let total := totalSteps len st.batchSize st.epochs
  let warm := warmupSteps len st.batchSize st.epochs st.warmupEpochs
  if st.useCosine then warmupCosine 0 st.learningRate warm (Max.max 1 (total - warm)) st.minLr
  else .ok fun _ => st.learningRate

/-- What training depends on besides its arguments: the permutation drawn for `n` rows, the fresh network and optimiser state for the given sizes, the
evaluation of the network, one optimiser update at a learning rate on one batch, and the smallest positive normal float.
Source: gwkokab/utils/train.py lines 276–326. -/
structure Env (M S : Type) where
  indices : ℕ → List ℕ
  fresh : ℕ → ℕ → M × S
  eval : M → Row → Row
  update : Loss → ℝ → M → S → List Row → List Row → M × S
  tiny : ℝ

/-- `read_data`, lines 66–70: the flattened data sets; a missing one raises, and so do columns of different lengths. -/
def readData (file : Dict String (List XR)) (keys : List String) : Except Err (ℕ × (String → List XR)) :=
  if keys.all fun k => (get? file k).isSome then
    let col := fun k => (get? file k).getD []
    match keys with
    | [] => .ok (0, col)
    | k :: ks => if ks.all fun k' => (col k').length = (col k).length then .ok ((col k).length, col) else .error .valueError
  else .error .key

/-- `df[keys].to_numpy()`, lines 235–236. -/
def rowsOf (n : ℕ) (col : String → List XR) (keys : List String) : List Row := (List.range n).map fun i => keys.map fun k => (col k).getD i nan

/-- `range(0, len, b)`.  Source: gwkokab/utils/train.py line 337. -/
def starts (len b : ℕ) : List ℕ := (List.range ((len + b - 1) / b)).map (· * b)

/-- `l[i : i + b]`.  Source: gwkokab/utils/train.py lines 338–339. -/
def slice {α : Type} (l : List α) (i b : ℕ) : List α := (l.drop i).take b

/-- The loop state: network, optimiser state, number of optimiser steps taken.  Source: gwkokab/utils/train.py lines 317–340. -/
abbrev Loop (M S : Type) := M × S × ℕ

/-- One optimiser step, lines 316–325: the loss of the network before the update, then the update. -/
def makeStep {M S : Type} (env : Env M S) (k : Loss) (lr : ℕ → ℝ) (l : Loop M S) (x y : List Row) : Loop M S × XR :=
  let loss := lossFn env.eval k l.1 x y
  let (m, s) := env.update k (lr l.2.2) l.1 l.2.1 x y
  ((m, s, l.2.2 + 1), loss)

/-- The mini-batch loop of one epoch, lines 335–341. -/
def epochPass {M S : Type} (env : Env M S) (k : Loss) (lr : ℕ → ℝ) (b : ℕ) (trX trY : List Row) (l : Loop M S) : Loop M S × XR :=
  (starts trX.length b).foldl
    (fun acc i =>
      let (l', loss) := makeStep env k lr acc.1 (slice trX i b) (slice trY i b)
      (l', acc.2 + loss))
    (l, fin 0)

/-- The epochs, lines 333–350: the reported training loss divides by `max(1, len // b)`, then the validation loss of the updated network. -/
def epochLoop {M S : Type} (env : Env M S) (k : Loss) (lr : ℕ → ℝ) (b : ℕ) (trX trY teX teY : List Row) :
    ℕ → Loop M S → Loop M S × List XR × List XR
  | 0, l => (l, [], [])
  | e + 1, l =>
    let (l', total) := epochPass env k lr b trX trY l
    let loss := total / fin ((Max.max 1 (trX.length / b) : ℕ) : ℝ)
    let val := lossFn env.eval k l'.1 teX teY
    let (l'', ls, vs) := epochLoop env k lr b trX trY teX teY e l'
    (l'', loss :: ls, val :: vs)

/-- A file written: the network with its names and flag, the loss curves, the squared residuals of all rows (drawn sorted).
Source: gwkokab/utils/train.py lines 362–425. -/
inductive Written (M : Type) where
  | checkpoint (path : String) (model : M) (names : List String) (isLog : Bool)
  | curves (path : String) (train val : List XR)
  | residuals (path : String) (sq : List XR)

/-- The targets, lines 238–245. -/
def targets (tiny : ℝ) (inLog : Bool) (Y : List Row) : List Row := if inLog then Y.map (·.map (TrainTargets.logTarget tiny)) else Y

/-- `train_regressor`: the files written, in order, and how the call ends.  Source: gwkokab/utils/train.py lines 195–425. -/
def trainRegressor {M S : Type} (env : Env M S) (st : Settings) (file : Dict String (List XR)) : List (Written M) × Except Err Unit :=
  match st.checkpoint with
  | none => ([], .error .valueError)
  | some path =>
    if ¬ path.endsWith ".hdf5" then ([], .error .valueError)
    else match readData file (st.inputKeys ++ st.outputKeys) with
    | .error e => ([], .error e)
    | .ok (n, col) =>
      let X := rowsOf n col st.inputKeys
      let Y := targets env.tiny st.trainInLog (rowsOf n col st.outputKeys)
      match trainTestSplit X Y (env.indices n) st.batchSize st.validationSplit with
      | .error e => ([], .error e)
      | .ok (trX, teX, trY, teY) =>
        let (m₀, s₀) := env.fresh st.inputKeys.length st.outputKeys.length
        match schedule st trX.length with
        | .error e => ([], .error e)
        | .ok lr =>
          match chooseLoss st.lossType with
          | .error e => ([], .error e)
          | .ok k =>
            let (l, ls, vs) := epochLoop env k lr st.batchSize trX trY teX teY st.epochs (m₀, s₀, 0)
            let done := [.checkpoint path l.1 st.inputKeys st.trainInLog, .curves (path ++ "_loss.png") ls vs]
            if st.outputKeys.length ≠ 1 then (done, .error .valueError)
            else
              let sq := List.zipWith (fun x y => (List.zipWith (entry .mse) y (env.eval l.1 x)).headD nan) X Y
              (done ++ [.residuals (path ++ "_total_loss.png") sq], .ok ())

end

end GW.Training
