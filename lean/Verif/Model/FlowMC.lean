import Mathlib.Data.List.Basic
import Mathlib.Data.Int.Basic

/-!
# The flowMC schedule, buffers and saved samples

Model of `/repo/src/gwkanal/core/flowMC_based.py`, except the HMC kernel (see `Hmc`).

The strategies themselves belong to flowMC.  Modelled of them is only where they write: a stepper called with position `p`
stores the rows of its (thinned) steps at rows `p, p+1, …` of the target buffer and then moves its position by that many rows.
A row is identified by who made it, in which call of that stepper, and at which step of the call.
-/

namespace GW.FlowMC

/-- Names of the strategies (lines 443-452). -/
inductive Strat where
  | localStepper
  | globalStepper
  | modelTrainer
  | updateState
  | updateGlobalStep
  | updateLocalStep
  | resetSteppers
  | updateModel
deriving DecidableEq, Repr

/-- Lines 454-461. -/
def trainingPhase : List Strat :=
  [.localStepper, .updateGlobalStep, .modelTrainer, .updateModel, .globalStepper, .updateLocalStep]

/-- Lines 462-467. -/
def productionPhase : List Strat := [.localStepper, .updateGlobalStep, .globalStepper, .updateLocalStep]

/-- `strategy_order` (lines 468-477). -/
def strategyOrder (nTraining nProduction : Nat) : List Strat :=
  (List.replicate nTraining trainingPhase).flatten ++ [.resetSteppers, .updateState] ++
    (List.replicate nProduction productionPhase).flatten

/-- `l[a:b]` for `0 ≤ a`.  Source: gwkanal/core/flowMC_based.py line 601. -/
def slice {α} (l : List α) (a b : Nat) : List α := (l.take b).drop a

/-- What is written to disk after a strategy (lines 609-611, nothing, 637-644). -/
inductive Saves where
  | training
  | nothing
  | production
deriving DecidableEq, Repr

/-- The strategies that `Sampler.sample` calls, in order, with what is saved after each (lines 592-644). -/
def executed (order : List Strat) : List (Strat × Saves) :=
  let nGlobal := order.count .modelTrainer
  let nLocal := ((order.length : Int) - 6 * nGlobal - 2) / 4
  let offset := 6 * nGlobal + 2
  ((List.range nGlobal).map fun i => (slice order (6 * i) (6 * (i + 1))).map (·, Saves.training)).flatten ++
    (slice order (6 * nGlobal) (6 * nGlobal + 2)).map (·, Saves.nothing) ++
    ((List.range nLocal.toNat).map fun i =>
      (slice order (offset + 4 * i) (offset + 4 * (i + 1))).map (·, Saves.production)).flatten

/-- A stored row: made by the local stepper (or the global one), in which of its calls, at which step.
Source: gwkanal/core/flowMC_based.py lines 255–278. -/
structure Row where
  isLocal : Bool
  call : Nat
  step : Nat
deriving DecidableEq, Repr

/-- Positions of the steppers, numbers of calls so far, `sampler_state["training"]`, and the two position buffers.
Source: gwkanal/core/flowMC_based.py lines 255–311. -/
structure St where
  lpos : Nat := 0
  gpos : Nat := 0
  lcalls : Nat := 0
  gcalls : Nat := 0
  training : Bool := true
  trainBuf : List (Option Row)
  prodBuf : List (Option Row)

/-- The rows of one call.  Source: flowMC's `TakeSerialSteps` and `TakeGroupSteps`, set up in gwkanal/core/flowMC_based.py lines 332–352. -/
def rows (isLocal : Bool) (call n : Nat) : List (Option Row) := (List.range n).map fun j => some ⟨isLocal, call, j⟩

/-- `Buffer.update_buffer`: `dynamic_update_slice`, which moves the start back if the update would not fit.
Source: used by the steppers set up in gwkanal/core/flowMC_based.py lines 255–380. -/
def write {α} (buf : List α) (start : Nat) (new : List α) : List α :=
  let s := min start (buf.length - new.length)
  buf.take s ++ new ++ buf.drop (s + new.length)

/-- One buffer update of a phase: rows go to the chains of the current phase, gwkanal/core/flowMC_based.py lines 255–311. -/
def St.store (st : St) (start : Nat) (new : List (Option Row)) : St :=
  if st.training then { st with trainBuf := write st.trainBuf start new }
  else { st with prodBuf := write st.prodBuf start new }

/-- The effect of one strategy on the buffers (lines 332-416); `nl`, `ng` are the rows per call of the steppers. -/
def step (nl ng : Nat) (st : St) : Strat → St
  | .localStepper =>
    { st.store st.lpos (rows true st.lcalls nl) with lpos := st.lpos + nl, lcalls := st.lcalls + 1 }
  | .globalStepper =>
    { st.store st.gpos (rows false st.gcalls ng) with gpos := st.gpos + ng, gcalls := st.gcalls + 1 }
  | .updateGlobalStep => { st with gpos := st.lpos }
  | .updateLocalStep => { st with lpos := st.gpos }
  | .resetSteppers => { st with lpos := 0, gpos := 0 }
  | .updateState => { st with training := false }
  | .modelTrainer => st
  | .updateModel => st

/-- Buffers as allocated (lines 243-269), with nothing stored. -/
def initial (nLocal localThin nGlobal globalThin nTraining nProduction : Nat) : St :=
  let perLoop := nLocal / localThin + nGlobal / globalThin
  { trainBuf := List.replicate (perLoop * nTraining) none, prodBuf := List.replicate (perLoop * nProduction) none }

/-- One run of the sampler.  Source: gwkanal/core/flowMC_based.py lines 566–644. -/
def run (nLocal localThin nGlobal globalThin nTraining nProduction : Nat) : St :=
  (executed (strategyOrder nTraining nProduction)).foldl
    (fun st s => step (nLocal / localThin) (nGlobal / globalThin) st s.1)
    (initial nLocal localThin nGlobal globalThin nTraining nProduction)

/-- `selected_indices` of `_save_samples` (lines 786-792). -/
def selectedIndices (nl ng nSteps : Nat) : List Nat := (List.range nSteps).filter fun i => i % (nl + ng) < nl

/-- `_save_samples` (lines 782-803): the rows written; `positions` has one list of rows per chain, `bad` tells whether a row has
a coordinate `-inf`. -/
def savedSamples {α} (nl ng : Nat) (bad : α → Bool) (positions : List (List α)) : List α :=
  ((positions.map fun chain =>
      (selectedIndices nl ng ((positions.map List.length).head?.getD 0)).filterMap fun i => chain[i]?).flatten).filter
    fun r => !bad r

/-- `_same_length_arrays` (lines 657-678) for one array no longer than `length`; `none` is NaN. -/
def padTo {α} (length : Nat) (a : List α) : List (Option α) :=
  a.map some ++ List.replicate (length - a.length) none

/-- `str(n).zfill(width)`.  Source: gwkanal/core/flowMC_based.py line 748. -/
def zfill (width n : Nat) : String :=
  String.ofList (List.replicate (width - (Nat.toDigits 10 n).length) '0' ++ Nat.toDigits 10 n)

/-- The names of the chain files of one phase, in chain order (lines 744-758); `stem` is e.g. `prod_chains_`. -/
def chainFiles (stem : String) (nChains : Nat) : List String :=
  let width := (Nat.toDigits 10 (nChains - 1)).length
  (List.range nChains).map fun n => stem ++ zfill width n ++ ".dat"

end GW.FlowMC
