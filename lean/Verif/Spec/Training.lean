import Verif.Model.XR
import Mathlib.Analysis.SpecialFunctions.Trigonometric.Basic

/-!
# Training runs: specification

A run is a sequence of optimiser steps, one per batch, over the batches of the training rows, repeated for each epoch.
-/

namespace GW.TrainingSpec
open GW

/-- A row pair: inputs and targets. -/
abbrev Pair := List XR × List XR

/-- `batches` cuts `rows`, in order, into full batches of `b` rows and possibly a shorter last one. -/
structure Batching (b : ℕ) (rows : List Pair) (batches : List (List Pair)) : Prop where
  all : batches.flatten = rows
  full : ∀ x ∈ batches.dropLast, x.length = b
  bounds : ∀ x ∈ batches, 0 < x.length ∧ x.length ≤ b

/-- One optimiser step on a batch; the third component counts the steps taken and selects the learning rate. -/
def step {M S : Type} (update : ℝ → M → S → List (List XR) → List (List XR) → M × S) (lr : ℕ → ℝ) (l : M × S × ℕ) (batch : List Pair) : M × S × ℕ :=
  ((update (lr l.2.2) l.1 l.2.1 (batch.map Prod.fst) (batch.map Prod.snd)).1,
    (update (lr l.2.2) l.1 l.2.1 (batch.map Prod.fst) (batch.map Prod.snd)).2, l.2.2 + 1)

/-- The state after `e` whole epochs. -/
def after {M S : Type} (update : ℝ → M → S → List (List XR) → List (List XR) → M × S) (lr : ℕ → ℝ) (batches : List (List Pair)) (start : M × S)
    (e : ℕ) : M × S × ℕ :=
  (List.replicate e batches).flatten.foldl (step update lr) (start.1, start.2, 0)

/-- The losses of the batches of one epoch started in state `l`, each evaluated before the step on that batch. -/
def batchLosses {M S : Type} (update : ℝ → M → S → List (List XR) → List (List XR) → M × S) (lr : ℕ → ℝ) (loss : M → List (List XR) → List (List XR) → XR) :
    M × S × ℕ → List (List Pair) → List XR
  | _, [] => []
  | l, batch :: bs => loss l.1 (batch.map Prod.fst) (batch.map Prod.snd) :: batchLosses update lr loss (step update lr l batch) bs

/-- The arithmetic mean of a non-empty list of floats. -/
noncomputable def average (l : List XR) : XR := l.foldl (· + ·) (.fin 0) / .fin l.length

/-- The documented learning rate: a linear rise from zero to `peak` over `warm` steps, then half a cosine down to `low` over the remaining
`total - warm` steps. -/
noncomputable def documentedRate (peak low : ℝ) (warm total t : ℕ) : ℝ :=
  if t < warm then peak * t / warm
  else low + (peak - low) * (1 + Real.cos (Real.pi * ((t : ℝ) - warm) / ((total : ℝ) - warm))) / 2

/-- The logistic function. -/
noncomputable def sigmoid (l : ℝ) : ℝ := 1 / (1 + Real.exp (-l))

/-- The cross-entropy of a forecast `p` for an event of probability `c`. -/
noncomputable def crossEntropy (c p : ℝ) : ℝ := -(c * Real.log p) - (1 - c) * Real.log (1 - p)

/-- The target pulled into `[1e-6, 1 - 1e-6]`. -/
noncomputable def clipped (y : ℝ) : ℝ := min (max y (1 / 1000000)) (1 - 1 / 1000000)

end GW.TrainingSpec
