import Verif.Model.Likelihood
import Verif.Spec.Jenks
import Verif.Spec.XR

/-! Vocabulary for the statements about the Poisson likelihood. -/

namespace GW.Likelihood
open GW

/-- The unmasked (sample, log reference prior) pairs of one event row. -/
def rowSamples {θ} (d : List θ) (r : List XR) (m : List Bool) : List (θ × XR) :=
  (((d.zip r).zip m).filter (·.2)).map (·.1)

/-- The events stored in a bucket: for each row its unmasked samples. -/
def Bucket.events {θ} (b : Bucket θ) : List (List (θ × XR)) :=
  ((b.data.zip b.refs).zip b.masks).map fun p => rowSamples p.1.1 p.1.2 p.2

/-- All events of a list of buckets. -/
def allEvents {θ} (bs : List (Bucket θ)) : List (List (θ × XR)) := bs.flatMap Bucket.events

/-- Log of the un-normalised Monte-Carlo sum of one event: `log Σ exp(log p - log π)` (`-inf` for no samples),
computed by `jax.nn.logsumexp`. -/
noncomputable def eventTerm {θ} (logProb : θ → XR) (ev : List (θ × XR)) : XR :=
  XR.logsumexp (ev.map fun p => logProb p.1 - p.2)

/-- Same events up to order of events and order of the samples within each event. -/
def SameEvents {θ} (a b : List (List (θ × XR))) : Prop :=
  ∃ c, a.Perm c ∧ List.Forall₂ List.Perm c b

/-- The input events of `read_data`: sample rows paired with the entries of their log-prior array. -/
def inputEvents (data refs : List (Jenks.Arr FRow)) : List (List (FRow × XR)) :=
  (data.zip refs).map fun p => p.1.rows.zip (p.2.rows.map fun r => r.headD 0)

/-- The mean of the importance weights of an event, `(1/n) Σ exp(log p - log π)`. -/
noncomputable def mcAverage {θ} (logProb : θ → XR) (ev : List (θ × XR)) : ℝ :=
  (ev.map fun p => (logProb p.1 - p.2).expR).sum / ev.length

end GW.Likelihood
