import Verif.Model.Analytic
import Verif.Model.RoundedLikelihood

/-!
# The Monte-Carlo loop of the analytic likelihood in rounded arithmetic

`Model/Analytic.lean` with every operation followed by a rounding.

Simplifications: those of `Model/Rounding.lean`; the log weights of the draws enter as they are.  Masked positions are left out of the sums, as in
`mixtureLogProb`: an order of the additions may contain zeros.
-/

namespace GW.RoundedAnalytic
open GW XR Rounding RoundedLikelihood

noncomputable section
open Classical

/-- `jnp.logaddexp`, rounded: `max + log1p(exp(-|a - b|))`, and `a + b` when the difference is NaN.
Source: gwkokab/inference/analyticallikelihood.py lines 80–82. -/
def logaddexp (fl : ℝ → XR) (a b : XR) : XR :=
  let delta := Rounding.sub fl a b
  if delta.isNan then Rounding.add fl a b else Rounding.add fl (XR.max a b) (rd fl (log1p (rd fl (exp (-(abs delta))))))

/-- `monte_carlo_log_estimate_and_error_sq`, gwkokab/inference/analyticallikelihood.py lines 30–51. -/
def batchEstimate (fl : ℝ → XR) (R : Reduction) (logProbs : List XR) (N : XR) : XR × XR :=
  let kept := logProbs.filter fun a => !a.isNegInf
  let m1 := Rounding.sub fl (RoundedLikelihood.logsumexp fl R kept) (rd fl (log N))
  let m2 := Rounding.div fl (rd fl (exp (RoundedLikelihood.logsumexp fl R (kept.map fun a => Rounding.mul fl (fin 2) a)))) N
  (m1, Rounding.div fl (Rounding.sub fl m2 (rd fl (exp (Rounding.mul fl (fin 2) m1)))) (Rounding.sub fl N (fin 1)))

/-- `combine_monte_carlo_log_estimates`, gwkokab/inference/analyticallikelihood.py lines 55–83. -/
def combineLogEstimates (fl : ℝ → XR) (e1 e2 N1 N2 : XR) : XR :=
  Rounding.sub fl (logaddexp fl (Rounding.add fl (rd fl (log N1)) e1) (Rounding.add fl (rd fl (log N2)) e2)) (rd fl (log (Rounding.add fl N1 N2)))

/-- `combine_monte_carlo_errors_sq`, gwkokab/inference/analyticallikelihood.py lines 87–134. -/
def combineErrorsSq (fl : ℝ → XR) (v1 v2 e1 e2 e3 N1 N2 : XR) : XR :=
  let N3 := Rounding.add fl N1 N2
  let s1 := Rounding.mul fl N1 (Rounding.add fl (Rounding.mul fl (Rounding.sub fl N1 (fin 1)) v1) (rd fl (exp (Rounding.mul fl (fin 2) e1))))
  let s2 := Rounding.mul fl N2 (Rounding.add fl (Rounding.mul fl (Rounding.sub fl N2 (fin 1)) v2) (rd fl (exp (Rounding.mul fl (fin 2) e2))))
  let c := Rounding.div fl (-(rd fl (exp (Rounding.mul fl (fin 2) e3)))) (Rounding.sub fl N3 (fin 1))
  Rounding.add fl c (Rounding.div fl (Rounding.div fl (Rounding.add fl s1 s2) N3) (Rounding.sub fl N3 (fin 1)))

/-- `StateT`, gwkokab/inference/analyticallikelihood.py lines 19–26. -/
structure State where
  logEst : XR
  errSq : XR
  N : XR
  key : Key

/-- `state_0`, gwkokab/inference/analyticallikelihood.py lines 395–400. -/
def State.init (k : Key) : State := ⟨ninf, fin 0, fin 0, k⟩

/-- `while_body_fn`, gwkokab/inference/analyticallikelihood.py lines 345–393: `draw subkey` are the `n_samples` log weights. -/
def body (fl : ℝ → XR) (R : Reduction) (n : ℕ) (draw : Key → List XR) (s : State) : State :=
  let next := Key.sub s.key 0
  let subkey := Key.sub s.key 1
  let b := batchEstimate fl R (draw subkey) (fin n)
  let e3 := combineLogEstimates fl s.logEst b.1 s.N (fin n)
  ⟨e3, combineErrorsSq fl s.errSq b.2 s.logEst b.1 e3 s.N (fin n), Rounding.add fl s.N (fin n), next⟩

/-- The do-while loop of one event, gwkokab/inference/analyticallikelihood.py lines 402–409; `minErrSq` is `minimum_mc_error_sq`. -/
def runEvent (fl : ℝ → XR) (R : Reduction) (n nMaxSteps : ℕ) (minErrSq : ℝ) (draw : Key → List XR) (k : Key) : State :=
  Analytic.whileLoop (fun s : State => decide (le s.errSq (fin minErrSq))) (body fl R n draw) (nMaxSteps - 1) (body fl R n draw (State.init k))

/-- `log_likelihood_fn`, gwkokab/inference/analyticallikelihood.py lines 402–434: `lax.scan` over the events with keys `jrd.split(key, n_events)`, minus the expected rate, plus the
log prior, `nan_to_num`.  An event is given by the log weights of its draws; `con` is the computed `n_events * jnp.log(T_obs)`. -/
def logPosterior (fl : ℝ → XR) (R : Reduction) (n nMaxSteps : ℕ) (minErrSq : ℝ) (con rates logPrior : XR) (key : Key) (draws : List (Key → List XR)) : XR :=
  let total := (draws.zip (key.split draws.length)).foldl (fun acc p => Rounding.add fl acc (runEvent fl R n nMaxSteps minErrSq p.1 p.2).logEst) con
  nanToNum ninf ninf ninf (Rounding.add fl logPrior (Rounding.sub fl total rates))

end
end GW.RoundedAnalytic
