import Verif.Model.XRMath
import Verif.Model.Key
import Mathlib.LinearAlgebra.Matrix.NonsingularInverse

/-!
# Analytic likelihood (gwkokab/inference/analyticallikelihood.py)

Matrices and vectors of event data are real (finite); densities are `XR`.  `jit`, `vmap` and the checkpointing of the loop are the identity.
The eigenvalue test and the Cholesky factorisation are parameters of the model.
-/

namespace GW.Analytic
open GW XR

noncomputable section
open Classical

/-! ## Streaming Monte-Carlo estimates -/

/-- `monte_carlo_log_estimate_and_error_sq`, lines 30–51. -/
def batchEstimate (logProbs : List XR) (N : ℝ) : XR × XR :=
  let m1 := logsumexpWhere (logProbs.map fun a => (a, !a.isNegInf)) - log (fin N)
  let m2 := exp (logsumexpWhere (logProbs.map fun a => (fin 2 * a, !a.isNegInf))) / fin N
  (m1, (m2 - exp (fin 2 * m1)) / (fin N - fin 1))

/-- `combine_monte_carlo_log_estimates`, lines 55–83. -/
def combineLogEstimates (e1 e2 : XR) (N1 N2 : ℝ) : XR :=
  logaddexp (log (fin N1) + e1) (log (fin N2) + e2) - log (fin N1 + fin N2)

/-- `combine_monte_carlo_errors_sq`, lines 87–134. -/
def combineErrorsSq (v1 v2 e1 e2 e3 : XR) (N1 N2 : ℝ) : XR :=
  let N3 := fin N1 + fin N2
  let s1 := fin N1 * ((fin N1 - fin 1) * v1 + exp (fin 2 * e1))
  let s2 := fin N2 * ((fin N2 - fin 1) * v2 + exp (fin 2 * e2))
  let c := (-(exp (fin 2 * e3))) / (N3 - fin 1)
  c + (s1 + s2) / N3 / (N3 - fin 1)

/-- `StateT`, lines 19–26. -/
structure State where
  logEst : XR
  errSq : XR
  N : ℝ
  key : Key

/-- `state_0`, lines 395–400. -/
def State.init (k : Key) : State := ⟨ninf, fin 0, 0, k⟩

/-- `while_body_fn`, lines 345–393: `draw subkey` are the `n_samples` log weights computed from the draws made with `subkey` (lines 350–373). -/
def body (n : ℕ) (draw : Key → List XR) (s : State) : State :=
  let next := Key.sub s.key 0
  let subkey := Key.sub s.key 1
  let b := batchEstimate (draw subkey) n
  let e3 := combineLogEstimates s.logEst b.1 s.N n
  ⟨e3, combineErrorsSq s.errSq b.2 s.logEst b.1 e3 s.N n, s.N + n, next⟩

/-- `eqx.internal.while_loop` with `max_steps`.  Source: gwkokab/inference/analyticallikelihood.py lines 402–409. -/
def whileLoop {σ : Type} (cond : σ → Bool) (f : σ → σ) : ℕ → σ → σ
  | 0, s => s
  | k + 1, s => if cond s then whileLoop cond f k (f s) else s

/-- The condition of the loop, line 403. -/
def loopCond (minErrSq : ℝ) (s : State) : Bool := decide (le s.errSq (fin minErrSq))

/-- The do-while loop of one event, lines 402–409. -/
def runEvent (n nMaxSteps : ℕ) (minErr : ℝ) (draw : Key → List XR) (k : Key) : State :=
  whileLoop (loopCond (minErr ^ 2)) (body n draw) (nMaxSteps - 1) (body n draw (State.init k))

/-! ## Proposal and importance weights -/

section
variable {d : ℕ}

/-- `mvn_log_prob_scaled`, lines 166–170: `solve_triangular(L, v)` is `L⁻¹ v` (non-singular `L`). -/
def mvnLogProbScaled (loc : Fin d → ℝ) (L : Matrix (Fin d) (Fin d) ℝ) (x : Fin d → ℝ) : ℝ :=
  -(1 / 2) * (∑ i, (L⁻¹.mulVec (x - loc) i) ^ 2) - ∑ i, Real.log |L i i|

/-- `mvn_samples` for one draw of standard normals, lines 160–162. -/
def mvnSample (loc : Fin d → ℝ) (L : Matrix (Fin d) (Fin d) ℝ) (eps : Fin d → ℝ) : Fin d → ℝ := loc + L.mulVec eps

/-- The Gaussian of one event.  Source: gwkokab/inference/analyticallikelihood.py lines 283 and 343. -/
structure Event (d : ℕ) where
  mean : Fin d → ℝ
  tril : Matrix (Fin d) (Fin d) ℝ

/-- `precision_matrix`, lines 179–181: `cho_solve` of the identity. -/
def precision (L : Matrix (Fin d) (Fin d) ℝ) : Matrix (Fin d) (Fin d) ℝ := (L * L.transpose)⁻¹

/-- Lines 305–334 for one event: Laplace fit with gradient `g` and Hessian `H` of the log density at the mean of the event; `psd` is the eigenvalue test, `cholInv` is `cholesky_of_inverse`. -/
def fit (psd : Matrix (Fin d) (Fin d) ℝ → Bool) (cholInv : Matrix (Fin d) (Fin d) ℝ → Matrix (Fin d) (Fin d) ℝ) (ev : Event d) (g : Fin d → ℝ) (H : Matrix (Fin d) (Fin d) ℝ) : Event d :=
  let P := precision ev.tril - H
  let C := P⁻¹
  if psd C then ⟨ev.mean + C.mulVec g, cholInv P⟩ else ⟨ev.mean, ev.tril⟩

/-- `log_prob` of one draw, lines 358–373. -/
def logWeight (model : (Fin d → ℝ) → XR) (ev ft : Event d) (x : Fin d → ℝ) : XR :=
  model x + fin (mvnLogProbScaled ev.mean ev.tril x) - fin (mvnLogProbScaled ft.mean ft.tril x)

/-- The log weights of one batch, lines 350–373; `normals k` are the standard normal vectors of `jrd.normal(k, (n_samples, d))`. -/
def drawOf (model : (Fin d → ℝ) → XR) (ev ft : Event d) (normals : Key → List (Fin d → ℝ)) (k : Key) : List XR :=
  (normals k).map fun e => logWeight model ev ft (mvnSample ft.mean ft.tril e)

/-- `log_likelihood_fn`, lines 281–434, for the events with their fits: `lax.scan` over events with keys `jrd.split(key, n_events)`, minus the expected rate, plus the log prior, `nan_to_num`. -/
def logPosterior (n nMaxSteps : ℕ) (minErr T : ℝ) (model : (Fin d → ℝ) → XR) (normals : Key → List (Fin d → ℝ)) (rates logPrior : XR) (key : Key) (events : List (Event d × Event d)) : XR :=
  let total := (events.zip (key.split events.length)).foldl
    (fun acc p => acc + (runEvent n nMaxSteps minErr (drawOf model p.1.1 p.1.2 normals) p.2).logEst) (fin (events.length : ℝ) * log (fin T))
  nanToNum ninf ninf ninf (logPrior + (total - rates))

end
end
end GW.Analytic
