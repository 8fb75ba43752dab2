import Verif.Model.XR
import Verif.Model.Key
import Mathlib.Data.Matrix.Mul
import Mathlib.LinearAlgebra.Matrix.NonsingularInverse

/-!
# The Hamiltonian Monte Carlo kernel

Model of class `_HMC`, `/repo/src/gwkanal/core/flowMC_based.py`.  Positions and momenta are exact real vectors.  The gradient of the
potential is an arbitrary function: nothing below depends on it being a gradient.  The two random inputs of `kernel` (the momentum and
the uniform number) are arguments; `step` draws them from the two halves of a key.
-/

namespace GW.Hmc

noncomputable section

variable {n : Nat}

/-- A position or a momentum, gwkanal/core/flowMC_based.py lines 85–98. -/
abbrev Vec (n : Nat) := Fin n → ℝ

/-- `leapfrog_coefs` (lines 80-83): `n_leapfrog + 2` rows of ones; first row `[0, 0.5]`, last row `[1, 0.5]`. -/
def coefs (nLeapfrog : Nat) : List (ℝ × ℝ) :=
  let c := List.replicate (nLeapfrog + 2) ((1, 1) : ℝ × ℝ)
  let c := c.set 0 (0, 1 / 2)
  c.set (c.length - 1) (1, 1 / 2)

/-- `kinetic(p, metric) = 0.5 * p · solve(metric, p)` (lines 148-153). -/
def kinetic (mass : Matrix (Fin n) (Fin n) ℝ) (p : Vec n) : ℝ := 1 / 2 * (p ⬝ᵥ (mass⁻¹.mulVec p))

/-- `jax.grad(kinetic)` with respect to the momentum.  Source: gwkanal/core/flowMC_based.py lines 103–108. -/
def velocity (mass : Matrix (Fin n) (Fin n) ℝ) (p : Vec n) : Vec n :=
  (1 / 2 : ℝ) • (mass⁻¹.mulVec p + mass⁻¹.transpose.mulVec p)

/-- `leapfrog_kernel` (lines 101-115) with the row `c` of the coefficients. -/
def leapfrogKernel (mass : Matrix (Fin n) (Fin n) ℝ) (stepSize : ℝ) (gradU : Vec n → Vec n) (s : Vec n × Vec n) (c : ℝ × ℝ) :
    Vec n × Vec n :=
  let position := s.1 + (stepSize * c.1) • velocity mass s.2
  let momentum := s.2 - (stepSize * c.2) • gradU position
  (position, momentum)

/-- `leapfrog_step` (lines 117-130): a scan over all rows. -/
def leapfrogStep (mass : Matrix (Fin n) (Fin n) ℝ) (stepSize : ℝ) (nLeapfrog : Nat) (gradU : Vec n → Vec n) (s : Vec n × Vec n) :
    Vec n × Vec n :=
  (coefs nLeapfrog).foldl (leapfrogKernel mass stepSize gradU) s

/-- `log_acc` (lines 165-174). -/
def logAcc (mass : Matrix (Fin n) (Fin n) ℝ) (logProb : XR) (momentum : Vec n) (proposedLogProb : XR) (proposedMomentum : Vec n) : XR :=
  let H := -logProb + XR.fin (kinetic mass momentum)
  let proposedPE := -proposedLogProb
  let proposedHam := proposedPE + XR.fin (kinetic mass proposedMomentum)
  H - proposedHam

open Classical in
/-- `kernel` (lines 132-182), with the drawn momentum and the drawn uniform number. -/
def kernel (mass : Matrix (Fin n) (Fin n) ℝ) (stepSize : ℝ) (nLeapfrog : Nat) (gradU : Vec n → Vec n) (logpdf : Vec n → XR)
    (momentum : Vec n) (uniform : ℝ) (position : Vec n) (logProb : XR) : Vec n × XR × Bool :=
  let proposed := leapfrogStep mass stepSize nLeapfrog gradU (position, momentum)
  let proposedPE := -logpdf proposed.1
  let acc := logAcc mass logProb momentum (logpdf proposed.1) proposed.2
  if XR.lt (XR.log (XR.fin uniform)) acc then (proposed.1, -proposedPE, true) else (position, logProb, false)

/-- One call of `kernel` with its key (gwkanal/core/flowMC_based.py lines 132–182): `key1, key2 = split(rng_key)`, the momentum is `L @ normal(key1)` with
`L = cholesky(mass_matrix)`, the uniform number is `uniform(key2)`.  The factorisation and the two generators are arguments. -/
def step (chol : Matrix (Fin n) (Fin n) ℝ → Matrix (Fin n) (Fin n) ℝ) (normal : Key → Vec n) (uniform : Key → ℝ) (mass : Matrix (Fin n) (Fin n) ℝ)
    (stepSize : ℝ) (nLeapfrog : Nat) (gradU : Vec n → Vec n) (logpdf : Vec n → XR) (s : Vec n × XR) (key : Key) : Vec n × XR :=
  let key1 := Key.sub key 0
  let key2 := Key.sub key 1
  let momentum := (chol mass).mulVec (normal key1)
  let r := kernel mass stepSize nLeapfrog gradU logpdf momentum (uniform key2) s.1 s.2
  (r.1, r.2.1)

/-- The serial steps of one chain: flowMC's `TakeSerialSteps` scans the kernel (set up in gwkanal/core/flowMC_based.py lines 255–330) over a list of keys, carrying
the position and its log density.  Simplification: how flowMC derives the keys is outside the repository, so they are an argument. -/
def chain (chol : Matrix (Fin n) (Fin n) ℝ → Matrix (Fin n) (Fin n) ℝ) (normal : Key → Vec n) (uniform : Key → ℝ) (mass : Matrix (Fin n) (Fin n) ℝ)
    (stepSize : ℝ) (nLeapfrog : Nat) (gradU : Vec n → Vec n) (logpdf : Vec n → XR) (keys : List Key) (s : Vec n × XR) : Vec n × XR :=
  keys.foldl (step chol normal uniform mass stepSize nLeapfrog gradU logpdf) s

end

end GW.Hmc
