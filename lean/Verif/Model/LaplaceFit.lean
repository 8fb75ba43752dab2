import Verif.Model.Analytic
import Mathlib.LinearAlgebra.Matrix.Charpoly.Basic
import Mathlib.Analysis.Complex.Basic
import Mathlib.Algebra.Polynomial.Roots

/-!
# The eigenvalue test and the Cholesky factor of the fitted proposal

Model of `is_positive_semi_definite`, `/repo/src/gwkokab/inference/analyticallikelihood.py` lines 184–200, and of numpyro's `cholesky_of_inverse` used in
line 332.  `chol` stands for `jnp.linalg.cholesky`.
-/

namespace GW.Analytic
open Matrix

noncomputable section
open Classical

variable {d : ℕ}

/-- `z >= 0` for a complex number: the real parts are compared first, then the imaginary ones.
Source: gwkokab/inference/analyticallikelihood.py line 200. -/
def geZero (z : ℂ) : Bool := decide (0 < z.re ∨ (z.re = 0 ∧ 0 ≤ z.im))

/-- `is_positive_semi_definite` of an inverse `C = inv(P)`, lines 184–200: all complex eigenvalues compare as non-negative.  A singular `P` has an inverse with
NaN entries, whose eigenvalues are NaN and compare as false; here that inverse is the zero matrix, the only singular one that occurs. -/
def eigTest (C : Matrix (Fin d) (Fin d) ℝ) : Bool :=
  decide (C.det ≠ 0 ∧ ∀ z ∈ (C.map Complex.ofReal).charpoly.roots, geZero z = true)

/-- `M[..., ::-1, ::-1]` (numpyro's `cholesky_of_inverse`).  Source: gwkokab/inference/analyticallikelihood.py line 332. -/
def flip (M : Matrix (Fin d) (Fin d) ℝ) : Matrix (Fin d) (Fin d) ℝ := M.submatrix Fin.rev Fin.rev

/-- numpyro's `cholesky_of_inverse`: `tril_inv = swapaxes(cholesky(M[::-1, ::-1])[::-1, ::-1])`, then `solve_triangular(tril_inv, identity)`.
Source: gwkokab/inference/analyticallikelihood.py lines 15 and 332. -/
def choleskyOfInverse (chol : Matrix (Fin d) (Fin d) ℝ → Matrix (Fin d) (Fin d) ℝ) (M : Matrix (Fin d) (Fin d) ℝ) : Matrix (Fin d) (Fin d) ℝ :=
  ((flip (chol (flip M)))ᵀ)⁻¹

/-- The proposal of one event as the code computes it.  Source: gwkokab/inference/analyticallikelihood.py lines 298–336. -/
def laplaceFit (chol : Matrix (Fin d) (Fin d) ℝ → Matrix (Fin d) (Fin d) ℝ) (ev : Event d) (g : Fin d → ℝ) (H : Matrix (Fin d) (Fin d) ℝ) : Event d :=
  fit eigTest (choleskyOfInverse chol) ev g H

end
end GW.Analytic
