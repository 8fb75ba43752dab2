import Verif.Model.LaplaceFit
import Verif.Props.Analytic
import Mathlib.Analysis.Matrix.PosDef
import Mathlib.Algebra.Order.Star.Real
import Mathlib.Analysis.Matrix.LDL
import Mathlib.LinearAlgebra.Matrix.Block

/-!
# C60: the proposal fitted to an event

`chol` is any function that returns, for a positive definite matrix, a lower triangular factor with positive diagonal.
-/

namespace GW.Analytic
open Matrix XR
open scoped Classical

noncomputable section

variable {d : ℕ}

/-- What `jnp.linalg.cholesky` promises. -/
def IsCholesky (chol : Matrix (Fin d) (Fin d) ℝ → Matrix (Fin d) (Fin d) ℝ) : Prop :=
  ∀ M : Matrix (Fin d) (Fin d) ℝ, M.PosDef → IsTril (chol M) ∧ chol M * (chol M)ᵀ = M

theorem IsTril.blockTriangular {L : Matrix (Fin d) (Fin d) ℝ} (h : IsTril L) : L.BlockTriangular OrderDual.toDual := by
  intro i j hij
  exact h.lower _ _ (by simpa using hij)

theorem IsTril.inv {L : Matrix (Fin d) (Fin d) ℝ} (h : IsTril L) : IsTril L⁻¹ := by
  have : Invertible L := L.invertibleOfIsUnitDet (Ne.isUnit h.det_ne)
  have hb := blockTriangular_inv_of_blockTriangular h.blockTriangular
  have hdet : L⁻¹.det ≠ 0 := by
    rw [Matrix.det_nonsing_inv, Ring.inverse_eq_inv']
    exact inv_ne_zero h.det_ne
  refine ⟨fun i j hij => hb (by simpa using hij), ?_⟩
  have : L⁻¹.det = ∏ i, L⁻¹ i i := Matrix.det_of_isLowerTriangular _ hb
  rw [this] at hdet
  exact fun i => Finset.prod_ne_zero_iff.1 hdet i (Finset.mem_univ i)

/-- **C60.**  `cholesky_of_inverse` of a positive definite matrix is a lower triangular factor of its inverse. -/
theorem C60_cholesky_of_inverse (chol : Matrix (Fin d) (Fin d) ℝ → Matrix (Fin d) (Fin d) ℝ) (hc : IsCholesky chol) (P : Matrix (Fin d) (Fin d) ℝ) (hP : P.PosDef) :
    IsTril (choleskyOfInverse chol P) ∧ choleskyOfInverse chol P * (choleskyOfInverse chol P)ᵀ = P⁻¹ := by
  obtain ⟨h1, h2⟩ := hc (flip P) (hP.submatrix Fin.rev_injective)
  set L := chol (flip P) with hL
  have ht : IsTril (flip L)ᵀ := by
    refine ⟨fun i j hij => ?_, fun i => h1.diag _⟩
    simp only [flip, transpose_apply, submatrix_apply]
    exact h1.lower _ _ (by simpa using hij)
  refine ⟨ht.inv, ?_⟩
  have hmul : flip L * (flip L)ᵀ = P := by
    have : flip L * (flip L)ᵀ = flip (L * Lᵀ) := by
      have := submatrix_mul_equiv L Lᵀ Fin.rev Fin.revPerm Fin.rev
      rw [flip, transpose_submatrix]
      exact this
    rw [this, h2]
    ext i j
    simp [flip]
  unfold choleskyOfInverse
  rw [← hL, transpose_nonsing_inv, transpose_transpose, ← Matrix.mul_inv_rev, hmul]

/-- **C60.**  The eigenvalue test of the code decides positive definiteness of the fitted precision: it is passed if and only if `P` is positive definite. -/
theorem C60_eigenvalue_test (P : Matrix (Fin d) (Fin d) ℝ) (hP : Pᵀ = P) : eigTest P⁻¹ = true ↔ P.PosDef := by
  have hC : (P⁻¹).IsHermitian := by
    rw [IsHermitian, conjTranspose_eq_transpose_of_trivial, transpose_nonsing_inv, hP]
  have hroots : ((P⁻¹).map Complex.ofReal).charpoly.roots = Multiset.map (fun i => (hC.eigenvalues i : ℂ)) Finset.univ.val := by
    have h1 : ((P⁻¹).map Complex.ofReal).charpoly = (P⁻¹).charpoly.map Complex.ofRealHom := charpoly_map (P⁻¹) Complex.ofRealHom
    rw [h1, hC.splits_charpoly.roots_map, hC.roots_charpoly_eq_eigenvalues, Multiset.map_map]
    rfl
  have hall : (∀ z ∈ ((P⁻¹).map Complex.ofReal).charpoly.roots, geZero z = true) ↔ ∀ i, 0 ≤ hC.eigenvalues i := by
    rw [hroots]
    simp only [Multiset.mem_map, Finset.mem_val, Finset.mem_univ, true_and, forall_exists_index, forall_apply_eq_imp_iff, geZero, decide_eq_true_eq,
      Complex.ofReal_re, Complex.ofReal_im, le_refl, and_true]
    exact forall_congr' fun i => ⟨fun h => h.elim le_of_lt fun h => h.ge, fun h => (lt_or_eq_of_le h).imp_right Eq.symm⟩
  unfold eigTest
  rw [decide_eq_true_eq, hall]
  constructor
  · rintro ⟨h1, h2⟩
    have h3 : (P⁻¹).PosDef := by
      rw [hC.posDef_iff_eigenvalues_pos]
      intro i
      refine lt_of_le_of_ne (h2 i) fun h => h1 ?_
      rw [hC.det_eq_prod_eigenvalues]
      exact Finset.prod_eq_zero (Finset.mem_univ i) (by simp [← h])
    have hdet : P.det ≠ 0 := by
      rw [det_nonsing_inv, Ring.inverse_eq_inv'] at h1
      exact fun h => h1 (by rw [h, _root_.inv_zero])
    have := h3.inv
    rwa [nonsing_inv_nonsing_inv _ (Ne.isUnit hdet)] at this
  · intro h
    have h3 := h.inv
    exact ⟨h3.det_pos.ne', fun i => (hC.posDef_iff_eigenvalues_pos.1 h3 i).le⟩

/-- **C60.**  The proposal of an event with precision `S⁻¹`, when the log density of the population has gradient `g` and symmetric Hessian `H` at its mean:
if `S⁻¹ - H` is positive definite, the Gaussian with that precision and mean moved by the Newton step; otherwise the Gaussian of the event. -/
theorem C60_proposal_fit (chol : Matrix (Fin d) (Fin d) ℝ → Matrix (Fin d) (Fin d) ℝ) (hc : IsCholesky chol) (ev : Event d) (g : Fin d → ℝ)
    (H : Matrix (Fin d) (Fin d) ℝ) (hH : Hᵀ = H) :
    (((ev.tril * ev.trilᵀ)⁻¹ - H).PosDef →
      (laplaceFit chol ev g H).mean = ev.mean + ((ev.tril * ev.trilᵀ)⁻¹ - H)⁻¹.mulVec g ∧ IsTril (laplaceFit chol ev g H).tril ∧
      (laplaceFit chol ev g H).tril * ((laplaceFit chol ev g H).tril)ᵀ = ((ev.tril * ev.trilᵀ)⁻¹ - H)⁻¹) ∧
    (¬ ((ev.tril * ev.trilᵀ)⁻¹ - H).PosDef → laplaceFit chol ev g H = ev) := by
  have hPT : ((ev.tril * ev.trilᵀ)⁻¹ - H)ᵀ = (ev.tril * ev.trilᵀ)⁻¹ - H := by
    rw [transpose_sub, hH, transpose_nonsing_inv, transpose_mul, transpose_transpose]
  have hiff := C60_eigenvalue_test _ hPT
  constructor
  · intro h
    obtain ⟨h1, h2⟩ := C60_cholesky_of_inverse chol hc _ h
    have : laplaceFit chol ev g H = ⟨ev.mean + ((ev.tril * ev.trilᵀ)⁻¹ - H)⁻¹.mulVec g, choleskyOfInverse chol ((ev.tril * ev.trilᵀ)⁻¹ - H)⟩ := by
      unfold laplaceFit fit precision
      simp only [hiff.2 h, if_true]
    rw [this]
    exact ⟨rfl, h1, h2⟩
  · intro h
    have hf : eigTest ((ev.tril * ev.trilᵀ)⁻¹ - H)⁻¹ = false := by
      rw [Bool.eq_false_iff]
      exact fun h' => h (hiff.1 h')
    unfold laplaceFit fit precision
    simp only [hf]
    rfl

/-- **C60.**  Every proposal the code uses has a lower triangular factor with non-zero diagonal, so that the importance weights are well defined. -/
theorem C60_proposal_is_gaussian (chol : Matrix (Fin d) (Fin d) ℝ → Matrix (Fin d) (Fin d) ℝ) (hc : IsCholesky chol) (ev : Event d) (hev : IsTril ev.tril)
    (g : Fin d → ℝ) (H : Matrix (Fin d) (Fin d) ℝ) (hH : Hᵀ = H) : IsTril (laplaceFit chol ev g H).tril := by
  obtain ⟨h1, h2⟩ := C60_proposal_fit chol hc ev g H hH
  by_cases h : ((ev.tril * ev.trilᵀ)⁻¹ - H).PosDef
  · exact (h1 h).2.1
  · rw [h2 h]
    exact hev

/-- **C60.**  For a Gaussian population (log density `c + g·(x-μ) + ½ (x-μ)ᵀ H (x-μ)`, `H` negative semi-definite) every draw has the same weight: the estimate
of every event is exact after one batch. -/
theorem C60_gaussian_population_exact (chol : Matrix (Fin d) (Fin d) ℝ → Matrix (Fin d) (Fin d) ℝ) (hc : IsCholesky chol) (ev : Event d) (hev : IsTril ev.tril)
    (g : Fin d → ℝ) (H : Matrix (Fin d) (Fin d) ℝ) (hH : (-H).PosSemidef) (c : ℝ) (model : (Fin d → ℝ) → XR)
    (hmodel : ∀ x, model x = fin (c + g ⬝ᵥ (x - ev.mean) + 1 / 2 * ((x - ev.mean) ⬝ᵥ H.mulVec (x - ev.mean)))) :
    ∃ w : ℝ, ∀ x, logWeight model ev (laplaceFit chol ev g H) x = fin w := by
  have hHT : Hᵀ = H := by
    have := hH.isHermitian
    rw [IsHermitian, conjTranspose_eq_transpose_of_trivial, transpose_neg, neg_inj] at this
    exact this
  have hpos : (precision ev.tril - H).PosDef := by
    have h0 : ((ev.tril * ev.trilᵀ)).PosDef := by
      have := PosDef.mul_conjTranspose_self ev.tril (by
        rw [Matrix.vecMul_injective_iff_isUnit, Matrix.isUnit_iff_isUnit_det]
        exact Ne.isUnit hev.det_ne)
      rwa [conjTranspose_eq_transpose_of_trivial] at this
    rw [sub_eq_add_neg]
    exact h0.inv.add_posSemidef hH
  have hPT : (precision ev.tril - H)ᵀ = precision ev.tril - H := by
    have := hpos.isHermitian
    rwa [IsHermitian, conjTranspose_eq_transpose_of_trivial] at this
  exact C60_laplace_exact eigTest (choleskyOfInverse chol) ev g H c hHT hpos.det_pos.ne' ((C60_eigenvalue_test _ hPT).2 hpos)
    (C60_cholesky_of_inverse chol hc _ hpos) model hmodel

/-- There is such a `chol` in every dimension: the theorems above are not empty. -/
theorem exists_cholesky (d : ℕ) : ∃ chol : Matrix (Fin d) (Fin d) ℝ → Matrix (Fin d) (Fin d) ℝ, IsCholesky chol := by
  have key : ∀ M : Matrix (Fin d) (Fin d) ℝ, ∃ L : Matrix (Fin d) (Fin d) ℝ, M.PosDef → IsTril L ∧ L * Lᵀ = M := by
    intro M
    by_cases h : M.PosDef
    · have hlow := LDL.lower_conj_diag h
      have hinvT : IsTril (LDL.lowerInv h) := by
        have hb : (LDL.lowerInv h).BlockTriangular OrderDual.toDual := fun i j hij => LDL.lowerInv_triangular h (by simpa using hij)
        have hdet : (LDL.lowerInv h).det ≠ 0 := (Matrix.isUnit_det_of_invertible _).ne_zero
        rw [Matrix.det_of_isLowerTriangular _ hb] at hdet
        exact ⟨fun i j hij => LDL.lowerInv_triangular h hij, fun i => Finset.prod_ne_zero_iff.1 hdet i (Finset.mem_univ i)⟩
      have hT : IsTril (LDL.lower h) := hinvT.inv
      have hD : (LDL.diag h).PosDef := by
        rw [LDL.diag_eq_lowerInv_conj]
        exact h.mul_mul_conjTranspose_same (by
          rw [Matrix.vecMul_injective_iff_isUnit, Matrix.isUnit_iff_isUnit_det]
          exact Ne.isUnit hinvT.det_ne)
      have hpos : ∀ i, 0 < LDL.diagEntries h i := by
        intro i
        have := hD.diag_pos (i := i)
        simpa [LDL.diag] using this
      refine ⟨LDL.lower h * diagonal fun i => √(LDL.diagEntries h i), fun _ => ⟨⟨fun i j hij => ?_, fun i => ?_⟩, ?_⟩⟩
      · rw [mul_diagonal, hT.lower i j hij, zero_mul]
      · rw [mul_diagonal]
        exact mul_ne_zero (hT.diag i) (Real.sqrt_pos.2 (hpos i)).ne'
      · rw [transpose_mul, diagonal_transpose, Matrix.mul_assoc, ← Matrix.mul_assoc (diagonal _), diagonal_mul_diagonal, ← Matrix.mul_assoc]
        have e : (diagonal fun i => √(LDL.diagEntries h i) * √(LDL.diagEntries h i)) = LDL.diag h := by
          rw [LDL.diag]
          congr 1
          funext i
          exact Real.mul_self_sqrt (hpos i).le
        rw [e]
        rwa [conjTranspose_eq_transpose_of_trivial] at hlow
    · exact ⟨0, fun h' => absurd h' h⟩
  choose chol hchol using key
  exact ⟨chol, hchol⟩

/-- The unit event in two dimensions and a population with Hessian `-1`: the test passes, and the fitted covariance is `½`. -/
example (chol : Matrix (Fin 2) (Fin 2) ℝ → Matrix (Fin 2) (Fin 2) ℝ) (hc : IsCholesky chol) (g : Fin 2 → ℝ) :
    (laplaceFit chol ⟨0, 1⟩ g (-1)).tril * ((laplaceFit chol ⟨0, 1⟩ g (-1)).tril)ᵀ = (2 : Matrix (Fin 2) (Fin 2) ℝ)⁻¹ := by
  have e : ((1 : Matrix (Fin 2) (Fin 2) ℝ) * 1ᵀ)⁻¹ - (-1) = 2 := by
    simp [one_add_one_eq_two]
  have hp : (((1 : Matrix (Fin 2) (Fin 2) ℝ) * 1ᵀ)⁻¹ - (-1)).PosDef := by
    have : (1 : Matrix (Fin 2) (Fin 2) ℝ).PosDef := PosDef.one
    simpa using this.add this
  have := ((C60_proposal_fit chol hc ⟨0, 1⟩ g (-1) (by simp)).1 hp).2.2
  rwa [e] at this

/-- A Hessian `2` makes the precision negative: the event's own Gaussian is used. -/
example (chol : Matrix (Fin 1) (Fin 1) ℝ → Matrix (Fin 1) (Fin 1) ℝ) (hc : IsCholesky chol) (g : Fin 1 → ℝ) : laplaceFit chol ⟨0, 1⟩ g (2 • 1) = ⟨0, 1⟩ := by
  refine (C60_proposal_fit chol hc ⟨0, 1⟩ g (2 • 1) (by simp)).2 fun h => ?_
  have := h.diag_pos (i := 0)
  rw [Matrix.sub_apply, Matrix.smul_apply] at this
  simp at this

end

end GW.Analytic
