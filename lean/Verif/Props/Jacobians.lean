import Verif.Props.Transforms
import Mathlib.Analysis.Calculus.FDeriv.Pi
import Mathlib.Analysis.Calculus.FDeriv.Mul
import Mathlib.Analysis.Calculus.FDeriv.Add
import Mathlib.Analysis.SpecialFunctions.Pow.Deriv
import Mathlib.Analysis.Calculus.Deriv.Inv
import Mathlib.LinearAlgebra.Matrix.ToLin
import Mathlib.LinearAlgebra.Matrix.Determinant.Basic
import Mathlib.Topology.Algebra.Module.FiniteDimension

/-!
# C17: `log_abs_det_jacobian` is the logarithm of the true Jacobian determinant
-/

namespace GW.Transforms
open GW XR GW.Conv GW.Constraints Topology

/-! ## Helpers -/

/-- The linear map with matrix `M`. -/
noncomputable def matMap {n : Nat} (M : Matrix (Fin n) (Fin n) ℝ) : (Fin n → ℝ) →L[ℝ] (Fin n → ℝ) := LinearMap.toContinuousLinearMap (Matrix.toLin' M)

theorem det_matMap {n : Nat} (M : Matrix (Fin n) (Fin n) ℝ) : LinearMap.det (matMap M : (Fin n → ℝ) →ₗ[ℝ] (Fin n → ℝ)) = M.det := by
  simp [matMap]

/-- A map with the partial derivatives `M i j` has the derivative with matrix `M`. -/
theorem hasFDerivAt_matMap {n : Nat} (g : (Fin n → ℝ) → Fin n → ℝ) (M : Matrix (Fin n) (Fin n) ℝ) (x : Fin n → ℝ)
    (h : ∀ i, ∃ f' : (Fin n → ℝ) →L[ℝ] ℝ, HasFDerivAt (fun x => g x i) f' x ∧ ∀ v, f' v = ∑ j, M i j * v j) : HasFDerivAt g (matMap M) x := by
  rw [hasFDerivAt_pi']
  intro i
  obtain ⟨f', hf, hv⟩ := h i
  refine hf.congr_fderiv ?_
  ext v
  rw [hv]
  simp [matMap, Matrix.mulVec, dotProduct]

/-- Assembling a log-determinant statement from a real form of the map and its matrix of partial derivatives. -/
theorem isLogDetAt_of {n : Nat} (T : (Fin n → XR) → Fin n → XR) (x : Fin n → ℝ) (v : XR) (g : (Fin n → ℝ) → Fin n → ℝ) (M : Matrix (Fin n) (Fin n) ℝ)
    (hT : ∀ᶠ x' in 𝓝 x, T (toXR x') = toXR (g x'))
    (h : ∀ i, ∃ f' : (Fin n → ℝ) →L[ℝ] ℝ, HasFDerivAt (fun x => g x i) f' x ∧ ∀ v, f' v = ∑ j, M i j * v j)
    (hv : v = XR.log (fin |M.det|)) : IsLogDetAt T x v :=
  ⟨g, matMap M, hT, hasFDerivAt_matMap g M x h, by rw [det_matMap]; exact hv⟩

theorem hasFDerivAt_coord {n : Nat} (i : Fin n) (x : Fin n → ℝ) :
    HasFDerivAt (fun x : Fin n → ℝ => x i) (ContinuousLinearMap.proj (R := ℝ) (φ := fun _ : Fin n => ℝ) i) x := hasFDerivAt_apply i x

theorem ev_pos {n : Nat} (i : Fin n) {x : Fin n → ℝ} (h : 0 < x i) : ∀ᶠ x' in 𝓝 x, 0 < x' i :=
  (continuous_apply i).continuousAt.eventually (lt_mem_nhds h)

theorem log_abs_fin {a : ℝ} (h : 0 < a) : XR.log (fin |a|) = fin (Real.log a) := by
  rw [abs_of_pos h, log_fin_pos h]

/-! ## C17 -/

/-- **C17.**  `(m1, q) → (m1, m2)`: at every point (the determinant is `m1`, and `-inf` is returned where it vanishes). -/
theorem C17_primary_ratio (big : ℝ) (x : Fin 2 → ℝ) :
    IsLogDetAt (primaryMassRatioToComponents big).fwd x
      ((primaryMassRatioToComponents big).logDet (toXR x) ((primaryMassRatioToComponents big).fwd (toXR x))) := by
  refine isLogDetAt_of _ x _ (fun x => ![x 0, x 0 * x 1]) !![1, 0; x 1, x 0] (.of_forall fun x' => vec2 _ _) ?_ ?_
  · intro i
    fin_cases i
    · exact ⟨_, hasFDerivAt_coord 0 x, by intro v; simp [Fin.sum_univ_two]⟩
    · exact ⟨_, (hasFDerivAt_coord 0 x).mul (hasFDerivAt_coord 1 x), by intro v; simp [Fin.sum_univ_two]; ring⟩
  · simp [primaryMassRatioToComponents, toXR, Matrix.det_fin_two]

/-- **C17.**  `delta → eta`, for `delta ≥ 0`. -/
theorem C17_delta_eta (x : Fin 1 → ℝ) (h : 0 ≤ x 0) :
    IsLogDetAt deltaToEta.fwd x (deltaToEta.logDet (toXR x) (deltaToEta.fwd (toXR x))) := by
  refine isLogDetAt_of _ x _ (fun x => ![(1 - x 0 * x 0) * (1 / 4)]) !![-(x 0 / 2)] (.of_forall fun x' => vec1 _) ?_ ?_
  · intro i
    fin_cases i
    exact ⟨_, ((((hasFDerivAt_coord 0 x).mul (hasFDerivAt_coord 0 x)).const_sub 1).mul_const (1 / 4)), by
      intro v; simp; ring⟩
  · simp only [deltaToEta, toXR, Matrix.det_fin_one_of, abs_neg]
    rcases h.eq_or_lt with h0 | h0
    · rw [← h0]
      simp [log_fin_zero]
    · rw [log_abs_fin (by positivity), log_fin_pos h0, log_fin_pos two_pos, sub_fin_fin, Real.log_div h0.ne' two_ne_zero]

/-- **C17.**  `(m_source, z) → (m_det, z)`, for `z > -1`. -/
theorem C17_source_detected (x : Fin 2 → ℝ) (h : -1 < x 1) :
    IsLogDetAt sourceToDetected.fwd x (sourceToDetected.logDet (toXR x) (sourceToDetected.fwd (toXR x))) := by
  refine isLogDetAt_of _ x _ (fun x => ![x 0 * (1 + x 1), x 1]) !![1 + x 1, x 0; 0, 1] (.of_forall fun x' => vec2 _ _) ?_ ?_
  · intro i
    fin_cases i
    · exact ⟨_, (hasFDerivAt_coord 0 x).mul ((hasFDerivAt_coord 1 x).const_add 1), by intro v; simp [Fin.sum_univ_two]; ring⟩
    · exact ⟨_, hasFDerivAt_coord 1 x, by intro v; simp [Fin.sum_univ_two]⟩
  · have h' : 0 < 1 + x 1 := by linarith
    simp only [sourceToDetected, toXR, Matrix.det_fin_two_of, mul_one, mul_zero, sub_zero]
    rw [log_abs_fin h', log1p_fin h']

/-- **C17.**  `(m1, m2, z) → (m1_det, m2_det, z)`, for `z > -1`. -/
theorem C17_components_detected (x : Fin 3 → ℝ) (h : -1 < x 2) :
    IsLogDetAt componentsToDetected.fwd x (componentsToDetected.logDet (toXR x) (componentsToDetected.fwd (toXR x))) := by
  refine isLogDetAt_of _ x _ (fun x => ![x 0 * (1 + x 2), x 1 * (1 + x 2), x 2])
    !![1 + x 2, 0, x 0; 0, 1 + x 2, x 1; 0, 0, 1] (.of_forall fun x' => vec3 _ _ _) ?_ ?_
  · intro i
    fin_cases i
    · exact ⟨_, (hasFDerivAt_coord 0 x).mul ((hasFDerivAt_coord 2 x).const_add 1), by intro v; simp [Fin.sum_univ_three]; ring⟩
    · exact ⟨_, (hasFDerivAt_coord 1 x).mul ((hasFDerivAt_coord 2 x).const_add 1), by intro v; simp [Fin.sum_univ_three]; ring⟩
    · exact ⟨_, hasFDerivAt_coord 2 x, by intro v; simp [Fin.sum_univ_three]⟩
  · have h' : 0 < 1 + x 2 := by linarith
    have hdet : Matrix.det !![1 + x 2, 0, x 0; 0, 1 + x 2, x 1; 0, 0, 1] = (1 + x 2) ^ 2 := by
      rw [Matrix.det_fin_three]
      simp
      ring
    rw [hdet, log_abs_fin (by positivity)]
    simp only [componentsToDetected, toXR]
    rw [log1p_fin h', mul_fin_fin, Real.log_pow]
    norm_num

theorem hasFDerivAt_ratio {x : Fin 2 → ℝ} (h : 0 < x 0) :
    ∃ f' : (Fin 2 → ℝ) →L[ℝ] ℝ, HasFDerivAt (fun x : Fin 2 → ℝ => x 1 / x 0) f' x ∧ ∀ v, f' v = -(x 1 / x 0 ^ 2) * v 0 + 1 / x 0 * v 1 := by
  have hinv : HasFDerivAt (fun x : Fin 2 → ℝ => (x 0)⁻¹) _ x := (hasDerivAt_inv h.ne').comp_hasFDerivAt x (hasFDerivAt_coord 0 x)
  refine ⟨_, ((hasFDerivAt_coord 1 x).mul hinv).congr_of_eventuallyEq (.of_forall fun x' => div_eq_mul_inv _ _), ?_⟩
  intro v
  simp
  field_simp

/-- **C17.**  `(m1, m2) → (m1, q)`, for `m1 > 0`. -/
theorem C17_to_primary_ratio (big : ℝ) (x : Fin 2 → ℝ) (h : 0 < x 0) :
    IsLogDetAt (componentsToPrimaryMassRatio big).fwd x
      ((componentsToPrimaryMassRatio big).logDet (toXR x) ((componentsToPrimaryMassRatio big).fwd (toXR x))) := by
  refine isLogDetAt_of _ x _ (fun x => ![x 0, x 1 / x 0]) !![1, 0; -(x 1 / x 0 ^ 2), 1 / x 0] ?_ ?_ ?_
  · filter_upwards [ev_pos 0 h] with x' hx'
    simp only [componentsToPrimaryMassRatio, toXR, massRatio_fin hx'.ne']
    exact vec2 _ _
  · intro i
    fin_cases i
    · exact ⟨_, hasFDerivAt_coord 0 x, by intro v; simp [Fin.sum_univ_two]⟩
    · obtain ⟨f', hf, hv⟩ := hasFDerivAt_ratio h
      exact ⟨f', hf, by intro v; rw [hv]; simp [Fin.sum_univ_two]⟩
  · simp only [componentsToPrimaryMassRatio, toXR, Matrix.det_fin_two_of]
    rw [show (1 : ℝ) * (1 / x 0) - 0 * -(x 1 / x 0 ^ 2) = (x 0)⁻¹ by ring, log_abs_fin (by positivity), abs_fin, log_abs_fin h, Real.log_inv,
      neg_fin]

/-- **C17.**  `(m1, m2) → (q, m2)`, for positive masses. -/
theorem C17_ratio_secondary (big : ℝ) (x : Fin 2 → ℝ) (h : 0 < x 0) (h' : 0 < x 1) :
    IsLogDetAt (componentsToRatioSecondary big).fwd x
      ((componentsToRatioSecondary big).logDet (toXR x) ((componentsToRatioSecondary big).fwd (toXR x))) := by
  refine isLogDetAt_of _ x _ (fun x => ![x 1 / x 0, x 1]) !![-(x 1 / x 0 ^ 2), 1 / x 0; 0, 1] ?_ ?_ ?_
  · filter_upwards [ev_pos 0 h] with x' hx'
    simp only [componentsToRatioSecondary, toXR, massRatio_fin hx'.ne']
    exact vec2 _ _
  · intro i
    fin_cases i
    · obtain ⟨f', hf, hv⟩ := hasFDerivAt_ratio h
      exact ⟨f', hf, by intro v; rw [hv]; simp [Fin.sum_univ_two]⟩
    · exact ⟨_, hasFDerivAt_coord 1 x, by intro v; simp [Fin.sum_univ_two]⟩
  · simp only [componentsToRatioSecondary, toXR, Matrix.det_fin_two_of, massRatio_fin h.ne', Matrix.cons_val_zero]
    rw [show -(x 1 / x 0 ^ 2) * 1 - 1 / x 0 * 0 = -(x 1 / x 0 / x 0) by field_simp; ring, abs_neg, log_abs_fin (by positivity),
      log_fin_pos (by positivity), log_fin_pos h, sub_fin_fin, ← Real.log_div (by positivity) h.ne']

/-- **C17.**  `(m1, m2) → (M, q)`, for positive masses. -/
theorem C17_total_ratio (big : ℝ) (x : Fin 2 → ℝ) (h : 0 < x 0) (h' : 0 < x 1) :
    IsLogDetAt (componentsToTotalRatio big).fwd x
      ((componentsToTotalRatio big).logDet (toXR x) ((componentsToTotalRatio big).fwd (toXR x))) := by
  refine isLogDetAt_of _ x _ (fun x => ![x 0 + x 1, x 1 / x 0]) !![1, 1; -(x 1 / x 0 ^ 2), 1 / x 0] ?_ ?_ ?_
  · filter_upwards [ev_pos 0 h] with x' hx'
    simp only [componentsToTotalRatio, toXR, massRatio_fin hx'.ne', totalMass, add_fin_fin]
    exact vec2 _ _
  · intro i
    fin_cases i
    · exact ⟨_, (hasFDerivAt_coord 0 x).add (hasFDerivAt_coord 1 x), by intro v; simp [Fin.sum_univ_two]⟩
    · obtain ⟨f', hf, hv⟩ := hasFDerivAt_ratio h
      exact ⟨f', hf, by intro v; rw [hv]; simp [Fin.sum_univ_two]⟩
  · simp only [componentsToTotalRatio, toXR, Matrix.det_fin_two_of, massRatio_fin h.ne', Matrix.cons_val_one, Matrix.cons_val_zero, add_fin_fin]
    have hq : 0 < 1 + x 1 / x 0 := by positivity
    rw [show (1 : ℝ) * (1 / x 0) - 1 * -(x 1 / x 0 ^ 2) = (1 + x 1 / x 0) / x 0 by field_simp; ring, log_abs_fin (by positivity),
      log_fin_pos hq, log_fin_pos h, sub_fin_fin, Real.log_div hq.ne' h.ne']

/-- The partial derivatives of the chirp mass. -/
theorem hasFDerivAt_chirp {x : Fin 2 → ℝ} (h : 0 < x 0) (h' : 0 < x 1) :
    ∃ f' : (Fin 2 → ℝ) →L[ℝ] ℝ,
      HasFDerivAt (fun x : Fin 2 → ℝ => (x 0 * x 1) ^ (6 / 10 : ℝ) * (x 0 + x 1) ^ (-(2 / 10) : ℝ)) f' x ∧
      ∀ v, f' v = (x 0 * x 1) ^ (6 / 10 : ℝ) * (x 0 + x 1) ^ (-(2 / 10) : ℝ) *
        ((6 / 10 / x 0 - 2 / 10 / (x 0 + x 1)) * v 0 + (6 / 10 / x 1 - 2 / 10 / (x 0 + x 1)) * v 1) := by
  have hP : 0 < x 0 * x 1 := by positivity
  have hS : 0 < x 0 + x 1 := by positivity
  have d1 := ((hasFDerivAt_coord 0 x).mul (hasFDerivAt_coord 1 x)).rpow_const (p := (6 / 10 : ℝ)) (Or.inl hP.ne')
  have d2 := ((hasFDerivAt_coord 0 x).add (hasFDerivAt_coord 1 x)).rpow_const (p := (-(2 / 10) : ℝ)) (Or.inl hS.ne')
  refine ⟨_, d1.mul d2, ?_⟩
  intro v
  simp only [Pi.mul_apply, Pi.add_apply, _root_.add_apply, _root_.smul_apply, ContinuousLinearMap.proj_apply, smul_eq_mul]
  have r1 : (x 0 * x 1) ^ (6 / 10 - 1 : ℝ) = (x 0 * x 1) ^ (6 / 10 : ℝ) / (x 0 * x 1) := Real.rpow_sub_one hP.ne' _
  have r2 : (x 0 + x 1) ^ (-(2 / 10) - 1 : ℝ) = (x 0 + x 1) ^ (-(2 / 10) : ℝ) / (x 0 + x 1) := Real.rpow_sub_one hS.ne' _
  rw [r1, r2]
  generalize (x 0 * x 1) ^ (6 / 10 : ℝ) = A
  generalize (x 0 + x 1) ^ (-(2 / 10) : ℝ) = B
  field_simp
  ring

/-- The partial derivatives of `eta`. -/
theorem hasFDerivAt_eta {x : Fin 2 → ℝ} (h : 0 < x 0) (h' : 0 < x 1) :
    ∃ f' : (Fin 2 → ℝ) →L[ℝ] ℝ, HasFDerivAt (fun x : Fin 2 → ℝ => x 0 * x 1 / (x 0 + x 1) ^ 2) f' x ∧
      ∀ v, f' v = x 0 * x 1 / (x 0 + x 1) ^ 2 * ((1 / x 0 - 2 / (x 0 + x 1)) * v 0 + (1 / x 1 - 2 / (x 0 + x 1)) * v 1) := by
  have hS : 0 < x 0 + x 1 := by positivity
  have hS2 : (x 0 + x 1) ^ 2 ≠ 0 := by positivity
  have dS := (hasFDerivAt_coord 0 x).add (hasFDerivAt_coord 1 x)
  have dS2 : HasFDerivAt (fun x : Fin 2 → ℝ => (x 0 + x 1) ^ 2) _ x := dS.pow 2
  have hinv : HasFDerivAt (fun x : Fin 2 → ℝ => ((x 0 + x 1) ^ 2)⁻¹) _ x := (hasDerivAt_inv hS2).comp_hasFDerivAt x dS2
  refine ⟨_, (((hasFDerivAt_coord 0 x).mul (hasFDerivAt_coord 1 x)).mul hinv).congr_of_eventuallyEq (.of_forall fun x' => div_eq_mul_inv _ _), ?_⟩
  intro v
  simp
  field_simp
  ring

/-- The partial derivatives of `delta`. -/
theorem hasFDerivAt_delta {x : Fin 2 → ℝ} (h : 0 < x 0) (h' : 0 < x 1) :
    ∃ f' : (Fin 2 → ℝ) →L[ℝ] ℝ, HasFDerivAt (fun x : Fin 2 → ℝ => (x 0 - x 1) / (x 0 + x 1)) f' x ∧
      ∀ v, f' v = 2 * x 1 / (x 0 + x 1) ^ 2 * v 0 + -(2 * x 0 / (x 0 + x 1) ^ 2) * v 1 := by
  have hS : 0 < x 0 + x 1 := by positivity
  have hinv : HasFDerivAt (fun x : Fin 2 → ℝ => (x 0 + x 1)⁻¹) _ x :=
    (hasDerivAt_inv hS.ne').comp_hasFDerivAt x ((hasFDerivAt_coord 0 x).add (hasFDerivAt_coord 1 x))
  refine ⟨_, (((hasFDerivAt_coord 0 x).sub (hasFDerivAt_coord 1 x)).mul hinv).congr_of_eventuallyEq (.of_forall fun x' => div_eq_mul_inv _ _), ?_⟩
  intro v
  simp
  field_simp
  ring

/-- **C17.**  `(m1, m2) → (Mc, eta)`, for every `0 < m2 ≤ m1` (at equal masses the determinant vanishes and `-inf` is returned). -/
theorem C17_chirp_eta (big : ℝ) (x : Fin 2 → ℝ) (h' : 0 < x 1) (hle : x 1 ≤ x 0) :
    IsLogDetAt (componentsToChirpEta big).fwd x
      ((componentsToChirpEta big).logDet (toXR x) ((componentsToChirpEta big).fwd (toXR x))) := by
  have h : 0 < x 0 := by linarith
  have hP : 0 < x 0 * x 1 := by positivity
  have hS : 0 < x 0 + x 1 := by positivity
  set Mc := (x 0 * x 1) ^ (6 / 10 : ℝ) * (x 0 + x 1) ^ (-(2 / 10) : ℝ) with hMc
  set eta := x 0 * x 1 / (x 0 + x 1) ^ 2 with heta
  have hMcpos : 0 < Mc := by positivity
  have hetapos : 0 < eta := by positivity
  refine isLogDetAt_of _ x _ (fun x => ![(x 0 * x 1) ^ (6 / 10 : ℝ) * (x 0 + x 1) ^ (-(2 / 10) : ℝ), x 0 * x 1 / (x 0 + x 1) ^ 2])
    !![Mc * (6 / 10 / x 0 - 2 / 10 / (x 0 + x 1)), Mc * (6 / 10 / x 1 - 2 / 10 / (x 0 + x 1));
      eta * (1 / x 0 - 2 / (x 0 + x 1)), eta * (1 / x 1 - 2 / (x 0 + x 1))] ?_ ?_ ?_
  · filter_upwards [ev_pos 0 h, ev_pos 1 h'] with x' h0 h1
    simp only [componentsToChirpEta, toXR, chirpMass_fin h0 h1, symmetricMassRatio_fin h0 h1]
    exact vec2 _ _
  · intro i
    fin_cases i
    · obtain ⟨f', hf, hv⟩ := hasFDerivAt_chirp h h'
      exact ⟨f', hf, by intro v; rw [hv]; simp [Fin.sum_univ_two, ← hMc]; ring⟩
    · obtain ⟨f', hf, hv⟩ := hasFDerivAt_eta h h'
      exact ⟨f', hf, by intro v; rw [hv]; simp [Fin.sum_univ_two, ← heta]; ring⟩
  · have hdet : Matrix.det !![Mc * (6 / 10 / x 0 - 2 / 10 / (x 0 + x 1)), Mc * (6 / 10 / x 1 - 2 / 10 / (x 0 + x 1));
        eta * (1 / x 0 - 2 / (x 0 + x 1)), eta * (1 / x 1 - 2 / (x 0 + x 1))] = Mc * eta * (x 0 - x 1) / ((x 0 + x 1) * (x 0 * x 1)) := by
      rw [Matrix.det_fin_two_of]
      field_simp
      ring
    rw [hdet]
    simp only [componentsToChirpEta, toXR, chirpMass_fin h h', symmetricMassRatio_fin h h', Matrix.cons_val_zero, Matrix.cons_val_one]
    rw [← hMc, ← heta, log_fin_pos hMcpos, log_fin_pos hetapos, mul_fin_fin, mul_fin_fin]
    have h1 : 1 + -4 * eta = ((x 0 - x 1) / (x 0 + x 1)) ^ 2 := by
      rw [heta]
      field_simp
      ring
    rcases hle.eq_or_lt with he | hlt
    · have hz : x 0 - x 1 = 0 := by linarith
      have hz1 : log1p (fin (-4 * eta)) = ninf := by
        simp only [log1p, add_fin_fin]
        rw [h1, hz]
        simp [log_fin_zero]
      rw [hz1, hz]
      simp only [mul_zero, zero_div, abs_zero, log_fin_zero]
      have : (fin (1 / 2) : XR) * ninf = ninf := by
        show XR.mul (fin (1 / 2)) ninf = ninf
        norm_num [XR.mul, XR.neg, mulInf]
      rw [this]
      rfl
    · have hd : 0 < (x 0 - x 1) / (x 0 + x 1) := div_pos (by linarith) hS
      have hpos : 0 < Mc * eta * (x 0 - x 1) / ((x 0 + x 1) * (x 0 * x 1)) := by
        have : 0 < x 0 - x 1 := by linarith
        positivity
      rw [log1p_fin (by rw [h1]; positivity), log_abs_fin hpos, mul_fin_fin, add_fin_fin, sub_fin_fin, h1]
      congr 1
      have e1 : Mc * eta * (x 0 - x 1) / ((x 0 + x 1) * (x 0 * x 1)) = Mc * ((x 0 - x 1) / (x 0 + x 1)) / (x 0 + x 1) ^ 2 := by
        rw [heta]
        field_simp
      have e2 : Real.log Mc = 6 / 10 * Real.log (x 0 * x 1) - 2 / 10 * Real.log (x 0 + x 1) := by
        rw [hMc, Real.log_mul (Real.rpow_pos_of_pos hP _).ne' (Real.rpow_pos_of_pos hS _).ne', Real.log_rpow hP, Real.log_rpow hS]
        ring
      have e3 : Real.log eta = Real.log (x 0 * x 1) - 2 * Real.log (x 0 + x 1) := by
        rw [heta, Real.log_div hP.ne' (by positivity), Real.log_pow]
        norm_num
      have e4 : Real.log (Mc * ((x 0 - x 1) / (x 0 + x 1)) / (x 0 + x 1) ^ 2) =
          Real.log Mc + Real.log ((x 0 - x 1) / (x 0 + x 1)) - 2 * Real.log (x 0 + x 1) := by
        rw [Real.log_div (mul_pos hMcpos hd).ne' (by positivity), Real.log_mul hMcpos.ne' hd.ne', Real.log_pow]
        norm_num
      have e5 : Real.log (((x 0 - x 1) / (x 0 + x 1)) ^ 2) = 2 * Real.log ((x 0 - x 1) / (x 0 + x 1)) := by
        rw [Real.log_pow]
        norm_num
      rw [e1, e4, e5, e3, e2]
      ring

/-- **C17.**  `(m1, m2) → (Mc, delta)`, for positive masses. -/
theorem C17_chirp_delta (big : ℝ) (x : Fin 2 → ℝ) (h : 0 < x 0) (h' : 0 < x 1) :
    IsLogDetAt (componentsToChirpDelta big).fwd x
      ((componentsToChirpDelta big).logDet (toXR x) ((componentsToChirpDelta big).fwd (toXR x))) := by
  have hS : 0 < x 0 + x 1 := by positivity
  set Mc := (x 0 * x 1) ^ (6 / 10 : ℝ) * (x 0 + x 1) ^ (-(2 / 10) : ℝ) with hMc
  have hMcpos : 0 < Mc := by positivity
  refine isLogDetAt_of _ x _ (fun x => ![(x 0 * x 1) ^ (6 / 10 : ℝ) * (x 0 + x 1) ^ (-(2 / 10) : ℝ), (x 0 - x 1) / (x 0 + x 1)])
    !![Mc * (6 / 10 / x 0 - 2 / 10 / (x 0 + x 1)), Mc * (6 / 10 / x 1 - 2 / 10 / (x 0 + x 1));
      2 * x 1 / (x 0 + x 1) ^ 2, -(2 * x 0 / (x 0 + x 1) ^ 2)] ?_ ?_ ?_
  · filter_upwards [ev_pos 0 h, ev_pos 1 h'] with x' h0 h1
    have : x' 0 + x' 1 ≠ 0 := by positivity
    simp only [componentsToChirpDelta, toXR, chirpMass_fin h0 h1, deltaM, totalMass, add_fin_fin, sub_fin_fin, eqc_fin_of_ne this, select_false,
      div_fin_of_ne _ this]
    exact vec2 _ _
  · intro i
    fin_cases i
    · obtain ⟨f', hf, hv⟩ := hasFDerivAt_chirp h h'
      exact ⟨f', hf, by intro v; rw [hv]; simp [Fin.sum_univ_two, ← hMc]; ring⟩
    · obtain ⟨f', hf, hv⟩ := hasFDerivAt_delta h h'
      exact ⟨f', hf, by intro v; rw [hv]; simp [Fin.sum_univ_two]⟩
  · have hdet : Matrix.det !![Mc * (6 / 10 / x 0 - 2 / 10 / (x 0 + x 1)), Mc * (6 / 10 / x 1 - 2 / 10 / (x 0 + x 1));
        2 * x 1 / (x 0 + x 1) ^ 2, -(2 * x 0 / (x 0 + x 1) ^ 2)] = -(2 * Mc / (x 0 + x 1) ^ 2) := by
      rw [Matrix.det_fin_two_of]
      field_simp
      ring
    rw [hdet, abs_neg, log_abs_fin (by positivity)]
    simp only [componentsToChirpDelta, toXR, chirpMass_fin h h', Matrix.cons_val_zero, totalMass, add_fin_fin]
    rw [← hMc, log_fin_pos hMcpos, log_fin_pos two_pos, log_fin_pos hS, mul_fin_fin, add_fin_fin, add_fin_fin,
      Real.log_div (by positivity) (by positivity), Real.log_mul two_ne_zero hMcpos.ne', Real.log_pow]
    congr 1
    push_cast
    ring

/-- A binary with masses 36 and 29 meets the hypotheses of the mass transforms. -/
example : IsLogDetAt (componentsToChirpEta 1000).fwd ![36, 29]
    ((componentsToChirpEta 1000).logDet (toXR ![36, 29]) ((componentsToChirpEta 1000).fwd (toXR ![36, 29]))) :=
  C17_chirp_eta 1000 ![36, 29] (by norm_num) (by norm_num)

end GW.Transforms
