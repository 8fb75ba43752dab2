import Verif.Props.Injections
import Mathlib.Analysis.SpecialFunctions.Integrals.Basic

/-!
# C47: the density of the injections in the requested parameters
-/

namespace GW.Injections
open GW XR
open scoped Classical

/-! ## Specification of the coordinates -/

/-- The supported ways to ask for masses. -/
inductive MassCoords where
  | source              -- mass_1_source, mass_2_source
  | ratio               -- mass_1_source, mass_ratio
  | detectedSource      -- mass_1, mass_2_source
  | detectedRatio       -- mass_1, mass_ratio
  | detectedPair        -- mass_1, mass_2 (with mass_ratio also listed)
  | chirp               -- chirp_mass, mass_ratio
  | chirpDetected       -- chirp_mass_detector, mass_ratio
deriving DecidableEq

/-- The flags of the derived mass parameters: mass_ratio, chirp_mass, mass_1, mass_2, chirp_mass_detector. -/
def MassCoords.flags : MassCoords → Bool × Bool × Bool × Bool × Bool
  | .source => (false, false, false, false, false)
  | .ratio => (true, false, false, false, false)
  | .detectedSource => (false, false, true, false, false)
  | .detectedRatio => (true, false, true, false, false)
  | .detectedPair => (true, false, true, true, false)
  | .chirp => (true, true, false, false, false)
  | .chirpDetected => (true, false, false, false, true)

/-- The requested list asks for exactly these masses. -/
def MassCoords.Asked (c : MassCoords) (ps : List String) : Prop :=
  (ps.contains "mass_ratio", ps.contains "chirp_mass", ps.contains "mass_1", ps.contains "mass_2", ps.contains "chirp_mass_detector") = c.flags

/-- The chirp mass. -/
noncomputable def chirpMass (m1 m2 : ℝ) : ℝ := (m1 * m2) ^ (3 / 5 : ℝ) / (m1 + m2) ^ (1 / 5 : ℝ)

/-- The two mass coordinates as functions of `(m1, m2, z)`. -/
noncomputable def MassCoords.masses (c : MassCoords) (m1 m2 z : ℝ) : ℝ × ℝ := match c with
  | .source => (m1, m2)
  | .ratio => (m1, m2 / m1)
  | .detectedSource => (m1 * (1 + z), m2)
  | .detectedRatio => (m1 * (1 + z), m2 / m1)
  | .detectedPair => (m1 * (1 + z), m2 * (1 + z))
  | .chirp => (chirpMass m1 m2, m2 / m1)
  | .chirpDetected => (chirpMass m1 m2 * (1 + z), m2 / m1)

/-- Their names. -/
def MassCoords.names : MassCoords → String × String
  | .source => ("mass_1_source", "mass_2_source")
  | .ratio => ("mass_1_source", "mass_ratio")
  | .detectedSource => ("mass_1", "mass_2_source")
  | .detectedRatio => ("mass_1", "mass_ratio")
  | .detectedPair => ("mass_1", "mass_2")
  | .chirp => ("chirp_mass", "mass_ratio")
  | .chirpDetected => ("chirp_mass_detector", "mass_ratio")

/-- The coordinate change from `(m1, m2, z)`; the third coordinate is the redshift, or the distance `D z`. -/
noncomputable def MassCoords.map (c : MassCoords) (D : ℝ → ℝ) (x : Fin 3 → ℝ) : Fin 3 → ℝ :=
  ![(c.masses (x 0) (x 1) (x 2)).1, (c.masses (x 0) (x 1) (x 2)).2, D (x 2)]

/-- The density of `χ = a cos θ` for a spin magnitude uniform on `[0, 1]` and a cosine uniform on `[-1, 1]`: at magnitude `a ≥ |χ|` the cosine has
density `1/2`, hence `χ` has density `1 / (2 a)`. -/
noncomputable def alignedDensity (chi : ℝ) : ℝ := ∫ a in |chi|..1, 1 / 2 * (1 / a)

/-! ## Helpers -/

theorem DensityAfter.comp {k : ℕ} {S T : (Fin k → ℝ) → Fin k → ℝ} {x : Fin k → ℝ} {p p' p'' : ℝ} (h1 : DensityAfter T x p p') (h2 : DensityAfter S (T x) p' p'') :
    DensityAfter (S ∘ T) x p p'' := by
  obtain ⟨T', hT, hd, rfl⟩ := h1
  obtain ⟨S', hS, hd', rfl⟩ := h2
  refine ⟨S'.comp T', hS.comp x hT, ?_, ?_⟩
  · rw [ContinuousLinearMap.toLinearMap_comp, LinearMap.det_comp]
    exact mul_ne_zero hd' hd
  · rw [ContinuousLinearMap.toLinearMap_comp, LinearMap.det_comp, abs_mul, div_div, mul_comm]

theorem DensityAfter.congr {k : ℕ} {S T : (Fin k → ℝ) → Fin k → ℝ} {x : Fin k → ℝ} {p p' : ℝ} (h : DensityAfter T x p p') (e : S =ᶠ[nhds x] T) : DensityAfter S x p p' := by
  obtain ⟨T', hT, hd, hp⟩ := h
  exact ⟨T', hT.congr_of_eventuallyEq e, hd, hp⟩

theorem densityAfter_matrix {k : ℕ} (T : (Fin k → ℝ) → Fin k → ℝ) (M : Matrix (Fin k) (Fin k) ℝ) (x : Fin k → ℝ)
    (h : ∀ i, ∃ f' : (Fin k → ℝ) →L[ℝ] ℝ, HasFDerivAt (fun x => T x i) f' x ∧ ∀ v, f' v = ∑ j, M i j * v j) {d : ℝ} (hd : M.det = d) (h0 : 0 < d) (p : ℝ) :
    DensityAfter T x p (p / d) :=
  ⟨_, Transforms.hasFDerivAt_matMap T M x h, by rw [Transforms.det_matMap, hd]; exact h0.ne', by rw [Transforms.det_matMap, hd, abs_of_pos h0]⟩

open Transforms in
theorem density_ratio (x : Fin 3 → ℝ) (h : 0 < x 0) (p : ℝ) : DensityAfter (fun x => ![x 0, x 1 / x 0, x 2]) x p (p * x 0) := by
  have hr : HasFDerivAt (fun y : Fin 3 → ℝ => y 1 / y 0) ((x 0)⁻¹ • ContinuousLinearMap.proj (R := ℝ) (φ := fun _ : Fin 3 => ℝ) 1
      + (x 1) • (-(x 0 ^ 2)⁻¹) • ContinuousLinearMap.proj (R := ℝ) (φ := fun _ : Fin 3 => ℝ) 0) x := by
    have hi : HasFDerivAt (fun y : Fin 3 → ℝ => (y 0)⁻¹) ((-(x 0 ^ 2)⁻¹) • ContinuousLinearMap.proj (R := ℝ) (φ := fun _ : Fin 3 => ℝ) 0) x :=
      HasDerivAt.comp_hasFDerivAt (h₂ := fun t : ℝ => t⁻¹) x (hasDerivAt_inv h.ne') (hasFDerivAt_coord 0 x)
    have := (hasFDerivAt_coord 1 x).mul hi
    simp only [div_eq_mul_inv]
    refine this.congr_fderiv ?_
    rw [add_comm]
  have := densityAfter_matrix (fun x : Fin 3 → ℝ => ![x 0, x 1 / x 0, x 2]) !![1, 0, 0; -(x 1 / x 0 ^ 2), 1 / x 0, 0; 0, 0, 1] x (by
    intro i
    fin_cases i
    · exact ⟨_, hasFDerivAt_coord 0 x, by intro v; simp [Fin.sum_univ_three]⟩
    · exact ⟨_, hr, by
        intro v
        simp [Fin.sum_univ_three]
        field_simp
        ring⟩
    · exact ⟨_, hasFDerivAt_coord 2 x, by intro v; simp [Fin.sum_univ_three]⟩) (d := 1 / x 0) (by simp [Matrix.det_fin_three]) (by positivity) p
  rwa [div_div_eq_mul_div, div_one] at this

open Transforms in
theorem density_redshift (x : Fin 3 → ℝ) (h : 0 < 1 + x 2) (p : ℝ) : DensityAfter (fun x => ![x 0 * (1 + x 2), x 1, x 2]) x p (p / (1 + x 2)) := by
  refine densityAfter_matrix _ !![1 + x 2, 0, x 0; 0, 1, 0; 0, 0, 1] x ?_ (by simp [Matrix.det_fin_three]) h p
  intro i
  fin_cases i
  · exact ⟨_, (hasFDerivAt_coord 0 x).mul ((hasFDerivAt_coord 2 x).const_add 1), by intro v; simp [Fin.sum_univ_three]; ring⟩
  · exact ⟨_, hasFDerivAt_coord 1 x, by intro v; simp [Fin.sum_univ_three]⟩
  · exact ⟨_, hasFDerivAt_coord 2 x, by intro v; simp [Fin.sum_univ_three]⟩

open Transforms in
theorem density_product (x : Fin 3 → ℝ) (h : 0 < x 0) (p : ℝ) : DensityAfter (fun x => ![x 0, x 0 * x 1, x 2]) x p (p / x 0) := by
  refine densityAfter_matrix _ !![1, 0, 0; x 1, x 0, 0; 0, 0, 1] x ?_ (by simp [Matrix.det_fin_three]) h p
  intro i
  fin_cases i
  · exact ⟨_, hasFDerivAt_coord 0 x, by intro v; simp [Fin.sum_univ_three]⟩
  · exact ⟨_, (hasFDerivAt_coord 0 x).mul (hasFDerivAt_coord 1 x), by intro v; simp [Fin.sum_univ_three]; ring⟩
  · exact ⟨_, hasFDerivAt_coord 2 x, by intro v; simp [Fin.sum_univ_three]⟩

open Transforms in
theorem density_distance (D : ℝ → ℝ) (D' : ℝ) (x : Fin 3 → ℝ) (hD : HasDerivAt D D' (x 2)) (h : 0 < D') (p : ℝ) :
    DensityAfter (fun x => ![x 0, x 1, D (x 2)]) x p (p / D') := by
  refine densityAfter_matrix _ !![1, 0, 0; 0, 1, 0; 0, 0, D'] x ?_ (by simp [Matrix.det_fin_three]) h p
  intro i
  fin_cases i
  · exact ⟨_, hasFDerivAt_coord 0 x, by intro v; simp [Fin.sum_univ_three]⟩
  · exact ⟨_, hasFDerivAt_coord 1 x, by intro v; simp [Fin.sum_univ_three]⟩
  · exact ⟨_, HasDerivAt.comp_hasFDerivAt (h₂ := D) x hD (hasFDerivAt_coord 2 x), by intro v; simp [Fin.sum_univ_three]⟩

/-- The chirp mass over the primary mass. -/
noncomputable def chirpShape (q : ℝ) : ℝ := q ^ (3 / 5 : ℝ) / (1 + q) ^ (1 / 5 : ℝ)

open Transforms in
theorem density_chirp (x : Fin 3 → ℝ) (h : 0 < x 1) (p : ℝ) : DensityAfter (fun x => ![x 0 * chirpShape (x 1), x 1, x 2]) x p (p / chirpShape (x 1)) := by
  have hg : DifferentiableAt ℝ chirpShape (x 1) := by
    unfold chirpShape
    have h1 : (0 : ℝ) < 1 + x 1 := by linarith
    refine DifferentiableAt.div ?_ ?_ (Real.rpow_pos_of_pos h1 _).ne'
    · exact (Real.hasDerivAt_rpow_const (Or.inl h.ne')).differentiableAt
    · exact (((hasDerivAt_id (x 1)).const_add 1).rpow_const (Or.inl h1.ne')).differentiableAt
  have hpos : 0 < chirpShape (x 1) := by unfold chirpShape; positivity
  refine densityAfter_matrix _ !![chirpShape (x 1), x 0 * deriv chirpShape (x 1), 0; 0, 1, 0; 0, 0, 1] x ?_ (by simp [Matrix.det_fin_three]) hpos p
  intro i
  fin_cases i
  · refine ⟨_, (hasFDerivAt_coord 0 x).mul (HasDerivAt.comp_hasFDerivAt (h₂ := chirpShape) x hg.hasDerivAt (hasFDerivAt_coord 1 x)), ?_⟩
    intro v
    simp [Fin.sum_univ_three]
    ring
  · exact ⟨_, hasFDerivAt_coord 1 x, by intro v; simp [Fin.sum_univ_three]⟩
  · exact ⟨_, hasFDerivAt_coord 2 x, by intro v; simp [Fin.sum_univ_three]⟩

theorem chirpMass_eq {m1 m2 : ℝ} (h1 : 0 < m1) (h2 : 0 < m2) : chirpMass m1 m2 = m1 * chirpShape (m2 / m1) := by
  unfold chirpMass chirpShape
  rw [show m1 * m2 = m1 ^ (2 : ℝ) * (m2 / m1) by rw [Real.rpow_two]; field_simp, show m1 + m2 = m1 * (1 + m2 / m1) by field_simp,
    Real.mul_rpow (by positivity) (by positivity), Real.mul_rpow h1.le (by positivity), ← Real.rpow_mul h1.le, ← mul_div_assoc, mul_div_mul_comm, ← Real.rpow_sub h1]
  rw [show (2 : ℝ) * 3 / 5 - 1 / 5 = 1 by norm_num, Real.rpow_one]

theorem chirpJacobian_fin {q : ℝ} (h : 0 < q) : chirpJacobian (fin q) = fin (1 / chirpShape q) := by
  unfold chirpJacobian chirpShape
  have h1 : (0 : ℝ) < 1 + q := by linarith
  rw [add_fin_fin, pow_fin_pos h1, pow_fin_pos h, div_fin_of_ne _ (Real.rpow_pos_of_pos h _).ne', one_div_div]

theorem alignedDensity_eq {chi : ℝ} (h : chi ≠ 0) : alignedDensity chi = -Real.log |chi| / 2 := by
  unfold alignedDensity
  rw [intervalIntegral.integral_const_mul, integral_one_div_of_pos (abs_pos.2 h) one_pos, Real.log_div one_ne_zero (abs_pos.2 h).ne', Real.log_one]
  ring

theorem alignedSpinPrior_fin {chi : ℝ} (h : chi ≠ 0) : alignedSpinPrior (fin chi) = fin (alignedDensity chi) := by
  rw [alignedDensity_eq h, alignedSpinPrior, abs_fin, log_fin_pos (abs_pos.2 h), neg_fin, div_fin_of_ne _ two_ne_zero]

/-- An injection with finite entries, as loaded. -/
def startRow (m1 m2 z a1 a2 c1 c2 p : ℝ) : Row := { m1 := fin m1, m2 := fin m2, z := fin z, a1 := fin a1, a2 := fin a2, c1 := fin c1, c2 := fin c2, prior := fin p }

/-- `v` is the value, at the injection, of the density of the effective spins under isotropic uniform spins. -/
def Effective (e : Env) (ps : List String) (m1 m2 a1 a2 c1 c2 v : ℝ) : Prop :=
  let x := Conv.chiEffFromTilts (fin m1) (fin m2) (fin a1) (fin a2) (fin c1) (fin c2)
  let q := fin (m2 / m1)
  (if "chi_p" ∈ ps then e.chiEffChiP x (Conv.chiP (fin a1) (fin c1) (fin a2) (fin c2) q) q else e.chiEffOnly x q) = fin v

/-- The factor for the spins: for each requested spin quantity, its density under isotropic spins with uniform magnitudes over the density `1/2` of each
pair (magnitude, cosine). -/
noncomputable def spinFactor (ps : List String) (a1 a2 c1 c2 v : ℝ) : ℝ :=
  (if "chi_eff" ∈ ps then v / (1 / 2 * (1 / 2)) else 1) * (if "chi_1" ∈ ps then alignedDensity (a1 * c1) / (1 / 2) else 1) *
    (if "chi_2" ∈ ps then alignedDensity (a2 * c2) / (1 / 2) else 1)

theorem spinStage (e : Env) (ps : List String) (r : Row) (m1 m2 a1 a2 c1 c2 p v : ℝ) (hm : 0 < m1) (h1 : r.m1 = fin m1) (h2 : r.m2 = fin m2) (h3 : r.a1 = fin a1) (h4 : r.a2 = fin a2)
    (h5 : r.c1 = fin c1) (h6 : r.c2 = fin c2) (hp : r.prior = fin p) (hq : r.q = none ∨ r.q = some (fin (m2 / m1)))
    (hv : "chi_eff" ∈ ps → Effective e ps m1 m2 a1 a2 c1 c2 v) (hc1 : "chi_1" ∈ ps → a1 * c1 ≠ 0) (hc2 : "chi_2" ∈ ps → a2 * c2 ≠ 0) :
    ∃ r2, stepChi2 ps (stepChi1 ps (stepEffective e ps r)) = r2 ∧ r2.m1 = r.m1 ∧ r2.m2 = r.m2 ∧ r2.z = r.z ∧ r2.prior = fin (p * spinFactor ps a1 a2 c1 c2 v) ∧
      (r.q = some (fin (m2 / m1)) → r2.q = some (fin (m2 / m1))) ∧ ("chi_eff" ∉ ps → r2.q = r.q) ∧ r2.mc = r.mc ∧ r2.m1d = r.m1d ∧ r2.m2d = r.m2d ∧ r2.mcd = r.mcd ∧ r2.dl = r.dl := by
  have hE : ∃ r2, stepEffective e ps r = r2 ∧ r2.m1 = r.m1 ∧ r2.m2 = r.m2 ∧ r2.z = r.z ∧ r2.prior = fin (p * if "chi_eff" ∈ ps then v / (1 / 2 * (1 / 2)) else 1) ∧
      (r.q = some (fin (m2 / m1)) → r2.q = some (fin (m2 / m1))) ∧ ("chi_eff" ∉ ps → r2.q = r.q) ∧ r2.mc = r.mc ∧ r2.m1d = r.m1d ∧ r2.m2d = r.m2d ∧ r2.mcd = r.mcd ∧ r2.dl = r.dl ∧
      r2.a1 = r.a1 ∧ r2.a2 = r.a2 ∧ r2.c1 = r.c1 ∧ r2.c2 = r.c2 := by
    unfold stepEffective
    by_cases hx : "chi_eff" ∈ ps
    · have hqd : r.q.getD (r.m2 / r.m1) = fin (m2 / m1) := by
        rcases hq with hq | hq
        · rw [hq, h1, h2, Option.getD_none, div_fin_of_ne _ hm.ne']
        · rw [hq, Option.getD_some]
      have hv := hv hx
      unfold Effective at hv
      by_cases hxp : "chi_p" ∈ ps
      · rw [if_pos (List.contains_iff_mem.2 hx), if_pos (List.contains_iff_mem.2 hxp)]
        simp only [if_pos hxp] at hv
        refine ⟨_, rfl, rfl, rfl, rfl, ?_, fun _ => ?_, fun h => absurd hx h, rfl, rfl, rfl, rfl, rfl, rfl, rfl, rfl, rfl⟩
        · simp only [hqd]
          simp only [h1, h2, h3, h4, h5, h6, hv, hp]
          rw [div_fin_of_ne _ (by norm_num), mul_fin_fin, if_pos hx]
          congr 2
          norm_num
        · simp only [hqd]
      · rw [if_pos (List.contains_iff_mem.2 hx), if_neg (fun h => hxp (List.contains_iff_mem.1 h))]
        simp only [if_neg hxp] at hv
        refine ⟨_, rfl, rfl, rfl, rfl, ?_, fun _ => ?_, fun h => absurd hx h, rfl, rfl, rfl, rfl, rfl, rfl, rfl, rfl, rfl⟩
        · simp only [hqd]
          simp only [h1, h2, h3, h4, h5, h6, hv, hp]
          rw [div_fin_of_ne _ (by norm_num), mul_fin_fin, if_pos hx]
          congr 2
          norm_num
        · simp only [hqd]
    · rw [if_neg (fun h => hx (List.contains_iff_mem.1 h))]
      exact ⟨_, rfl, rfl, rfl, rfl, by rw [hp, if_neg hx, mul_one], id, fun _ => rfl, rfl, rfl, rfl, rfl, rfl, rfl, rfl, rfl, rfl⟩
  obtain ⟨r2, e2, g1, g2, g3, gp, gq, gq', gmc, gm1d, gm2d, gmcd, gdl, ga1, ga2, gc1, gc2⟩ := hE
  rw [e2]
  have hS1 : ∃ r3, stepChi1 ps r2 = r3 ∧ r3.m1 = r.m1 ∧ r3.m2 = r.m2 ∧ r3.z = r.z ∧
      r3.prior = fin (p * (if "chi_eff" ∈ ps then v / (1 / 2 * (1 / 2)) else 1) * (if "chi_1" ∈ ps then alignedDensity (a1 * c1) / (1 / 2) else 1)) ∧
      r3.q = r2.q ∧ r3.mc = r.mc ∧ r3.m1d = r.m1d ∧ r3.m2d = r.m2d ∧ r3.mcd = r.mcd ∧ r3.dl = r.dl ∧ r3.a2 = r.a2 ∧ r3.c2 = r.c2 := by
    unfold stepChi1
    by_cases hx : "chi_1" ∈ ps
    · rw [if_pos (List.contains_iff_mem.2 hx)]
      refine ⟨_, rfl, g1, g2, g3, ?_, rfl, gmc, gm1d, gm2d, gmcd, gdl, ga2, gc2⟩
      simp only [gp, ga1, gc1, h3, h5, mul_fin_fin, alignedSpinPrior_fin (hc1 hx), if_pos hx]
      congr 2
      ring
    · rw [if_neg (fun h => hx (List.contains_iff_mem.1 h))]
      exact ⟨_, rfl, g1, g2, g3, by rw [gp, if_neg hx, mul_one], rfl, gmc, gm1d, gm2d, gmcd, gdl, ga2, gc2⟩
  obtain ⟨r3, e3, k1, k2, k3, kp, kq, kmc, km1d, km2d, kmcd, kdl, ka2, kc2⟩ := hS1
  rw [e3]
  unfold stepChi2 spinFactor
  by_cases hx : "chi_2" ∈ ps
  · rw [if_pos (List.contains_iff_mem.2 hx)]
    refine ⟨_, rfl, k1, k2, k3, ?_, fun h => kq.trans (gq h), fun h => kq.trans (gq' h), kmc, km1d, km2d, kmcd, kdl⟩
    simp only [kp, ka2, kc2, h4, h6, mul_fin_fin, alignedSpinPrior_fin (hc2 hx), if_pos hx]
    congr 1
    ring
  · rw [if_neg (fun h => hx (List.contains_iff_mem.1 h))]
    exact ⟨_, rfl, k1, k2, k3, by rw [kp, if_neg hx]; congr 1; ring, fun h => kq.trans (gq h), fun h => kq.trans (gq' h), kmc, km1d, km2d, kmcd, kdl⟩

/-- The factor of each choice of masses, as the code accumulates it. -/
noncomputable def MassCoords.weigh (c : MassCoords) (m1 m2 z p : ℝ) : ℝ := match c with
  | .source => p
  | .ratio => p * m1
  | .detectedSource => p / (1 + z)
  | .detectedRatio => p * m1 / (1 + z)
  | .detectedPair => p * m1 / (1 + z) / (m1 * (1 + z))
  | .chirp => p * m1 / chirpShape (m2 / m1)
  | .chirpDetected => p * m1 / chirpShape (m2 / m1) / (1 + z)

theorem massDensity (c : MassCoords) {m1 m2 z : ℝ} (p : ℝ) (h1 : 0 < m1) (h2 : 0 < m2) (hz : 0 < 1 + z) :
    DensityAfter (fun x => ![(c.masses (x 0) (x 1) (x 2)).1, (c.masses (x 0) (x 1) (x 2)).2, x 2]) ![m1, m2, z] p (c.weigh m1 m2 z p) := by
  have hx : ∀ᶠ x in nhds (![m1, m2, z] : Fin 3 → ℝ), 0 < x 0 ∧ 0 < x 1 :=
    (Transforms.ev_pos 0 (by simpa using h1)).and (Transforms.ev_pos 1 (by simpa using h2))
  have hq : 0 < m2 / m1 := by positivity
  have hr : DensityAfter (fun x => ![x 0, x 1 / x 0, x 2]) ![m1, m2, z] p (p * m1) := density_ratio ![m1, m2, z] (by simpa using h1) p
  have hch : DensityAfter (fun x => ![chirpMass (x 0) (x 1), x 1 / x 0, x 2]) ![m1, m2, z] p (p * m1 / chirpShape (m2 / m1)) := by
    refine (hr.comp (density_chirp ![m1, m2 / m1, z] (by simpa using hq) (p * m1))).congr ?_
    filter_upwards [hx] with x hx
    simp [chirpMass_eq hx.1 hx.2]
  have hrd : DensityAfter (fun x => ![x 0 * (1 + x 2), x 1 / x 0, x 2]) ![m1, m2, z] p (p * m1 / (1 + z)) :=
    hr.comp (density_redshift ![m1, m2 / m1, z] (by simpa using hz) (p * m1))
  cases c with
  | source =>
    refine DensityAfter.congr (T := id) ⟨ContinuousLinearMap.id ℝ _, hasFDerivAt_id _, by simp, by simp [MassCoords.weigh]⟩ (.of_forall fun x => ?_)
    funext i
    fin_cases i <;> rfl
  | ratio => exact hr
  | detectedSource => exact density_redshift ![m1, m2, z] (by simpa using hz) p
  | detectedRatio => exact hrd
  | detectedPair =>
    refine (hrd.comp (density_product ![m1 * (1 + z), m2 / m1, z] (by simpa using mul_pos h1 hz) (p * m1 / (1 + z)))).congr ?_
    filter_upwards [hx] with x hx
    have h3 : x 0 * (1 + x 2) * (x 1 / x 0) = x 1 * (1 + x 2) := by
      have := hx.1.ne'
      field_simp
    simp [MassCoords.masses, h3]
  | chirp => exact hch
  | chirpDetected => exact hch.comp (density_redshift ![chirpMass m1 m2, m2 / m1, z] (by simpa using hz) (p * m1 / chirpShape (m2 / m1)))

/-! ## C47 -/

/-- **C47.**  For every supported choice of mass parameters, with or without the luminosity distance in place of the redshift, and with any spin
parameters: the conversion succeeds, the new entries are the new coordinates, and the density is that of the injection in the new coordinates, times the
factor for the spins. -/
theorem C47_density (e : Env) (ps : List String) (c : MassCoords) (hc : c.Asked ps) (m1 m2 z a1 a2 c1 c2 p v D' : ℝ) (D : ℝ → ℝ) (hm1 : 0 < m1) (hm2 : 0 < m2) (hz : -1 < z)
    (hv : "chi_eff" ∈ ps → Effective e ps m1 m2 a1 a2 c1 c2 v) (hc1 : "chi_1" ∈ ps → a1 * c1 ≠ 0) (hc2 : "chi_2" ∈ ps → a2 * c2 ≠ 0)
    (hD : HasDerivAt D D' z) (hD0 : 0 < D')
    (hdist : if "luminosity_distance" ∈ ps then e.zToDL (fin z) = fin (D z) ∧ e.dDLdz (fin z) = fin D' else D = id) :
    ∃ r' p', applyPrior e ps (startRow m1 m2 z a1 a2 c1 c2 p) = .ok r' ∧ r'.prior = fin (p' * spinFactor ps a1 a2 c1 c2 v) ∧
      DensityAfter (c.map D) ![m1, m2, z] p p' ∧
      r'.entry c.names.1 = some (fin (c.masses m1 m2 z).1) ∧ r'.entry c.names.2 = some (fin (c.masses m1 m2 z).2) ∧
      r'.entry (if "luminosity_distance" ∈ ps then "luminosity_distance" else "redshift") = some (fin (D z)) := by
  have hz1 : 0 < 1 + z := by linarith
  have hq : 0 < m2 / m1 := by positivity
  -- the last step
  have hlast : ∀ (r : Row), r.prior = fin (c.weigh m1 m2 z p * spinFactor ps a1 a2 c1 c2 v) → r.z = fin z →
      ∃ r' p', stepDistance e ps r = r' ∧ r'.prior = fin (p' * spinFactor ps a1 a2 c1 c2 v) ∧ DensityAfter (c.map D) ![m1, m2, z] p p' ∧
        r'.m1 = r.m1 ∧ r'.m2 = r.m2 ∧ r'.q = r.q ∧ r'.mc = r.mc ∧ r'.m1d = r.m1d ∧ r'.m2d = r.m2d ∧ r'.mcd = r.mcd ∧
        r'.entry (if "luminosity_distance" ∈ ps then "luminosity_distance" else "redshift") = some (fin (D z)) := by
    intro r hp hrz
    have hd : DensityAfter (c.map D) ![m1, m2, z] p (c.weigh m1 m2 z p / D') :=
      (massDensity c p hm1 hm2 hz1).comp (density_distance D D' _ (by exact hD) hD0 _)
    unfold stepDistance
    by_cases hl : "luminosity_distance" ∈ ps
    · rw [if_pos hl] at hdist
      rw [if_pos (List.contains_iff_mem.2 hl)]
      refine ⟨_, _, rfl, ?_, hd, rfl, rfl, rfl, rfl, rfl, rfl, rfl, ?_⟩
      · simp only [hrz, hdist.2, hp, div_fin_of_ne _ hD0.ne']
        congr 1
        ring
      · rw [if_pos hl]
        simp [Row.entry, hrz, hdist.1]
    · rw [if_neg hl] at hdist
      rw [if_neg (fun h => hl (List.contains_iff_mem.1 h))]
      have h1 : D' = 1 := hD.unique (by rw [hdist]; exact hasDerivAt_id z)
      refine ⟨_, _, rfl, ?_, hd, rfl, rfl, rfl, rfl, rfl, rfl, rfl, ?_⟩
      · rw [hp, h1, div_one]
      · rw [if_neg hl]
        simp [Row.entry, hrz, hdist]
  have hspin := fun (r : Row) (p1 : ℝ) (h1 : r.m1 = fin m1) (h2 : r.m2 = fin m2) (h3 : r.a1 = fin a1) (h4 : r.a2 = fin a2) (h5 : r.c1 = fin c1) (h6 : r.c2 = fin c2)
    (hp : r.prior = fin p1) (hq : r.q = none ∨ r.q = some (fin (m2 / m1))) => spinStage e ps r m1 m2 a1 a2 c1 c2 p1 v hm1 h1 h2 h3 h4 h5 h6 hp hq hv hc1 hc2
  unfold applyPrior stepRatio stepChirp stepDetected1 stepDetected2 stepChirpDetected
  cases c with
  | source =>
    simp only [MassCoords.Asked, MassCoords.flags, Prod.mk.injEq] at hc
    obtain ⟨f1, f2, f3, f4, f5⟩ := hc
    obtain ⟨r2, e2, g1, g2, g3, gp, gq, gq', gmc, gm1d, gm2d, gmcd, gdl⟩ := hspin (startRow m1 m2 z a1 a2 c1 c2 p) p rfl rfl rfl rfl rfl rfl rfl (Or.inl rfl)
    obtain ⟨r', p', e3, k1, k2, k3, k4, k5, k6, k7, k8, k9, k10⟩ := hlast r2 gp g3
    refine ⟨r', p', ?_, k1, k2, ?_, ?_, k10⟩
    · simp only [f1, f2, f3, f4, f5, Bool.false_eq_true, if_false, bind, Except.bind, e2, e3]
    · show some r'.m1 = _
      rw [k3, g1]; rfl
    · show some r'.m2 = _
      rw [k4, g2]; rfl
  | ratio =>
    simp only [MassCoords.Asked, MassCoords.flags, Prod.mk.injEq] at hc
    obtain ⟨f1, f2, f3, f4, f5⟩ := hc
    simp only [f1, f2, f3, f4, f5, Bool.false_eq_true, if_false, if_true, bind, Except.bind]
    obtain ⟨r2, e2, g1, g2, g3, gp, gq, gq', gmc, gm1d, gm2d, gmcd, gdl⟩ := hspin { startRow m1 m2 z a1 a2 c1 c2 p with
      q := some (fin m2 / fin m1), prior := fin p * fin m1 } (p * m1) rfl rfl rfl rfl rfl rfl rfl (Or.inr (by rw [div_fin_of_ne _ hm1.ne']))
    obtain ⟨r', p', e3, k1, k2, k3, k4, k5, k6, k7, k8, k9, k10⟩ := hlast r2 gp g3
    refine ⟨r', p', ?_, k1, k2, ?_, ?_, k10⟩
    · refine congrArg Except.ok ?_
      rw [← e3, ← e2]; rfl
    · show some r'.m1 = _
      rw [k3, g1]; rfl
    · show r'.q = _
      rw [k5, gq (by simp only; rw [div_fin_of_ne _ hm1.ne'])]; rfl
  | detectedSource =>
    simp only [MassCoords.Asked, MassCoords.flags, Prod.mk.injEq] at hc
    obtain ⟨f1, f2, f3, f4, f5⟩ := hc
    simp only [f1, f2, f3, f4, f5, Bool.false_eq_true, if_false, if_true, bind, Except.bind]
    obtain ⟨r2, e2, g1, g2, g3, gp, gq, gq', gmc, gm1d, gm2d, gmcd, gdl⟩ := hspin (startRow m1 m2 z a1 a2 c1 c2 p) p rfl rfl rfl rfl rfl rfl rfl (Or.inl rfl)
    replace g1 : r2.m1 = fin m1 := g1
    replace g3 : r2.z = fin z := g3
    obtain ⟨r', p', e3, k1, k2, k3, k4, k5, k6, k7, k8, k9, k10⟩ := hlast { r2 with m1d := some (r2.m1 * (fin 1 + r2.z)), prior := r2.prior / (fin 1 + r2.z) } (by
      simp only [gp, g3, add_fin_fin, div_fin_of_ne _ hz1.ne', MassCoords.weigh]
      congr 1; ring) g3
    refine ⟨r', p', ?_, k1, k2, ?_, ?_, k10⟩
    · refine congrArg Except.ok ?_
      rw [← e3, ← e2]
    · show r'.m1d = _
      rw [k7]
      simp only [g1, g3, add_fin_fin, mul_fin_fin]; rfl
    · show some r'.m2 = _
      rw [k4, g2]; rfl
  | detectedRatio =>
    simp only [MassCoords.Asked, MassCoords.flags, Prod.mk.injEq] at hc
    obtain ⟨f1, f2, f3, f4, f5⟩ := hc
    simp only [f1, f2, f3, f4, f5, Bool.false_eq_true, if_false, if_true, bind, Except.bind]
    obtain ⟨r2, e2, g1, g2, g3, gp, gq, gq', gmc, gm1d, gm2d, gmcd, gdl⟩ := hspin { startRow m1 m2 z a1 a2 c1 c2 p with
      q := some (fin m2 / fin m1), prior := fin p * fin m1 } (p * m1) rfl rfl rfl rfl rfl rfl rfl (Or.inr (by rw [div_fin_of_ne _ hm1.ne']))
    replace g1 : r2.m1 = fin m1 := g1
    replace g3 : r2.z = fin z := g3
    obtain ⟨r', p', e3, k1, k2, k3, k4, k5, k6, k7, k8, k9, k10⟩ := hlast { r2 with m1d := some (r2.m1 * (fin 1 + r2.z)), prior := r2.prior / (fin 1 + r2.z) } (by
      simp only [gp, g3, add_fin_fin, div_fin_of_ne _ hz1.ne', MassCoords.weigh]
      congr 1; ring) g3
    refine ⟨r', p', ?_, k1, k2, ?_, ?_, k10⟩
    · refine congrArg Except.ok ?_
      rw [← e3, ← e2]; rfl
    · show r'.m1d = _
      rw [k7]
      simp only [g1, g3, add_fin_fin, mul_fin_fin]; rfl
    · show r'.q = _
      rw [k5, gq (by simp only; rw [div_fin_of_ne _ hm1.ne'])]; rfl
  | detectedPair =>
    simp only [MassCoords.Asked, MassCoords.flags, Prod.mk.injEq] at hc
    obtain ⟨f1, f2, f3, f4, f5⟩ := hc
    simp only [f1, f2, f3, f4, f5, Bool.false_eq_true, if_false, if_true, bind, Except.bind]
    obtain ⟨r2, e2, g1, g2, g3, gp, gq, gq', gmc, gm1d, gm2d, gmcd, gdl⟩ := hspin { startRow m1 m2 z a1 a2 c1 c2 p with
      q := some (fin m2 / fin m1), prior := fin p * fin m1 } (p * m1) rfl rfl rfl rfl rfl rfl rfl (Or.inr (by rw [div_fin_of_ne _ hm1.ne']))
    replace g1 : r2.m1 = fin m1 := g1
    replace g3 : r2.z = fin z := g3
    have gq := gq (by simp only; rw [div_fin_of_ne _ hm1.ne'])
    obtain ⟨r', p', e3, k1, k2, k3, k4, k5, k6, k7, k8, k9, k10⟩ := hlast { r2 with
        m1d := some (r2.m1 * (fin 1 + r2.z)), m2d := some (r2.m1 * (fin 1 + r2.z) * fin (m2 / m1)),
        prior := r2.prior / (fin 1 + r2.z) / (r2.m1 * (fin 1 + r2.z)) } (by
      simp only [gp, g1, g3, add_fin_fin, mul_fin_fin, div_fin_of_ne _ hz1.ne', div_fin_of_ne _ (mul_pos hm1 hz1).ne', MassCoords.weigh]
      congr 1; ring) g3
    refine ⟨r', p', ?_, k1, k2, ?_, ?_, k10⟩
    · have e2' : stepChi2 ps (stepChi1 ps (stepEffective e ps { startRow m1 m2 z a1 a2 c1 c2 p with
        q := some ((startRow m1 m2 z a1 a2 c1 c2 p).m2 / (startRow m1 m2 z a1 a2 c1 c2 p).m1),
        prior := (startRow m1 m2 z a1 a2 c1 c2 p).prior * (startRow m1 m2 z a1 a2 c1 c2 p).m1 })) = r2 := e2
      rw [e2', gq]
      simp only [need]
      refine congrArg Except.ok (Eq.trans ?_ e3)
      rw [gq]
    · show r'.m1d = _
      rw [k7]
      simp only [g1, g3, add_fin_fin, mul_fin_fin]; rfl
    · show r'.m2d = _
      rw [k8]
      simp only [g1, g3, add_fin_fin, mul_fin_fin, MassCoords.masses]
      congr 2
      field_simp
  | chirp =>
    simp only [MassCoords.Asked, MassCoords.flags, Prod.mk.injEq] at hc
    obtain ⟨f1, f2, f3, f4, f5⟩ := hc
    have hsh : 0 < chirpShape (m2 / m1) := by unfold chirpShape; positivity
    simp only [f1, f2, f3, f4, f5, Bool.false_eq_true, if_false, if_true, bind, Except.bind, need, startRow, div_fin_of_ne _ hm1.ne', chirpJacobian_fin hq,
      div_fin_of_ne _ (one_div_pos.2 hsh).ne', mul_fin_fin]
    obtain ⟨r2, e2, g1, g2, g3, gp, gq, gq', gmc, gm1d, gm2d, gmcd, gdl⟩ := hspin { startRow m1 m2 z a1 a2 c1 c2 p with
      q := some (fin (m2 / m1)), mc := some (fin (m1 / (1 / chirpShape (m2 / m1)))), prior := fin (p * m1 * (1 / chirpShape (m2 / m1))) } _ rfl rfl rfl rfl rfl rfl rfl (Or.inr rfl)
    obtain ⟨r', p', e3, k1, k2, k3, k4, k5, k6, k7, k8, k9, k10⟩ := hlast r2 (by
      simp only [gp, MassCoords.weigh]
      congr 1; ring) g3
    refine ⟨r', p', ?_, k1, k2, ?_, ?_, k10⟩
    · refine congrArg Except.ok ?_
      rw [← e3, ← e2]; rfl
    · show r'.mc = _
      rw [k6, gmc]
      simp only [MassCoords.masses, chirpMass_eq hm1 hm2]
      congr 2
      field_simp
    · show r'.q = _
      rw [k5, gq rfl]; rfl
  | chirpDetected =>
    simp only [MassCoords.Asked, MassCoords.flags, Prod.mk.injEq] at hc
    obtain ⟨f1, f2, f3, f4, f5⟩ := hc
    have hsh : 0 < chirpShape (m2 / m1) := by unfold chirpShape; positivity
    simp only [f1, f2, f3, f4, f5, Bool.false_eq_true, if_false, if_true, bind, Except.bind]
    obtain ⟨r2, e2, g1, g2, g3, gp, gq, gq', gmc, gm1d, gm2d, gmcd, gdl⟩ := hspin { startRow m1 m2 z a1 a2 c1 c2 p with
      q := some (fin m2 / fin m1), prior := fin p * fin m1 } (p * m1) rfl rfl rfl rfl rfl rfl rfl (Or.inr (by rw [div_fin_of_ne _ hm1.ne']))
    replace g1 : r2.m1 = fin m1 := g1
    replace g3 : r2.z = fin z := g3
    replace gm1d : r2.m1d = none := gm1d
    have gq := gq (by simp only; rw [div_fin_of_ne _ hm1.ne'])
    obtain ⟨r', p', e3, k1, k2, k3, k4, k5, k6, k7, k8, k9, k10⟩ := hlast { r2 with
        mcd := some (r2.m1 * (fin 1 + r2.z) / chirpJacobian (fin (m2 / m1))), prior := r2.prior * (chirpJacobian (fin (m2 / m1)) / (fin 1 + r2.z)) } (by
      simp only [gp, g3, add_fin_fin, mul_fin_fin, div_fin_of_ne _ hz1.ne', chirpJacobian_fin hq, MassCoords.weigh]
      congr 1; ring) g3
    refine ⟨r', p', ?_, k1, k2, ?_, ?_, k10⟩
    · have e2' : stepChi2 ps (stepChi1 ps (stepEffective e ps { startRow m1 m2 z a1 a2 c1 c2 p with
        q := some ((startRow m1 m2 z a1 a2 c1 c2 p).m2 / (startRow m1 m2 z a1 a2 c1 c2 p).m1),
        prior := (startRow m1 m2 z a1 a2 c1 c2 p).prior * (startRow m1 m2 z a1 a2 c1 c2 p).m1 })) = r2 := e2
      rw [e2', gq, gm1d]
      simp only [need]
      refine congrArg Except.ok (Eq.trans ?_ e3)
      rw [gq, gm1d]
    · show r'.mcd = _
      rw [k9]
      simp only [g1, g3, add_fin_fin, mul_fin_fin, chirpJacobian_fin hq, div_fin_of_ne _ (one_div_pos.2 hsh).ne', MassCoords.masses, chirpMass_eq hm1 hm2]
      congr 2
      field_simp
    · show r'.q = _
      rw [k5, gq]; rfl

theorem contains_false {ps : List String} {k : String} (h : k ∉ ps) : ps.contains k = false := by
  rw [Bool.eq_false_iff]
  exact fun hc => h (List.contains_iff_mem.1 hc)

theorem contains_true {ps : List String} {k : String} (h : k ∈ ps) : ps.contains k = true := List.contains_iff_mem.2 h

theorem stepEffective_none (e : Env) (ps : List String) (r : Row) (h : "chi_eff" ∉ ps) : (stepChi2 ps (stepChi1 ps (stepEffective e ps r))).q = r.q := by
  unfold stepChi2 stepChi1 stepEffective
  simp only [contains_false h, Bool.false_eq_true, if_false]
  split_ifs <;> rfl

theorem stepEffective_m1d (e : Env) (ps : List String) (r : Row) : (stepChi2 ps (stepChi1 ps (stepEffective e ps r))).m1d = r.m1d := by
  unfold stepChi2 stepChi1 stepEffective
  split_ifs <;> rfl

/-- **C47.**  Combinations from which the coordinates cannot be computed raise: a chirp mass without the mass ratio, the detected secondary mass
without the detected primary mass, the detected secondary or chirp mass without a mass ratio. -/
theorem C47_raises (e : Env) (ps : List String) (r : Row) (hq : r.q = none) (hd : r.m1d = none) :
    ("chirp_mass" ∈ ps → "mass_ratio" ∉ ps → applyPrior e ps r = .error .keyError) ∧
    ("chirp_mass" ∉ ps → "mass_2" ∈ ps → "mass_1" ∉ ps → applyPrior e ps r = .error .keyError) ∧
    ("chirp_mass" ∉ ps → "mass_ratio" ∉ ps → "chi_eff" ∉ ps → "mass_2" ∈ ps → applyPrior e ps r = .error .keyError) ∧
    ("chirp_mass" ∉ ps → "mass_ratio" ∉ ps → "chi_eff" ∉ ps → "chirp_mass_detector" ∈ ps → applyPrior e ps r = .error .keyError) := by
  refine ⟨?_, ?_, ?_, ?_⟩
  · intro h1 h2
    unfold applyPrior stepRatio stepChirp
    simp [h1, h2, hq, need, bind, Except.bind]
  · intro h1 h2 h3
    unfold applyPrior stepChirp
    simp only [contains_false h1, Bool.false_eq_true, if_false, bind, Except.bind]
    have hd' : (stepRatio ps r).m1d = none := by
      unfold stepRatio
      split_ifs <;> exact hd
    rw [← stepEffective_m1d e ps] at hd'
    unfold stepDetected2 stepDetected1
    simp only [contains_false h3, contains_true h2, Bool.false_eq_true, if_false, if_true, hd', need, bind, Except.bind]
  · intro h1 h2 h3 h4
    unfold applyPrior stepChirp stepRatio
    simp only [contains_false h1, contains_false h2, Bool.false_eq_true, if_false, bind, Except.bind]
    have hq' := hq
    rw [← stepEffective_none e ps r h3] at hq'
    have hd' := hd
    rw [← stepEffective_m1d e ps r] at hd'
    unfold stepDetected2 stepDetected1
    by_cases h5 : "mass_1" ∈ ps
    · simp only [contains_true h5, contains_true h4, if_true, hq', need, bind, Except.bind]
    · simp only [contains_false h5, contains_true h4, Bool.false_eq_true, if_false, if_true, hd', need, bind, Except.bind]
  · intro h1 h2 h3 h4
    unfold applyPrior stepChirp stepRatio
    simp only [contains_false h1, contains_false h2, Bool.false_eq_true, if_false, bind, Except.bind]
    have hq' := hq
    rw [← stepEffective_none e ps r h3] at hq'
    generalize stepChi2 ps (stepChi1 ps (stepEffective e ps r)) = r2 at hq'
    have hq2 : (stepDetected1 ps r2).q = none := by
      unfold stepDetected1
      split_ifs <;> exact hq'
    generalize stepDetected1 ps r2 = r3 at hq2
    unfold stepDetected2 stepChirpDetected
    by_cases h5 : "mass_2" ∈ ps
    · simp only [contains_true h5, if_true, hq2, need, bind, Except.bind]
      cases r3.m1d <;> rfl
    · simp only [contains_false h5, contains_true h4, Bool.false_eq_true, if_false, if_true, hq2, need, bind, Except.bind]

/-- **C47 fails** for detected component masses together with the effective spin when the mass ratio is not requested: the ratio is then available, so
nothing raises, but the factor `m1` of the step to the mass ratio is missing.  For an injection with `m1 = 30`, `m2 = 15`, `z = 0` the result is `1/30` of
the density in the requested parameters. -/
theorem C47_effective_detected_violated (e : Env) (v : ℝ) (hv : e.chiEffOnly (Conv.chiEffFromTilts (fin 30) (fin 15) (fin 1) (fin 1) (fin 1) (fin 1)) (fin (15 / 30)) = fin v) :
    ∃ r', applyPrior e ["mass_1", "mass_2", "redshift", "chi_eff"] (startRow 30 15 0 1 1 1 1 1) = .ok r' ∧
      r'.prior = fin (1 / 30 * spinFactor ["mass_1", "mass_2", "redshift", "chi_eff"] 1 1 1 1 v) ∧
      DensityAfter (MassCoords.detectedPair.map id) ![30, 15, 0] 1 1 := by
  refine ⟨_, by
    simp only [applyPrior, stepRatio, stepChirp, stepDetected1, stepDetected2, stepChirpDetected, stepDistance, stepChi1, stepChi2, stepEffective, List.contains_cons,
      List.contains_nil, Bool.or_false, bind, Except.bind, need]
    simp (decide := true) only [if_true, if_false]
    rfl, ?_, ?_⟩
  · simp only [startRow, Option.getD_none]
    rw [div_fin_of_ne _ (by norm_num : (30 : ℝ) ≠ 0), hv]
    simp only [add_fin_fin, mul_fin_fin]
    rw [div_fin_of_ne _ (by norm_num), mul_fin_fin, div_fin_of_ne _ (by norm_num), div_fin_of_ne _ (by norm_num)]
    have : spinFactor ["mass_1", "mass_2", "redshift", "chi_eff"] 1 1 1 1 v = v / (1 / 2 * (1 / 2)) := by
      unfold spinFactor
      simp (decide := true)
    rw [this]
    congr 1
    ring
  · have := massDensity .detectedPair (m1 := 30) (m2 := 15) (z := 0) 1 (by norm_num) (by norm_num) (by norm_num)
    simp only [MassCoords.weigh] at this
    norm_num at this
    exact this

/-- **C47.**  The sample handed to the model has, coordinate by coordinate, the requested parameters in the requested order; a parameter that the injections
do not provide raises. -/
theorem C47_columns (e : Env) (ps : List String) (r : Row) :
    (∀ xs w, prepare e ps r = .ok (xs, w) → ∃ r', applyPrior e ps r = .ok r' ∧ w = log r'.prior ∧ xs.length = ps.length ∧
      ∀ i (h : i < ps.length), r'.entry ps[i] = xs[i]?) ∧
    (∀ r', applyPrior e ps r = .ok r' → (∃ p ∈ ps, r'.entry p = none) → prepare e ps r = .error .keyError) := by
  have hmap : ∀ (r' : Row) (l : List String) (xs : List XR), (l.mapM fun p => need (r'.entry p)) = .ok xs → xs.length = l.length ∧ ∀ i (h : i < l.length), r'.entry l[i] = xs[i]? := by
    intro r' l
    induction l with
    | nil =>
      intro xs h
      simp [pure, Except.pure] at h
      subst h
      simp
    | cons a l ih =>
      intro xs h
      rw [List.mapM_cons] at h
      simp only [bind] at h
      obtain ⟨x, hx, h⟩ := bind_ok h
      obtain ⟨ys, hys, h⟩ := bind_ok h
      simp only [pure, Except.pure, Except.ok.injEq] at h
      subst h
      obtain ⟨h1, h2⟩ := ih ys hys
      refine ⟨by simp [h1], ?_⟩
      intro i hi
      cases i with
      | zero =>
        simp only [List.getElem_cons_zero, List.getElem?_cons_zero]
        cases he : r'.entry a with
        | none => rw [he] at hx; cases hx
        | some y =>
          rw [he] at hx
          cases hx
          rfl
      | succ i =>
        simp only [List.getElem_cons_succ, List.getElem?_cons_succ]
        exact h2 i (by simpa using hi)
  constructor
  · intro xs w h
    unfold prepare at h
    simp only [bind] at h
    obtain ⟨r', hr, h⟩ := bind_ok h
    obtain ⟨ys, hy, h⟩ := bind_ok h
    cases h
    obtain ⟨h1, h2⟩ := hmap r' ps xs hy
    exact ⟨r', hr, rfl, h1, h2⟩
  · intro r' hr hp
    unfold prepare
    rw [hr]
    simp only [bind, Except.bind]
    have : (ps.mapM fun p => need (r'.entry p)) = .error .keyError := by
      clear hr
      induction ps with
      | nil => obtain ⟨p, hp, -⟩ := hp; cases hp
      | cons a l ih =>
        rw [List.mapM_cons]
        cases he : r'.entry a with
        | none => rfl
        | some y =>
          have : ∃ p ∈ l, r'.entry p = none := by
            obtain ⟨p, hp, hn⟩ := hp
            rcases List.mem_cons.1 hp with rfl | hp
            · rw [he] at hn; cases hn
            · exact ⟨p, hp, hn⟩
          rw [ih this]
          rfl
    rw [this]

/-- The hypotheses of `C47_density` are met: detected primary mass, mass ratio, an aligned spin and the redshift. -/
example (e : Env) : ∃ r' p', applyPrior e ["mass_1", "mass_ratio", "chi_1", "redshift"] (startRow 30 15 1 (1 / 2) (1 / 2) 1 1 1) = .ok r' ∧
    r'.prior = fin (p' * spinFactor ["mass_1", "mass_ratio", "chi_1", "redshift"] (1 / 2) (1 / 2) 1 1 0) ∧
    DensityAfter (MassCoords.detectedRatio.map id) ![30, 15, 1] 1 p' ∧ r'.entry "mass_1" = some (fin (30 * (1 + 1))) := by
  obtain ⟨r', p', h1, h2, h3, h4, -⟩ := C47_density e ["mass_1", "mass_ratio", "chi_1", "redshift"] .detectedRatio
    (by simp (decide := true) [MassCoords.Asked]) 30 15 1 (1 / 2) (1 / 2) 1 1 1 0 1 id
    (by norm_num) (by norm_num) (by norm_num) (by simp (decide := true)) (by norm_num) (by simp (decide := true)) (hasDerivAt_id _) one_pos (by simp (decide := true))
  exact ⟨r', p', h1, h2, h3, h4⟩

end GW.Injections
