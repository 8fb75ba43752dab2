import Verif.Lemmas.Spin
import Mathlib.LinearAlgebra.Matrix.PosDef

/-!
# C54: spin distributions
-/

namespace GW.Spin
open GW XR GW.Num GW.Mass MeasureTheory ProbabilityTheory
open scoped Classical

/-! ## The Gaussian spin covariance -/

theorem quad_eq (se sp rho : ℝ) (x : Fin 2 → ℝ) :
    x ⬝ᵥ (gaussianCovariance se sp rho).mulVec x = (se * x 0 + rho * sp * x 1) ^ 2 + (1 - rho ^ 2) * (sp * x 1) ^ 2 := by
  simp [gaussianCovariance, Matrix.mulVec, dotProduct, Fin.sum_univ_two]
  ring

theorem cov_hermitian (se sp rho : ℝ) : (gaussianCovariance se sp rho).IsHermitian := by
  ext i j
  fin_cases i <;> fin_cases j <;> simp [gaussianCovariance]

/-- **C54** (covariance).  For all real scales and correlations the matrix given to the bivariate normal is symmetric, has the squared scales as variances;
it is positive semi-definite exactly when `|rho| ≤ 1` or a scale is zero, and positive definite (so that the density exists) exactly when
`|rho| < 1` and neither scale is zero. -/
theorem C54_covariance (se sp rho : ℝ) :
    (gaussianCovariance se sp rho).IsSymm ∧ gaussianCovariance se sp rho 0 0 = se ^ 2 ∧ gaussianCovariance se sp rho 1 1 = sp ^ 2 ∧
    ((gaussianCovariance se sp rho).PosSemidef ↔ |rho| ≤ 1 ∨ se = 0 ∨ sp = 0) ∧
    ((gaussianCovariance se sp rho).PosDef ↔ |rho| < 1 ∧ se ≠ 0 ∧ sp ≠ 0) := by
  have hq := quad_eq se sp rho
  refine ⟨?_, by simp [gaussianCovariance], by simp [gaussianCovariance], ⟨fun h => ?_, fun h => ?_⟩, ⟨fun h => ?_, fun h => ?_⟩⟩
  · ext i j
    fin_cases i <;> fin_cases j <;> simp [gaussianCovariance]
  · by_contra hc
    push Not at hc
    obtain ⟨h1, h2, h3⟩ := hc
    have hr : 1 < rho ^ 2 := by
      rw [← sq_abs]; nlinarith
    have := h.dotProduct_mulVec_nonneg ![-(rho * sp) / se, 1]
    simp only [star_trivial] at this
    rw [hq] at this
    simp only [Matrix.cons_val_zero, Matrix.cons_val_one] at this
    rw [mul_div_cancel₀ _ h2] at this
    have h4 : 0 < sp ^ 2 := by positivity
    nlinarith
  · refine Matrix.PosSemidef.of_dotProduct_mulVec_nonneg (cov_hermitian _ _ _) fun x => ?_
    simp only [star_trivial]
    rw [hq]
    rcases h with h | rfl | rfl
    · have : rho ^ 2 ≤ 1 := by rw [← sq_abs]; nlinarith [abs_nonneg rho]
      have : 0 ≤ 1 - rho ^ 2 := by linarith
      positivity
    · nlinarith [sq_nonneg (sp * x 1)]
    · nlinarith [sq_nonneg (se * x 0)]
  · have hpos : ∀ x : Fin 2 → ℝ, x ≠ 0 → 0 < (se * x 0 + rho * sp * x 1) ^ 2 + (1 - rho ^ 2) * (sp * x 1) ^ 2 := fun x hx => by
      have := h.dotProduct_mulVec_pos hx
      simp only [star_trivial] at this
      rwa [hq] at this
    have h1 := hpos ![1, 0] (fun h => by simpa using congrFun h 0)
    have hse : se ≠ 0 := by rintro rfl; simp at h1
    have h2 := hpos ![-(rho * sp) / se, 1] (fun h => by simpa using congrFun h 1)
    simp only [Matrix.cons_val_zero, Matrix.cons_val_one] at h2
    rw [mul_div_cancel₀ _ hse] at h2
    have h3 : 0 < (1 - rho ^ 2) * sp ^ 2 := by nlinarith
    have hsp : sp ≠ 0 := by rintro rfl; simp at h3
    have h4 : 0 < sp ^ 2 := by positivity
    have h5 : 0 < 1 - rho ^ 2 := by
      by_contra h
      nlinarith
    refine ⟨?_, hse, hsp⟩
    rw [← sq_abs] at h5
    nlinarith [abs_nonneg rho]
  · obtain ⟨h1, h2, h3⟩ := h
    refine Matrix.PosDef.of_dotProduct_mulVec_pos (cov_hermitian _ _ _) fun x hx => ?_
    simp only [star_trivial]
    rw [hq]
    have hr : 0 < 1 - rho ^ 2 := by
      rw [← sq_abs]
      nlinarith [abs_nonneg rho]
    by_cases hx1 : x 1 = 0
    · have hx0 : x 0 ≠ 0 := by
        intro h
        apply hx
        ext i
        fin_cases i <;> simp [h, hx1]
      rw [hx1]
      have : 0 < (se * x 0) ^ 2 := by positivity
      nlinarith
    · have : 0 < (1 - rho ^ 2) * (sp * x 1) ^ 2 := by positivity
      nlinarith [sq_nonneg (se * x 0 + rho * sp * x 1)]

example : (gaussianCovariance (1 / 10) (1 / 5) (1 / 2)).PosDef := (C54_covariance _ _ _).2.2.2.2.2 ⟨by rw [abs_of_pos] <;> norm_num, by norm_num, by norm_num⟩
example : ¬ (gaussianCovariance (1 / 10) (1 / 5) (3 / 2)).PosSemidef := fun h => by
  rcases (C54_covariance _ _ _).2.2.2.1.1 h with h | h | h
  · rw [abs_of_pos (by norm_num)] at h; norm_num at h
  · norm_num at h
  · norm_num at h

/-! ## Mixtures -/

/-- A log density: at every real point it is the log of the non-negative function `p` (`-inf` where it vanishes), and `p` integrates to one. -/
structure IsLogDensity {n : Nat} (lp : (Fin n → XR) → XR) (p : (Fin n → ℝ) → ℝ) : Prop where
  nonneg : ∀ x, 0 ≤ p x
  log : ∀ x, lp (fun i => fin (x i)) = XR.log (fin (p x))
  integral : ∫ x, p x = 1

theorem HasN.nonneg {n : Nat} {c : Comp n} {p : (Fin n → ℝ) → ℝ} (h : HasN c p) (x : Fin n → ℝ) : 0 ≤ p x := (masked_log h x).1

theorem mixture_density {n : Nat} {zeta : ℝ} (h0 : 0 ≤ zeta) (h1 : zeta ≤ 1) {c1 c2 : Comp n} {p1 p2 : (Fin n → ℝ) → ℝ} (H1 : HasN c1 p1) (H2 : HasN c2 p2)
    {support : (Fin n → XR) → Bool} (hs : ∀ x : Fin n → ℝ, support (fun i => fin (x i)) = (c1.support (fun i => fin (x i)) || c2.support fun i => fin (x i)))
    (v : Bool) : IsLogDensity (mixture zeta c1 c2 support v) fun x => (1 - zeta) * p1 x + zeta * p2 x where
  nonneg x := add_nonneg (mul_nonneg (by linarith) (H1.nonneg x)) (mul_nonneg h0 (H2.nonneg x))
  log x := mixture_log h0 h1 H1 H2 hs v x
  integral := integral_mix zeta H1.integral H2.integral

/-- **C54** (isotropic plus truncated normal).  For `0 ≤ zeta ≤ 1`, positive scales and non-empty boxes, in every dimension, with or without argument
validation: the log density is the log of `(1 - zeta) ·` (uniform density of the first box) `+ zeta ·` (product of normals restricted to the second box), zero
components being `-inf`, never NaN; the density integrates to one. -/
theorem C54_isotropic_mixture {n : Nat} {zeta : ℝ} (h0 : 0 ≤ zeta) (h1 : zeta ≤ 1) {loc scale isoLow isoHigh gaussLow gaussHigh : Fin n → ℝ}
    (hs : ∀ i, 0 < scale i) (hiso : ∀ i, isoLow i < isoHigh i) (hg : ∀ i, gaussLow i < gaussHigh i) (v : Bool) :
    IsLogDensity (ndIsotropicMixture zeta loc scale isoLow isoHigh gaussLow gaussHigh v) fun x =>
      (1 - zeta) * ∏ i, uniformDensity (isoLow i) (isoHigh i) (x i) +
      zeta * ∏ i, restrictedNormal (loc i) (scale i) (Set.Icc (gaussLow i) (gaussHigh i)) (x i) :=
  mixture_density h0 h1 (has_independent (fun i => has_uniform (hiso i) v) v)
    (has_independent (fun i => has_truncatedNormal (low := some (gaussLow i)) (high := some (gaussHigh i)) (hs i) (hg i) v) v) (fun _ => rfl) v

/-- **C54** (two truncated normals, any dimension). -/
theorem C54_two_truncated_normals_nd {n : Nat} {zeta : ℝ} (h0 : 0 ≤ zeta) (h1 : zeta ≤ 1) {high1 loc1 low1 scale1 high2 loc2 low2 scale2 : Fin n → ℝ}
    (hs1 : ∀ i, 0 < scale1 i) (hs2 : ∀ i, 0 < scale2 i) (hb1 : ∀ i, low1 i < high1 i) (hb2 : ∀ i, low2 i < high2 i) (v : Bool) :
    IsLogDensity (ndTwoTruncatedNormalMixture high1 loc1 low1 scale1 high2 loc2 low2 scale2 zeta v) fun x =>
      (1 - zeta) * ∏ i, restrictedNormal (loc1 i) (scale1 i) (Set.Icc (low1 i) (high1 i)) (x i) +
      zeta * ∏ i, restrictedNormal (loc2 i) (scale2 i) (Set.Icc (low2 i) (high2 i)) (x i) :=
  mixture_density h0 h1 (has_independent (fun i => has_truncatedNormal (low := some (low1 i)) (high := some (high1 i)) (hs1 i) (hb1 i) v) v)
    (has_independent (fun i => has_truncatedNormal (low := some (low2 i)) (high := some (high2 i)) (hs2 i) (hb2 i) v) v) (fun _ => rfl) v

/-- A lower bound, if given together with an upper bound, is below it. -/
def BoundsOk (low high : Option ℝ) : Prop := ∀ a b, low = some a → high = some b → a < b

theorem boundsOk_lt {low high : Option ℝ} (h : BoundsOk low high) : lt (loX low) (hiX high) := by
  cases low <;> cases high <;> simp_all [loX, hiX, lt, BoundsOk]

theorem hasN_one {d : Dist1} {p : ℝ → ℝ} (h : Has d p) (v : Bool) (hv : v = true → ∀ x, d.support x = false → d.logProb x = ninf) :
    HasN (n := 1) ⟨fun x => d.logProb (x 0), fun x => d.support (x 0), v⟩ fun x => p (x 0) where
  inside x hx := h.inside (x 0) hx
  outside x hx := ⟨h.outside (x 0) hx, fun e => hv e _ hx⟩
  integral := by
    have := integral_fintype_prod_volume_eq_prod (ι := Fin 1) (𝕜 := ℝ) (fun _ => p)
    simp only [Fin.prod_univ_one, Fin.isValue] at this
    rw [this, h.integral]

/-- **C54** (two truncated normals on the line, each bound optional). -/
theorem C54_two_truncated_normals {zeta : ℝ} (h0 : 0 ≤ zeta) (h1 : zeta ≤ 1) {high1 low1 high2 low2 : Option ℝ} {loc1 scale1 loc2 scale2 : ℝ}
    (hs1 : 0 < scale1) (hs2 : 0 < scale2) (hb1 : BoundsOk low1 high1) (hb2 : BoundsOk low2 high2) (v : Bool) :
    IsLogDensity (n := 1) (fun x => twoTruncatedNormalMixture high1 loc1 low1 scale1 high2 loc2 low2 scale2 zeta v (x 0)) fun x =>
      (1 - zeta) * restrictedNormal loc1 scale1 (bounds low1 high1) (x 0) + zeta * restrictedNormal loc2 scale2 (bounds low2 high2) (x 0) := by
  have hm : ∀ (loc s : ℝ) (low high : Option ℝ), v = true → ∀ x, (truncatedNormal loc s low high v).support x = false →
      (truncatedNormal loc s low high v).logProb x = ninf := by
    rintro loc s low high rfl x hx
    simp only [truncatedNormal] at hx ⊢
    simp [hx, validated]
  have H := mixture_density h0 h1 (hasN_one (has_truncatedNormal (loc := loc1) hs1 (boundsOk_lt hb1) v) v (hm _ _ _ _))
    (hasN_one (has_truncatedNormal (loc := loc2) hs2 (boundsOk_lt hb2) v) v (hm _ _ _ _))
    (support := fun x => (truncatedNormal loc1 scale1 low1 high1 v).support (x 0) || (truncatedNormal loc2 scale2 low2 high2 v).support (x 0)) (fun _ => rfl) v
  refine ⟨H.nonneg, fun x => ?_, H.integral⟩
  rw [← H.log x]
  have : (fun _ : Fin 1 => fin (x 0)) = fun i => fin (x i) := by
    funext i
    rw [Subsingleton.elim i 0]
  simp only [twoTruncatedNormalMixture, this]

/-- **C54** (`IndependentSpinOrientationGaussianIsotropic`): on `[-1, 1]²` the density is `(1 - zeta)/4 + zeta ·` the product of normals with mean one
restricted to `[-1, 1]`; it is zero outside and integrates to one. -/
theorem C54_spin_orientation {zeta s1 s2 : ℝ} (h0 : 0 ≤ zeta) (h1 : zeta ≤ 1) (hs1 : 0 < s1) (hs2 : 0 < s2) (v : Bool) :
    IsLogDensity (independentSpinOrientation zeta s1 s2 v) fun x =>
      if ∀ i, -1 ≤ x i ∧ x i ≤ 1 then (1 - zeta) / 4 +
        zeta * (restrictedNormal 1 s1 (Set.Icc (-1) 1) (x 0) * restrictedNormal 1 s2 (Set.Icc (-1) 1) (x 1)) else 0 := by
  have H := C54_isotropic_mixture (n := 2) h0 h1 (loc := fun _ => 1) (scale := ![s1, s2]) (isoLow := fun _ => -1) (isoHigh := fun _ => 1)
    (gaussLow := fun _ => -1) (gaussHigh := fun _ => 1) (by simp [Fin.forall_fin_two, hs1, hs2]) (by norm_num) (by norm_num) v
  have e : (fun x : Fin 2 → ℝ => (1 - zeta) * ∏ i, uniformDensity (-1) 1 (x i) + zeta * ∏ i, restrictedNormal 1 (![s1, s2] i) (Set.Icc (-1) 1) (x i)) =
      fun x => if ∀ i, -1 ≤ x i ∧ x i ≤ 1 then (1 - zeta) / 4 +
        zeta * (restrictedNormal 1 s1 (Set.Icc (-1) 1) (x 0) * restrictedNormal 1 s2 (Set.Icc (-1) 1) (x 1)) else 0 := by
    funext x
    simp only [Fin.prod_univ_two, Matrix.cons_val_zero, Matrix.cons_val_one]
    by_cases h : ∀ i, -1 ≤ x i ∧ x i ≤ 1
    · rw [if_pos h, uniformDensity, uniformDensity, if_pos (h 0), if_pos (h 1)]
      ring
    · rw [if_neg h]
      rw [Fin.forall_fin_two] at h
      by_cases hx : -1 ≤ x 0 ∧ x 0 ≤ 1
      · have hy : ¬ (-1 ≤ x 1 ∧ x 1 ≤ 1) := fun hy => h ⟨hx, hy⟩
        have hy' : x 1 ∉ Set.Icc (-1 : ℝ) 1 := hy
        rw [uniformDensity, uniformDensity, restrictedNormal, restrictedNormal, if_neg hy, if_neg hy']
        ring
      · have hx' : x 0 ∉ Set.Icc (-1 : ℝ) 1 := hx
        rw [uniformDensity, uniformDensity, restrictedNormal, restrictedNormal, if_neg hx, if_neg hx']
        ring
  rw [← e]
  exact H

/-- **C54** (`MinimumTiltModel`): both cosines in `[minimum, 1]`, uniform or normal there. -/
theorem C54_minimum_tilt {zeta loc scale minimum : ℝ} (h0 : 0 ≤ zeta) (h1 : zeta ≤ 1) (hs : 0 < scale) (hm : minimum < 1) (v : Bool) :
    IsLogDensity (minimumTilt zeta loc scale minimum v) fun x =>
      (1 - zeta) * (uniformDensity minimum 1 (x 0) * uniformDensity minimum 1 (x 1)) +
      zeta * (restrictedNormal loc scale (Set.Icc minimum 1) (x 0) * restrictedNormal loc scale (Set.Icc minimum 1) (x 1)) := by
  have H := C54_isotropic_mixture (n := 2) h0 h1 (loc := fun _ => loc) (scale := fun _ => scale) (isoLow := fun _ => minimum) (isoHigh := fun _ => 1)
    (gaussLow := fun _ => minimum) (gaussHigh := fun _ => 1) (fun _ => hs) (fun _ => hm) (fun _ => hm) v
  simp only [Fin.prod_univ_two] at H
  exact H

/-- **C54** (`MinimumTiltModelExtended`): one minimum, mean and scale per spin. -/
theorem C54_minimum_tilt_extended {zeta loc1 loc2 scale1 scale2 min1 min2 : ℝ} (h0 : 0 ≤ zeta) (h1 : zeta ≤ 1) (hs1 : 0 < scale1) (hs2 : 0 < scale2)
    (hm1 : min1 < 1) (hm2 : min2 < 1) (v : Bool) :
    IsLogDensity (minimumTiltExtended zeta loc1 loc2 scale1 scale2 min1 min2 v) fun x =>
      (1 - zeta) * (uniformDensity min1 1 (x 0) * uniformDensity min2 1 (x 1)) +
      zeta * (restrictedNormal loc1 scale1 (Set.Icc min1 1) (x 0) * restrictedNormal loc2 scale2 (Set.Icc min2 1) (x 1)) := by
  have H := C54_isotropic_mixture (n := 2) h0 h1 (loc := ![loc1, loc2]) (scale := ![scale1, scale2]) (isoLow := ![min1, min2]) (isoHigh := fun _ => 1)
    (gaussLow := ![min1, min2]) (gaussHigh := fun _ => 1) (by simp [Fin.forall_fin_two, hs1, hs2]) (by simp [Fin.forall_fin_two, hm1, hm2])
    (by simp [Fin.forall_fin_two, hm1, hm2]) v
  simp only [Fin.prod_univ_two, Matrix.cons_val_zero, Matrix.cons_val_one] at H
  exact H

example : ∃ p, IsLogDensity (independentSpinOrientation (3 / 4) (1 / 2) 2 false) p :=
  ⟨_, C54_spin_orientation (by norm_num) (by norm_num) (by norm_num) (by norm_num) false⟩
example : BoundsOk (some 0) none ∧ BoundsOk (some (-1)) (some 1) := by simp [BoundsOk]

/-! ## The skew normal effective-spin model -/

/-- The docstring's unnormalised density: `(1 + ε) N_[-1,1](x | μ, σ (1 + ε))` up to `μ`, `(1 - ε) N_[-1,1](x | μ, σ (1 - ε))` above. -/
noncomputable def skewUnnormalised (loc scale epsilon x : ℝ) : ℝ :=
  if x ≤ loc then (1 + epsilon) * restrictedNormal loc (scale * (1 + epsilon)) (Set.Icc (-1) 1) x
  else (1 - epsilon) * restrictedNormal loc (scale * (1 - epsilon)) (Set.Icc (-1) 1) x

theorem restrictedNormal_nonneg (loc s : ℝ) (S : Set ℝ) (x : ℝ) : 0 ≤ restrictedNormal loc s S x := by
  unfold restrictedNormal
  split_ifs
  · exact div_nonneg (gaussianPDFReal_nonneg _ _ _) (integral_nonneg fun y => gaussianPDFReal_nonneg _ _ _)
  · exact le_refl _

theorem cdfAtZero_range {a b : ℝ} (h : a < b) : 0 ≤ cdfAtZero a b ∧ cdfAtZero a b ≤ 1 ∧ (cdfAtZero a b = 0 → 0 ≤ a) ∧ (cdfAtZero a b = 1 → b ≤ 0) := by
  unfold cdfAtZero
  have hlt : PhiX (fin a) < PhiX (fin b) := PhiX_lt h
  split_ifs with h1 h2
  · simp [h1]
  · simp [h2]
  · push Not at h1 h2
    have l1 : PhiX (fin a) < PhiX (fin 0) := PhiX_lt h2
    have l2 : PhiX (fin 0) < PhiX (fin b) := PhiX_lt h1
    have hd : 0 < PhiX (fin b) - PhiX (fin a) := by linarith
    have hn : 0 < PhiX (fin 0) - PhiX (fin a) := by linarith
    refine ⟨(div_pos hn hd).le, (div_le_one hd).2 (by linarith), fun h => absurd h (div_pos hn hd).ne', fun h => ?_⟩
    rw [div_eq_one_iff_eq hd.ne'] at h
    linarith

theorem scipy_logpdf {loc s : ℝ} (hs : 0 < s) (x : ℝ) :
    truncnormLogpdfScipy (fin x) (-(fin 1 + fin loc) / fin s) ((fin 1 - fin loc) / fin s) (fin loc) (fin s) =
      log (fin (restrictedNormal loc s (Set.Icc (-1) 1) x)) := by
  have hpi := Real.pi_pos
  have hab : -(1 + loc) / s < (1 - loc) / s := div_lt_div_of_pos_right (by linarith) hs
  have hm := mass_pos (loc := loc) hs lt_icc
  have hme := mass_eq (loc := loc) hs lt_icc
  simp only [bounds, loX, hiX, sub_fin_fin, div_fin_of_ne _ hs.ne'] at hm hme
  rw [show (-1 - loc) / s = -(1 + loc) / s by ring] at hme
  simp only [truncnormLogpdfScipy, add_fin_fin, neg_fin, sub_fin_fin, div_fin_of_ne _ hs.ne', lt_fin_fin, le_fin_fin]
  rw [show decide ((1 - loc) / s ≤ -(1 + loc) / s) = false by simpa using hab, select_false]
  by_cases hx : x ∈ Set.Icc (-1 : ℝ) 1
  · have c1 : ¬ (x - loc) / s < -(1 + loc) / s := by
      rw [not_lt]; exact div_le_div_of_nonneg_right (by linarith [hx.1]) hs.le
    have c2 : ¬ (1 - loc) / s < (x - loc) / s := by
      rw [not_lt]; exact div_le_div_of_nonneg_right (by linarith [hx.2]) hs.le
    have hn := normalDensity_pos (loc := loc) hs x
    rw [show (decide ((x - loc) / s < -(1 + loc) / s) || decide ((1 - loc) / s < (x - loc) / s)) = false by
        rw [decide_eq_false c1, decide_eq_false c2]; rfl, select_false,
      logGaussMass_fin hab, ← hme, restrictedNormal, if_pos hx, log_fin_pos (by positivity), Real.log_div hn.ne' hm.ne', log_normalDensity hs]
    simp only [normLogpdf, square_fin, mul_fin_fin, sub_fin_fin]
    rw [log_fin_pos (by positivity), div_fin_of_ne _ (by positivity), add_fin_fin, div_fin_of_ne _ (by norm_num), neg_fin, sub_fin_fin,
      Real.log_mul (by positivity) (by positivity), Real.log_mul (x := s) hs.ne' hs.ne', Real.log_mul (x := Real.sqrt _) (by positivity) hs.ne',
      Real.log_sqrt (by positivity)]
    congr 2
    field_simp
    ring
  · have c : (x - loc) / s < -(1 + loc) / s ∨ (1 - loc) / s < (x - loc) / s := by
      simp only [Set.mem_Icc, not_and_or, not_le] at hx
      rcases hx with hx | hx
      · exact .inl (div_lt_div_of_pos_right (by linarith) hs)
      · exact .inr (div_lt_div_of_pos_right (by linarith) hs)
    rw [show (decide ((x - loc) / s < -(1 + loc) / s) || decide ((1 - loc) / s < (x - loc) / s)) = true by
      rcases c with c | c <;> rw [decide_eq_true c] <;> simp, select_true, restrictedNormal, if_neg hx, log_fin_zero]

theorem integral_skew {loc scale epsilon : ℝ} (hs : 0 < scale) (h1 : -1 < epsilon) (h2 : epsilon < 1) :
    ∫ x, skewUnnormalised loc scale epsilon x =
      (1 + epsilon) * cdfAtZero (-(1 + loc) / (scale * (1 + epsilon))) ((1 - loc) / (scale * (1 + epsilon))) +
      (1 - epsilon) * (1 - cdfAtZero (-(1 + loc) / (scale * (1 - epsilon))) ((1 - loc) / (scale * (1 - epsilon)))) := by
  have s1 : 0 < scale * (1 + epsilon) := mul_pos hs (by linarith)
  have s2 : 0 < scale * (1 - epsilon) := mul_pos hs (by linarith)
  set f1 := restrictedNormal loc (scale * (1 + epsilon)) (Set.Icc (-1) 1) with hf1
  set f2 := restrictedNormal loc (scale * (1 - epsilon)) (Set.Icc (-1) 1) with hf2
  have i1 : Integrable f1 := integrable_restricted _ _
  have i2 : Integrable f2 := integrable_restricted _ _
  have e : (fun x => skewUnnormalised loc scale epsilon x) =
      fun x => (Set.Iic loc).indicator (fun x => (1 + epsilon) * f1 x) x + (Set.Iic loc)ᶜ.indicator (fun x => (1 - epsilon) * f2 x) x := by
    funext x
    by_cases hx : x ∈ Set.Iic loc
    · rw [Set.indicator_of_mem hx, Set.indicator_of_notMem (show x ∉ (Set.Iic loc)ᶜ from fun h => h hx), add_zero, skewUnnormalised, if_pos (Set.mem_Iic.1 hx)]
    · rw [Set.indicator_of_notMem hx, Set.indicator_of_mem (show x ∈ (Set.Iic loc)ᶜ from hx), zero_add, skewUnnormalised,
        if_neg (fun h => hx (Set.mem_Iic.2 h))]
  have hc := integral_add_compl (measurableSet_Iic (a := loc)) i2
  have htot : ∫ x, f2 x = 1 := integral_restricted measurableSet_Icc (mass_pos s2 lt_icc)
  have hb1 := integral_below (loc := loc) s1
  have hb2 := integral_below (loc := loc) s2
  rw [e, integral_add ((i1.const_mul _).indicator measurableSet_Iic) ((i2.const_mul _).indicator measurableSet_Iic.compl),
    integral_indicator measurableSet_Iic, integral_indicator measurableSet_Iic.compl, integral_const_mul, integral_const_mul, hb1, ← hb2]
  congr 2
  linarith

/-- **C54** (skew normal).  For every location, positive scale and `-1 < epsilon < 1`, with or without validation: the log density is the log of the
docstring's piecewise density divided by its integral, which is positive; so it is `-inf` outside `[-1, 1]`, never NaN, and integrates to one. -/
theorem C54_skew_normal {loc scale epsilon : ℝ} (hs : 0 < scale) (h1 : -1 < epsilon) (h2 : epsilon < 1) (v : Bool) :
    0 < ∫ x, skewUnnormalised loc scale epsilon x ∧
    (∀ x : ℝ, skewLogProb loc scale epsilon v (fin x) =
      log (fin (skewUnnormalised loc scale epsilon x / ∫ y, skewUnnormalised loc scale epsilon y))) ∧
    ∫ x, expR (skewLogProb loc scale epsilon v (fin x)) = 1 := by
  have w1 : 0 < 1 + epsilon := by linarith
  have w2 : 0 < 1 - epsilon := by linarith
  have s1 : 0 < scale * (1 + epsilon) := mul_pos hs w1
  have s2 : 0 < scale * (1 - epsilon) := mul_pos hs w2
  have hab : ∀ {s : ℝ}, 0 < s → -(1 + loc) / s < (1 - loc) / s := fun h => div_lt_div_of_pos_right (by linarith) h
  have hZ := integral_skew (loc := loc) hs h1 h2
  set Z := ∫ x, skewUnnormalised loc scale epsilon x with hZdef
  have hpos : 0 < Z := by
    rw [hZ]
    obtain ⟨a1, a2, a3, a4⟩ := cdfAtZero_range (hab s1)
    obtain ⟨b1, b2, b3, b4⟩ := cdfAtZero_range (hab s2)
    rcases a1.eq_or_lt with h | h
    · have hl : loc ≤ -1 := by
        have := a3 h.symm
        rw [le_div_iff₀ s1] at this; linarith
      have : cdfAtZero (-(1 + loc) / (scale * (1 - epsilon))) ((1 - loc) / (scale * (1 - epsilon))) ≠ 1 := fun hc => by
        have := b4 hc
        rw [div_le_iff₀ s2] at this; linarith
      have : 0 < 1 - cdfAtZero (-(1 + loc) / (scale * (1 - epsilon))) ((1 - loc) / (scale * (1 - epsilon))) := by
        rcases b2.lt_or_eq with h | h
        · linarith
        · exact absurd h this
      rw [← h]
      have := mul_pos w2 this
      linarith
    · have := mul_pos w1 h
      have := mul_nonneg w2.le (sub_nonneg.2 b2)
      linarith
  have hnn : ∀ x, 0 ≤ skewUnnormalised loc scale epsilon x := fun x => by
    unfold skewUnnormalised
    split_ifs
    · exact mul_nonneg w1.le (restrictedNormal_nonneg _ _ _ _)
    · exact mul_nonneg w2.le (restrictedNormal_nonneg _ _ _ _)
  have hlog : ∀ x : ℝ, skewLogProb loc scale epsilon v (fin x) = log (fin (skewUnnormalised loc scale epsilon x / Z)) := by
    intro x
    have hout : x ∉ Set.Icc (-1 : ℝ) 1 → skewUnnormalised loc scale epsilon x = 0 := fun hx => by
      unfold skewUnnormalised
      split_ifs <;> rw [restrictedNormal, if_neg hx, mul_zero]
    have hval : ∀ lp : XR, lp = log (fin (skewUnnormalised loc scale epsilon x / Z)) → validated v (interval (-1) 1 (fin x)) lp = lp := by
      rintro lp rfl
      by_cases hx : x ∈ Set.Icc (-1 : ℝ) 1
      · rw [show interval (-1) 1 (fin x) = true from interval_fin.2 hx]
        exact validated_of_true _ _
      · rw [hout hx]
        cases v <;> simp [validated, select]
    have hnorm : (fin 1 + fin epsilon) * exp (truncnormLogcdf (fin loc) (-(fin 1 + fin loc) / fin (scale * (1 + epsilon)))
        ((fin 1 - fin loc) / fin (scale * (1 + epsilon))) (fin loc) (fin (scale * (1 + epsilon)))) +
        (fin 1 - fin epsilon) * truncnormSf (fin loc) (-(fin 1 + fin loc) / fin (scale * (1 - epsilon)))
        ((fin 1 - fin loc) / fin (scale * (1 - epsilon))) (fin loc) (fin (scale * (1 - epsilon))) = fin Z := by
      rw [hZ]
      simp only [truncnormSf, add_fin_fin, neg_fin, sub_fin_fin, div_fin_of_ne _ s1.ne', div_fin_of_ne _ s2.ne']
      rw [exp_truncnormLogcdf s1 (hab s1), exp_truncnormLogcdf s2 (neg_lt_neg (hab s2)), cdfAtZero_neg (hab s2)]
      simp
    have hdiv : ∀ u : ℝ, 0 ≤ u → log (fin u) - log (fin Z) = log (fin (u / Z)) := fun u hu => by
      rcases hu.eq_or_lt with rfl | hu
      · rw [zero_div, log_fin_zero, log_fin_pos hpos, ninf_sub_fin]
      · rw [log_fin_pos hu, log_fin_pos hpos, log_fin_pos (div_pos hu hpos), sub_fin_fin, Real.log_div hu.ne' hpos.ne']
    simp only [skewLogProb]
    rw [show fin scale * (fin 1 + fin epsilon) = fin (scale * (1 + epsilon)) by simp, show fin scale * (fin 1 - fin epsilon) = fin (scale * (1 - epsilon)) by simp,
      hnorm]
    by_cases hx : x ≤ loc
    · rw [show decide (le (fin x) (fin loc)) = true by simp [hx], select_true, mul_fin_fin, one_mul, add_fin_fin, mul_fin_fin, scipy_logpdf s1,
        log_add_log w1.le (restrictedNormal_nonneg _ _ _ _), hdiv _ (mul_nonneg w1.le (restrictedNormal_nonneg _ _ _ _))]
      have e : skewUnnormalised loc scale epsilon x = (1 + epsilon) * restrictedNormal loc (scale * (1 + epsilon)) (Set.Icc (-1) 1) x := by
        rw [skewUnnormalised, if_pos hx]
      rw [← e]
      exact hval _ rfl
    · rw [show decide (le (fin x) (fin loc)) = false by simpa using hx, select_false, mul_fin_fin, show (-1 : ℝ) * epsilon = -epsilon by ring, add_fin_fin,
        ← sub_eq_add_neg, mul_fin_fin, scipy_logpdf s2,
        log_add_log w2.le (restrictedNormal_nonneg _ _ _ _), hdiv _ (mul_nonneg w2.le (restrictedNormal_nonneg _ _ _ _))]
      have e : skewUnnormalised loc scale epsilon x = (1 - epsilon) * restrictedNormal loc (scale * (1 - epsilon)) (Set.Icc (-1) 1) x := by
        rw [skewUnnormalised, if_neg hx]
      rw [← e]
      exact hval _ rfl
  refine ⟨hpos, hlog, ?_⟩
  have : (fun x : ℝ => expR (skewLogProb loc scale epsilon v (fin x))) = fun x => skewUnnormalised loc scale epsilon x / Z := by
    funext x
    rw [hlog, expR_log (div_nonneg (hnn x) hpos.le)]
  rw [this, integral_div, ← hZdef, div_self hpos.ne']

example : ∫ x, expR (skewLogProb (1 / 10) (1 / 5) (1 / 2) true (fin x)) = 1 := (C54_skew_normal (by norm_num) (by norm_num) (by norm_num) true).2.2

/-- **C54** (violated at the end of the declared range).  `epsilon = 1` satisfies the argument constraint `[-1, 1]`, but then the log density is NaN at every
point of the support above the location. -/
theorem C54_skew_normal_epsilon_one_violated {loc scale x : ℝ} (hx : loc < x) (h1 : -1 ≤ x) (h2 : x ≤ 1) (v : Bool) :
    skewLogProb loc scale 1 v (fin x) = nan := by
  have hd : decide (le (fin x) (fin loc)) = false := by simpa using hx
  have hi : interval (-1) 1 (fin x) = true := interval_fin.2 ⟨h1, h2⟩
  simp only [skewLogProb]
  rw [hd, select_false, hi, validated_of_true, mul_fin_fin, add_fin_fin, show (1 : ℝ) + -1 * 1 = 0 by norm_num, mul_fin_fin, mul_zero, log_fin_zero]
  have hpos : 0 < (x - loc) * (x - loc) := mul_pos (by linarith) (by linarith)
  have hn : normLogpdf (fin x) (fin loc) (fin 0) = nan := by
    simp only [normLogpdf, square_fin, mul_fin_fin, mul_zero, log_fin_zero, sub_fin_fin]
    rw [div_fin_fin, if_pos rfl, show mulInf ((x - loc) * (x - loc)) = pinf by simp [mulInf, hpos], ninf_add_pinf]
    rfl
  have hxs : fin (x - loc) / fin 0 = pinf := by
    rw [div_fin_fin, if_pos rfl]
    simp [mulInf, hx]
  have hlt : ∀ y : XR, ¬ lt pinf y := fun y h => by cases y <;> exact h
  have hb : fin (1 - loc) / fin 0 = pinf := by
    rw [div_fin_fin, if_pos rfl]
    simp [mulInf, hx.trans_le h2]
  rw [show (fin 1 - fin loc : XR) = fin (1 - loc) by simp, hb]
  have : ∀ a : XR, truncnormLogpdfScipy (fin x) a pinf (fin loc) (fin 0) = nan := by
    intro a
    simp only [truncnormLogpdfScipy, hn, nan_sub, sub_fin_fin, hxs]
    cases decide (le pinf a) <;> simp [hlt]
  rw [this]
  simp

example : skewLogProb 0 (1 / 5) 1 true (fin (1 / 2)) = nan := C54_skew_normal_epsilon_one_violated (by norm_num) (by norm_num) (by norm_num) true

end GW.Spin
