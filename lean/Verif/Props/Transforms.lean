import Verif.Spec.Transforms
import Verif.Props.Conversions
import Verif.Props.Constraints
import Mathlib.Tactic.FinCases

/-!
# C16: the coordinate transforms invert and respect their declared domain and codomain
-/

namespace GW.Transforms
open GW XR GW.Conv GW.Constraints

/-! ## Helpers -/

theorem vec1 (a : ℝ) : ![fin a] = toXR ![a] := by funext i; fin_cases i; rfl
theorem vec2 (a b : ℝ) : ![fin a, fin b] = toXR ![a, b] := by funext i; fin_cases i <;> rfl
theorem vec3 (a b c : ℝ) : ![fin a, fin b, fin c] = toXR ![a, b, c] := by funext i; fin_cases i <;> rfl
theorem eta1 (x : Fin 1 → ℝ) : x = ![x 0] := by funext i; fin_cases i; rfl
theorem eta2 (x : Fin 2 → ℝ) : x = ![x 0, x 1] := by funext i; fin_cases i <;> rfl
theorem eta3 (x : Fin 3 → ℝ) : x = ![x 0, x 1, x 2] := by funext i; fin_cases i <;> rfl

theorem accepts_interval (a b x : ℝ) : Accepts (.intervals [a] [b]) ![x] ↔ a ≤ x ∧ x ≤ b := by
  simp [Accepts, Leaf.check, allWithin]

theorem accepts_intervals (a b c d x y : ℝ) :
    Accepts (.intervals [a, b] [c, d]) ![x, y] ↔ (a ≤ x ∧ x ≤ c) ∧ (b ≤ y ∧ y ≤ d) := by
  simp [Accepts, Leaf.check, allWithin]

theorem accepts_openIntervals (a b c d x y : ℝ) :
    Accepts (.openIntervals [a, b] [c, d]) ![x, y] ↔ (a < x ∧ x < c) ∧ (b < y ∧ y < d) := by
  simp [Accepts, Leaf.check, allWithin]

theorem accepts_posDec (x y : ℝ) : Accepts .positiveDecreasing ![x, y] ↔ y ≤ x ∧ 0 < x ∧ 0 < y := by
  simp [Accepts, Leaf.check, allNeighbours, allPositive]

theorem accepts_pos2 (x y : ℝ) : Accepts .positive ![x, y] ↔ 0 < x ∧ 0 < y := by
  simp [Accepts, Leaf.check, allPositive]

theorem accepts_pos3 (x y z : ℝ) : Accepts .positive ![x, y, z] ↔ 0 < x ∧ 0 < y ∧ 0 < z := by
  simp [Accepts, Leaf.check, allPositive]

theorem massRatio_fin {m1 : ℝ} (h : m1 ≠ 0) (m2 : ℝ) : massRatio (fin m1) (fin m2) = fin (m2 / m1) := by
  simp [massRatio, h]

/-- The chirp mass does not exceed the primary mass. -/
theorem chirp_le_primary {m1 m2 : ℝ} (h2 : 0 < m2) (h : m2 ≤ m1) :
    (m1 * m2) ^ (6 / 10 : ℝ) * (m1 + m2) ^ (-(2 / 10) : ℝ) ≤ m1 := by
  have h1 : 0 < m1 := by linarith
  have a : (m1 * m2) ^ (6 / 10 : ℝ) ≤ (m1 ^ (2 : ℝ)) ^ (6 / 10 : ℝ) := by
    apply Real.rpow_le_rpow (by positivity) _ (by norm_num)
    rw [Real.rpow_two]
    nlinarith
  have b : (m1 + m2) ^ (-(2 / 10) : ℝ) ≤ m1 ^ (-(2 / 10) : ℝ) := by
    apply Real.rpow_le_rpow_of_nonpos h1 (by linarith) (by norm_num)
  calc _ ≤ (m1 ^ (2 : ℝ)) ^ (6 / 10 : ℝ) * m1 ^ (-(2 / 10) : ℝ) := by
        apply mul_le_mul a b (by positivity) (by positivity)
    _ = m1 := by
        rw [← Real.rpow_mul h1.le, ← Real.rpow_add h1]
        norm_num

/-! ## C16 -/

/-- **C16 (partial).**  `(m1, q) → (m1, m2)` inverts for `0 < m1`, `0 < q` in its domain, and on the whole codomain up to the largest float.  The
declared domain also contains `m1 = 0` and `q = 0`, where it does not: next theorem. -/
theorem C16_primary_ratio_partial (big : ℝ) :
    InvertsOn (primaryMassRatioToComponents big)
      (fun x => Accepts (primaryMassRatioToComponents big).domain x ∧ 0 < x 0 ∧ 0 < x 1)
      (fun y => Accepts (primaryMassRatioToComponents big).codomain y ∧ y 0 ≤ big) where
  fwd_ok x hx := by
    obtain ⟨hd, h0, h1⟩ := hx
    rw [eta2 x] at hd ⊢
    simp only [primaryMassRatioToComponents, accepts_intervals] at hd
    refine ⟨![x 0, x 0 * x 1], vec2 _ _, (accepts_posDec _ _).2 ⟨by nlinarith, h0, by positivity⟩, ?_⟩
    simp only [primaryMassRatioToComponents, toXR, Matrix.cons_val_zero, Matrix.cons_val_one, massRatio_fin h0.ne']
    rw [mul_div_cancel_left₀ _ h0.ne']
    exact vec2 _ _
  inv_ok y hy := by
    obtain ⟨hc, hb⟩ := hy
    rw [eta2 y] at hc ⊢
    obtain ⟨h1, h2, h3⟩ := (accepts_posDec _ _).1 hc
    refine ⟨![y 0, y 1 / y 0], ?_, (accepts_intervals _ _ _ _ _ _).2 ⟨⟨h2.le, hb⟩, div_nonneg h3.le h2.le, (div_le_one h2).2 h1⟩, ?_⟩
    · simp only [primaryMassRatioToComponents, toXR, Matrix.cons_val_zero, Matrix.cons_val_one, massRatio_fin h2.ne']
      exact vec2 _ _
    · simp only [primaryMassRatioToComponents, toXR, Matrix.cons_val_zero, Matrix.cons_val_one, mul_fin_fin]
      rw [mul_div_cancel₀ _ h2.ne']
      exact vec2 _ _

/-- **C16 (closed boundary).**  `q = 0` and `m1 = 0` belong to the declared domain; the image of the first is not in the declared codomain, the
second is not recovered by the inverse (`q` comes back as `inf`). -/
theorem C16_primary_ratio_boundary_violated (big : ℝ) (hbig : 1 ≤ big) :
    (∃ x y : Fin 2 → ℝ, Accepts (primaryMassRatioToComponents big).domain x ∧ (primaryMassRatioToComponents big).fwd (toXR x) = toXR y ∧
      ¬ Accepts (primaryMassRatioToComponents big).codomain y) ∧
    (∃ x : Fin 2 → ℝ, Accepts (primaryMassRatioToComponents big).domain x ∧
      (primaryMassRatioToComponents big).inv ((primaryMassRatioToComponents big).fwd (toXR x)) 1 = pinf) := by
  constructor
  · refine ⟨![1, 0], ![1, 0], (accepts_intervals _ _ _ _ _ _).2 ⟨⟨by norm_num, hbig⟩, by norm_num⟩, ?_, ?_⟩
    · simp only [primaryMassRatioToComponents, toXR, Matrix.cons_val_zero, Matrix.cons_val_one, mul_fin_fin, mul_zero]
      exact vec2 _ _
    · rw [show (primaryMassRatioToComponents big).codomain = .positiveDecreasing from rfl, accepts_posDec]
      norm_num
  · refine ⟨![0, 1 / 2], (accepts_intervals _ _ _ _ _ _).2 ⟨⟨le_refl _, by linarith⟩, by norm_num⟩, ?_⟩
    simp [primaryMassRatioToComponents, toXR, massRatio]

/-- **C16 (partial).**  Component masses to chirp mass and `eta`: inverts on the whole domain (masses up to the largest float) and on the
codomain without its lower edges `Mc = 0`, `eta = 0`. -/
theorem C16_chirp_eta_partial (big : ℝ) :
    InvertsOn (componentsToChirpEta big)
      (fun x => Accepts (componentsToChirpEta big).domain x ∧ x 0 ≤ big)
      (fun y => Accepts (componentsToChirpEta big).codomain y ∧ 0 < y 0 ∧ 0 < y 1) where
  fwd_ok x hx := by
    obtain ⟨hd, hb⟩ := hx
    rw [eta2 x] at hd ⊢
    obtain ⟨h1, h2, h3⟩ := (accepts_posDec _ _).1 hd
    obtain ⟨Mc, eta, e1, e2, p1, p2, p3, e3⟩ := C14_chirp_roundtrip (x 0) (x 1) h3 h1
    have hMc : Mc ≤ big := by
      rw [chirpMass_fin h2 h3] at e1
      cases e1
      exact (chirp_le_primary h3 h1).trans hb
    refine ⟨![Mc, eta], ?_, (accepts_intervals _ _ _ _ _ _).2 ⟨⟨p1.le, hMc⟩, p2.le, p3⟩, ?_⟩
    · simp only [componentsToChirpEta, toXR, Matrix.cons_val_zero, Matrix.cons_val_one, e1, e2]
      exact vec2 _ _
    · simp only [componentsToChirpEta, toXR, Matrix.cons_val_zero, Matrix.cons_val_one, e3]
      exact vec2 _ _
  inv_ok y hy := by
    obtain ⟨hc, h0, h1⟩ := hy
    rw [eta2 y] at hc ⊢
    obtain ⟨⟨_, _⟩, _, h4⟩ := (accepts_intervals _ _ _ _ _ _).1 hc
    obtain ⟨m1, m2, e1, p1, p2, e2, e3⟩ := C14_chirp_roundtrip_inv (y 0) (y 1) h0 h1 h4
    refine ⟨![m1, m2], ?_, (accepts_posDec _ _).2 ⟨p2, by linarith, p1⟩, ?_⟩
    · simp only [componentsToChirpEta, toXR, Matrix.cons_val_zero, Matrix.cons_val_one, e1]
      exact vec2 _ _
    · simp only [componentsToChirpEta, toXR, Matrix.cons_val_zero, Matrix.cons_val_one, e2, e3]
      exact vec2 _ _

/-- **C16 (closed boundary).**  `(Mc, eta) = (1, 0)` is in the declared codomain, but its pre-image has an infinite primary mass. -/
theorem C16_chirp_eta_boundary_violated (big : ℝ) (hbig : 1 ≤ big) :
    Accepts (componentsToChirpEta big).codomain ![1, 0] ∧ (componentsToChirpEta big).inv (toXR ![1, 0]) 0 = pinf := by
  refine ⟨(accepts_intervals _ _ _ _ _ _).2 ⟨⟨by norm_num, hbig⟩, by norm_num⟩, ?_⟩
  simp only [componentsToChirpEta, toXR, Matrix.cons_val_zero, Matrix.cons_val_one, mcEtaToM1M2, mul_fin_fin, sub_fin_fin, max_fin_fin]
  rw [pow_fin_zero_neg (by norm_num)]
  norm_num
  show XR.mul (XR.mul (fin (1 / 2)) pinf) (fin 2) = pinf
  norm_num [XR.mul, mulInf]

/-- **C16.**  `delta → eta` inverts on all of `[0, 1]` and `[0, 1/4]`. -/
theorem C16_delta_eta : Inverts deltaToEta where
  fwd_ok x hx := by
    rw [eta1 x] at hx ⊢
    obtain ⟨h0, h1⟩ := (accepts_interval _ _ _).1 hx
    refine ⟨![(1 - x 0 * x 0) * (1 / 4)], vec1 _, (accepts_interval _ _ _).2 ⟨by nlinarith, by nlinarith⟩, ?_⟩
    have : (1 : ℝ) - 4 * ((1 - x 0 * x 0) * (1 / 4)) = x 0 ^ 2 := by ring
    simp only [deltaToEta, toXR, Matrix.cons_val_zero, mul_fin_fin, sub_fin_fin, this]
    rw [sqrt_fin (by positivity), Real.sqrt_sq h0]
    exact vec1 _
  inv_ok y hy := by
    rw [eta1 y] at hy ⊢
    obtain ⟨h0, h1⟩ := (accepts_interval _ _ _).1 hy
    have h : (0 : ℝ) ≤ 1 - 4 * y 0 := by linarith
    refine ⟨![Real.sqrt (1 - 4 * y 0)], ?_, (accepts_interval _ _ _).2 ⟨Real.sqrt_nonneg _, ?_⟩, ?_⟩
    · simp only [deltaToEta, toXR, Matrix.cons_val_zero, mul_fin_fin, sub_fin_fin]
      rw [sqrt_fin h]
      exact vec1 _
    · rw [Real.sqrt_le_iff]
      exact ⟨by norm_num, by linarith⟩
    · simp only [deltaToEta, toXR, Matrix.cons_val_zero, mul_fin_fin, sub_fin_fin, square_fin, Real.mul_self_sqrt h]
      rw [show (1 - (1 - 4 * y 0)) * (1 / 4) = y 0 by ring]
      exact vec1 _

/-- **C16 (partial).**  Component masses to chirp mass and `delta`: inverts on the whole domain (masses up to the largest float) and on the codomain
without the edges `Mc = 0`, `delta = 1`. -/
theorem C16_chirp_delta_partial (big : ℝ) :
    InvertsOn (componentsToChirpDelta big)
      (fun x => Accepts (componentsToChirpDelta big).domain x ∧ x 0 ≤ big)
      (fun y => Accepts (componentsToChirpDelta big).codomain y ∧ 0 < y 0 ∧ y 1 < 1) where
  fwd_ok x hx := by
    obtain ⟨hd, hb⟩ := hx
    rw [eta2 x] at hd ⊢
    obtain ⟨h1, h2, h3⟩ := (accepts_posDec _ _).1 hd
    obtain ⟨Mc, eta, e1, e2, p1, p2, p3, e3⟩ := C14_chirp_roundtrip (x 0) (x 1) h3 h1
    obtain ⟨d, d1, d2, d3⟩ := (C14_delta_eta 0 0 (x 0) (x 1)).2.2 h2 h3
    have hM : 0 < x 0 + x 1 := by linarith
    have hMc : Mc ≤ big := by
      rw [chirpMass_fin h2 h3] at e1
      cases e1
      exact (chirp_le_primary h3 h1).trans hb
    refine ⟨![Mc, d], ?_, (accepts_intervals _ _ _ _ _ _).2 ⟨⟨p1.le, hMc⟩, ?_, ?_⟩, ?_⟩
    · simp only [componentsToChirpDelta, toXR, Matrix.cons_val_zero, Matrix.cons_val_one, e1, d1]
      exact vec2 _ _
    · rw [d2]
      exact div_nonneg (by linarith) hM.le
    · rw [d2, div_le_one hM]
      linarith
    · simp only [componentsToChirpDelta, toXR, Matrix.cons_val_zero, Matrix.cons_val_one, d3, e2, e3]
      exact vec2 _ _
  inv_ok y hy := by
    obtain ⟨hc, h0, h1⟩ := hy
    rw [eta2 y] at hc ⊢
    obtain ⟨⟨_, _⟩, h3, h4⟩ := (accepts_intervals _ _ _ _ _ _).1 hc
    have heta : deltaMToEta (fin (y 1)) = fin (1 / 4 * (1 - y 1 * y 1)) := by simp [deltaMToEta]
    obtain ⟨m1, m2, e1, p1, p2, e2, e3⟩ := C14_chirp_roundtrip_inv (y 0) (1 / 4 * (1 - y 1 * y 1)) h0 (by nlinarith) (by nlinarith)
    have hm1 : 0 < m1 := by linarith
    obtain ⟨d, d1, d2, d3⟩ := (C14_delta_eta 0 0 m1 m2).2.2 hm1 p1
    have hd : d = y 1 := by
      have : 1 / 4 * (1 - d * d) = 1 / 4 * (1 - y 1 * y 1) := by
        rw [e3] at d3
        simp only [deltaMToEta, square_fin, sub_fin_fin, mul_fin_fin, fin.injEq] at d3
        exact d3
      have hdn : 0 ≤ d := by
        rw [d2]
        exact div_nonneg (by linarith) (by linarith)
      nlinarith
    refine ⟨![m1, m2], ?_, (accepts_posDec _ _).2 ⟨p2, hm1, p1⟩, ?_⟩
    · simp only [componentsToChirpDelta, toXR, Matrix.cons_val_zero, Matrix.cons_val_one, heta, e1]
      exact vec2 _ _
    · simp only [componentsToChirpDelta, toXR, Matrix.cons_val_zero, Matrix.cons_val_one, e2, d1, hd]
      exact vec2 _ _

/-- **C16.**  Source mass and redshift to detector mass and redshift: inverts on all positive points. -/
theorem C16_source_detected : Inverts sourceToDetected where
  fwd_ok x hx := by
    rw [eta2 x] at hx ⊢
    obtain ⟨h0, h1⟩ := (accepts_pos2 _ _).1 hx
    have hz : 1 + x 1 ≠ 0 := by positivity
    refine ⟨![x 0 * (1 + x 1), x 1], vec2 _ _, (accepts_pos2 _ _).2 ⟨by positivity, h1⟩, ?_⟩
    simp only [sourceToDetected, toXR, Matrix.cons_val_zero, Matrix.cons_val_one, add_fin_fin, div_fin_of_ne _ hz]
    rw [mul_div_cancel_right₀ _ hz]
    exact vec2 _ _
  inv_ok y hy := by
    rw [eta2 y] at hy ⊢
    obtain ⟨h0, h1⟩ := (accepts_pos2 _ _).1 hy
    have hz : 1 + y 1 ≠ 0 := by positivity
    refine ⟨![y 0 / (1 + y 1), y 1], ?_, (accepts_pos2 _ _).2 ⟨by positivity, h1⟩, ?_⟩
    · simp only [sourceToDetected, toXR, Matrix.cons_val_zero, Matrix.cons_val_one, add_fin_fin, div_fin_of_ne _ hz]
      exact vec2 _ _
    · simp only [sourceToDetected, toXR, Matrix.cons_val_zero, Matrix.cons_val_one, add_fin_fin, mul_fin_fin]
      rw [div_mul_cancel₀ _ hz]
      exact vec2 _ _

/-- **C16.**  Component masses and redshift to detector masses and redshift: inverts on all positive points. -/
theorem C16_components_detected : Inverts componentsToDetected where
  fwd_ok x hx := by
    rw [eta3 x] at hx ⊢
    obtain ⟨h0, h1, h2⟩ := (accepts_pos3 _ _ _).1 hx
    have hz : 1 + x 2 ≠ 0 := by positivity
    refine ⟨![x 0 * (1 + x 2), x 1 * (1 + x 2), x 2], vec3 _ _ _, (accepts_pos3 _ _ _).2 ⟨by positivity, by positivity, h2⟩, ?_⟩
    simp only [componentsToDetected, toXR, Matrix.cons_val_zero, Matrix.cons_val_one, Matrix.cons_val, add_fin_fin, div_fin_of_ne _ hz]
    rw [mul_div_cancel_right₀ _ hz, mul_div_cancel_right₀ _ hz]
    exact vec3 _ _ _
  inv_ok y hy := by
    rw [eta3 y] at hy ⊢
    obtain ⟨h0, h1, h2⟩ := (accepts_pos3 _ _ _).1 hy
    have hz : 1 + y 2 ≠ 0 := by positivity
    refine ⟨![y 0 / (1 + y 2), y 1 / (1 + y 2), y 2], ?_, (accepts_pos3 _ _ _).2 ⟨by positivity, by positivity, h2⟩, ?_⟩
    · simp only [componentsToDetected, toXR, Matrix.cons_val_zero, Matrix.cons_val_one, Matrix.cons_val, add_fin_fin, div_fin_of_ne _ hz]
      exact vec3 _ _ _
    · simp only [componentsToDetected, toXR, Matrix.cons_val_zero, Matrix.cons_val_one, Matrix.cons_val, add_fin_fin, mul_fin_fin]
      rw [div_mul_cancel₀ _ hz, div_mul_cancel₀ _ hz]
      exact vec3 _ _ _

/-- **C16 (partial).**  `(m1, m2) → (m1, q)` inverts for `m2 < m1 < big`, and on the whole codomain. -/
theorem C16_to_primary_ratio_partial (big : ℝ) :
    InvertsOn (componentsToPrimaryMassRatio big)
      (fun x => Accepts (componentsToPrimaryMassRatio big).domain x ∧ x 1 < x 0 ∧ x 0 < big)
      (Accepts (componentsToPrimaryMassRatio big).codomain) where
  fwd_ok x hx := by
    obtain ⟨hd, hlt, hb⟩ := hx
    rw [eta2 x] at hd ⊢
    obtain ⟨h1, h2, h3⟩ := (accepts_posDec _ _).1 hd
    refine ⟨![x 0, x 1 / x 0], ?_, (accepts_openIntervals _ _ _ _ _ _).2 ⟨⟨h2, hb⟩, div_pos h3 h2, (div_lt_one h2).2 hlt⟩, ?_⟩
    · simp only [componentsToPrimaryMassRatio, toXR, Matrix.cons_val_zero, Matrix.cons_val_one, massRatio_fin h2.ne']
      exact vec2 _ _
    · simp only [componentsToPrimaryMassRatio, toXR, Matrix.cons_val_zero, Matrix.cons_val_one, m1QToM2, mul_fin_fin]
      rw [mul_div_cancel₀ _ h2.ne']
      exact vec2 _ _
  inv_ok y hy := by
    rw [eta2 y] at hy ⊢
    obtain ⟨⟨h0, _⟩, h2, h3⟩ := (accepts_openIntervals _ _ _ _ _ _).1 hy
    refine ⟨![y 0, y 0 * y 1], vec2 _ _, (accepts_posDec _ _).2 ⟨by nlinarith, h0, by positivity⟩, ?_⟩
    simp only [componentsToPrimaryMassRatio, toXR, Matrix.cons_val_zero, Matrix.cons_val_one, massRatio_fin h0.ne']
    rw [mul_div_cancel_left₀ _ h0.ne']
    exact vec2 _ _

/-- **C16 (equal masses).**  Equal masses are in the declared domain, but their image `q = 1` is not in the declared (open) codomain. -/
theorem C16_equal_masses_violated (big m : ℝ) (hm : 0 < m) :
    ∃ y : Fin 2 → ℝ, Accepts (componentsToPrimaryMassRatio big).domain ![m, m] ∧
      (componentsToPrimaryMassRatio big).fwd (toXR ![m, m]) = toXR y ∧ ¬ Accepts (componentsToPrimaryMassRatio big).codomain y := by
  refine ⟨![m, 1], (accepts_posDec _ _).2 ⟨le_refl _, hm, hm⟩, ?_, ?_⟩
  · simp only [componentsToPrimaryMassRatio, toXR, Matrix.cons_val_zero, Matrix.cons_val_one, massRatio_fin hm.ne', div_self hm.ne']
    exact vec2 _ _
  · rw [show (componentsToPrimaryMassRatio big).codomain = .openIntervals [0, 0] [big, 1] from rfl, accepts_openIntervals]
    norm_num

/-- **C16 (partial).**  `(m1, m2) → (q, m2)` inverts on the whole domain (masses up to the largest float) and for `0 < q`, `0 < m2` in the
codomain. -/
theorem C16_ratio_secondary_partial (big : ℝ) :
    InvertsOn (componentsToRatioSecondary big)
      (fun x => Accepts (componentsToRatioSecondary big).domain x ∧ x 1 ≤ big)
      (fun y => Accepts (componentsToRatioSecondary big).codomain y ∧ 0 < y 0 ∧ 0 < y 1) where
  fwd_ok x hx := by
    obtain ⟨hd, hb⟩ := hx
    rw [eta2 x] at hd ⊢
    obtain ⟨h1, h2, h3⟩ := (accepts_posDec _ _).1 hd
    have hq : x 1 / x 0 ≠ 0 := (div_pos h3 h2).ne'
    refine ⟨![x 1 / x 0, x 1], ?_, (accepts_intervals _ _ _ _ _ _).2 ⟨⟨(div_pos h3 h2).le, (div_le_one h2).2 h1⟩, h3.le, hb⟩, ?_⟩
    · simp only [componentsToRatioSecondary, toXR, Matrix.cons_val_zero, Matrix.cons_val_one, massRatio_fin h2.ne']
      exact vec2 _ _
    · simp only [componentsToRatioSecondary, toXR, Matrix.cons_val_zero, Matrix.cons_val_one, m2QToM1, eqc_fin_of_ne hq, select_false,
        div_fin_of_ne _ hq]
      rw [div_div_cancel₀ h3.ne']
      exact vec2 _ _
  inv_ok y hy := by
    obtain ⟨hc, h0, h1⟩ := hy
    rw [eta2 y] at hc ⊢
    obtain ⟨⟨_, h2⟩, _, h3⟩ := (accepts_intervals _ _ _ _ _ _).1 hc
    have hm : y 1 / y 0 ≠ 0 := (div_pos h1 h0).ne'
    refine ⟨![y 1 / y 0, y 1], ?_, (accepts_posDec _ _).2 ⟨?_, div_pos h1 h0, h1⟩, ?_⟩
    · simp only [componentsToRatioSecondary, toXR, Matrix.cons_val_zero, Matrix.cons_val_one, m2QToM1, eqc_fin_of_ne h0.ne', select_false,
        div_fin_of_ne _ h0.ne']
      exact vec2 _ _
    · rw [le_div_iff₀ h0]
      nlinarith
    · simp only [componentsToRatioSecondary, toXR, Matrix.cons_val_zero, Matrix.cons_val_one, massRatio_fin hm]
      rw [div_div_cancel₀ h1.ne']
      exact vec2 _ _

/-- **C16 (partial).**  `(m1, m2) → (M, q)` inverts on the whole domain (total mass up to the largest float) and for `0 < M`, `0 < q` in the
codomain. -/
theorem C16_total_ratio_partial (big : ℝ) :
    InvertsOn (componentsToTotalRatio big)
      (fun x => Accepts (componentsToTotalRatio big).domain x ∧ x 0 + x 1 ≤ big)
      (fun y => Accepts (componentsToTotalRatio big).codomain y ∧ 0 < y 0 ∧ 0 < y 1) where
  fwd_ok x hx := by
    obtain ⟨hd, hb⟩ := hx
    rw [eta2 x] at hd ⊢
    obtain ⟨h1, h2, h3⟩ := (accepts_posDec _ _).1 hd
    have hq := div_pos h3 h2
    have hq1 : x 1 / x 0 ≠ -1 := by linarith
    have hq2 : 1 + x 1 / x 0 ≠ 0 := by linarith
    refine ⟨![x 0 + x 1, x 1 / x 0], ?_, (accepts_intervals _ _ _ _ _ _).2 ⟨⟨by linarith, hb⟩, hq.le, (div_le_one h2).2 h1⟩, ?_⟩
    · simp only [componentsToTotalRatio, toXR, Matrix.cons_val_zero, Matrix.cons_val_one, massRatio_fin h2.ne', totalMass, add_fin_fin]
      exact vec2 _ _
    · simp only [componentsToTotalRatio, toXR, Matrix.cons_val_zero, Matrix.cons_val_one, eqc_fin_of_ne hq1, select_false, add_fin_fin,
        div_fin_of_ne _ hq2, m1QToM2, mul_fin_fin]
      have e : (x 0 + x 1) / (1 + x 1 / x 0) = x 0 := by
        rw [div_eq_iff hq2]
        field_simp
      rw [e, mul_div_cancel₀ _ h2.ne']
      exact vec2 _ _
  inv_ok y hy := by
    obtain ⟨hc, h0, h1⟩ := hy
    rw [eta2 y] at hc ⊢
    obtain ⟨⟨_, h2⟩, _, h3⟩ := (accepts_intervals _ _ _ _ _ _).1 hc
    have hq1 : y 1 ≠ -1 := by linarith
    have hq2 : 0 < 1 + y 1 := by linarith
    have hm := div_pos h0 hq2
    refine ⟨![y 0 / (1 + y 1), y 0 / (1 + y 1) * y 1], ?_, (accepts_posDec _ _).2 ⟨by nlinarith, hm, by positivity⟩, ?_⟩
    · simp only [componentsToTotalRatio, toXR, Matrix.cons_val_zero, Matrix.cons_val_one, eqc_fin_of_ne hq1, select_false, add_fin_fin,
        div_fin_of_ne _ hq2.ne', m1QToM2, mul_fin_fin]
      exact vec2 _ _
    · simp only [componentsToTotalRatio, toXR, Matrix.cons_val_zero, Matrix.cons_val_one, massRatio_fin hm.ne', totalMass, add_fin_fin]
      rw [mul_div_cancel_left₀ _ hm.ne', show y 0 / (1 + y 1) + y 0 / (1 + y 1) * y 1 = y 0 by field_simp]
      exact vec2 _ _

/-- The domains are inhabited by ordinary binaries. -/
example : Accepts (componentsToTotalRatio 1000).domain ![36, 29] ∧ Accepts (primaryMassRatioToComponents 1000).domain ![36, 29 / 36] ∧
    Accepts (componentsToChirpEta 1000).codomain ![28, 247 / 1000] := by
  refine ⟨(accepts_posDec _ _).2 (by norm_num), (accepts_intervals _ _ _ _ _ _).2 (by norm_num), (accepts_intervals _ _ _ _ _ _).2 (by norm_num)⟩

end GW.Transforms
