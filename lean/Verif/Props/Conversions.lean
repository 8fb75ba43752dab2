import Verif.Model.Conversions
import Verif.Lemmas.XRMath
import Mathlib.Tactic.Linarith
import Mathlib.Tactic.FieldSimp
import Mathlib.Tactic.Ring
import Mathlib.Tactic.Positivity
import Mathlib.Tactic.NormNum

/-!
# C14, C15: conversions of masses, redshifts and spins

Statements are about finite real arguments (`fin x`); the result being `fin y` says in particular that no infinity or NaN appears.
-/

namespace GW.Conv
open GW XR

/-! ## C14: masses -/

theorem chirpMass_fin {m1 m2 : ℝ} (h1 : 0 < m1) (h2 : 0 < m2) :
    chirpMass (fin m1) (fin m2) = fin ((m1 * m2) ^ (6 / 10 : ℝ) * (m1 + m2) ^ (-(2 / 10) : ℝ)) := by
  simp only [chirpMass, totalMass, m1TimesM2, mul_fin_fin, add_fin_fin]
  rw [pow_fin_pos (by positivity), pow_fin_pos (by positivity), mul_fin_fin]

theorem symmetricMassRatio_fin {m1 m2 : ℝ} (h1 : 0 < m1) (h2 : 0 < m2) :
    symmetricMassRatio (fin m1) (fin m2) = fin (m1 * m2 / (m1 + m2) ^ 2) := by
  simp only [symmetricMassRatio, totalMass, m1TimesM2, mul_fin_fin, add_fin_fin]
  rw [pow_fin_pos (by positivity), mul_fin_fin]
  congr 1
  rw [Real.rpow_neg (by positivity), div_eq_mul_inv]
  norm_num

theorem mcEtaToM1M2_fin {Mc eta : ℝ} (h2 : 0 < eta) (h3 : eta ≤ 1 / 4) :
    mcEtaToM1M2 (fin Mc) (fin eta) =
      (fin (1 / 2 * Mc * eta ^ (-(6 / 10) : ℝ) * (1 + Real.sqrt (1 - 4 * eta))),
       fin (1 / 2 * Mc * eta ^ (-(6 / 10) : ℝ) * (1 - Real.sqrt (1 - 4 * eta)))) := by
  have h : (0 : ℝ) ≤ 1 - 4 * eta := by linarith
  simp only [mcEtaToM1M2, mul_fin_fin, sub_fin_fin, max_fin_fin, max_eq_left h]
  rw [pow_fin_pos h2, sqrt_fin h]
  simp

/-- **C14.**  `(m1, m2) → (Mc, eta) → (m1, m2)` is the identity for `0 < m2 ≤ m1`. -/
theorem C14_chirp_roundtrip (m1 m2 : ℝ) (h2 : 0 < m2) (h12 : m2 ≤ m1) :
    ∃ Mc eta : ℝ, chirpMass (fin m1) (fin m2) = fin Mc ∧ symmetricMassRatio (fin m1) (fin m2) = fin eta ∧
      0 < Mc ∧ 0 < eta ∧ eta ≤ 1 / 4 ∧ mcEtaToM1M2 (fin Mc) (fin eta) = (fin m1, fin m2) := by
  have h1 : 0 < m1 := by linarith
  have hM : 0 < m1 + m2 := by linarith
  have hP : 0 < m1 * m2 := by positivity
  refine ⟨_, _, chirpMass_fin h1 h2, symmetricMassRatio_fin h1 h2, by positivity, by positivity, ?_, ?_⟩
  · rw [div_le_div_iff₀ (by positivity) (by norm_num)]
    nlinarith [sq_nonneg (m1 - m2)]
  · have heta : m1 * m2 / (m1 + m2) ^ 2 ≤ 1 / 4 := by
      rw [div_le_div_iff₀ (by positivity) (by norm_num)]
      nlinarith [sq_nonneg (m1 - m2)]
    rw [mcEtaToM1M2_fin (by positivity) heta]
    have hs : Real.sqrt (1 - 4 * (m1 * m2 / (m1 + m2) ^ 2)) = (m1 - m2) / (m1 + m2) := by
      rw [show 1 - 4 * (m1 * m2 / (m1 + m2) ^ 2) = ((m1 - m2) / (m1 + m2)) ^ 2 by field_simp; ring]
      exact Real.sqrt_sq (div_nonneg (by linarith) hM.le)
    have hhalf : 1 / 2 * ((m1 * m2) ^ (6 / 10 : ℝ) * (m1 + m2) ^ (-(2 / 10) : ℝ)) *
        (m1 * m2 / (m1 + m2) ^ 2) ^ (-(6 / 10) : ℝ) = (m1 + m2) / 2 := by
      rw [Real.div_rpow hP.le (by positivity), ← Real.rpow_natCast (m1 + m2) 2, ← Real.rpow_mul hM.le, Real.rpow_neg hP.le (6 / 10)]
      have ha : (m1 * m2) ^ (6 / 10 : ℝ) ≠ 0 := (Real.rpow_pos_of_pos hP _).ne'
      have hb : (m1 + m2) ^ (((2 : ℕ) : ℝ) * -(6 / 10)) ≠ 0 := (Real.rpow_pos_of_pos hM _).ne'
      have hc : (m1 + m2) ^ (-(2 / 10) : ℝ) = (m1 + m2) * (m1 + m2) ^ (((2 : ℕ) : ℝ) * -(6 / 10)) := by
        nth_rewrite 2 [← Real.rpow_one (m1 + m2)]
        rw [← Real.rpow_add hM]
        congr 1
        norm_num
      rw [hc]
      field_simp
    rw [hs, hhalf]
    congr 2 <;> field_simp <;> ring

/-- **C14.**  `(Mc, eta) → (m1, m2) → (Mc, eta)` is the identity for `Mc > 0`, `0 < eta ≤ 1/4`, and gives `0 < m2 ≤ m1`. -/
theorem C14_chirp_roundtrip_inv (Mc eta : ℝ) (h1 : 0 < Mc) (h2 : 0 < eta) (h3 : eta ≤ 1 / 4) :
    ∃ m1 m2 : ℝ, mcEtaToM1M2 (fin Mc) (fin eta) = (fin m1, fin m2) ∧ 0 < m2 ∧ m2 ≤ m1 ∧
      chirpMass (fin m1) (fin m2) = fin Mc ∧ symmetricMassRatio (fin m1) (fin m2) = fin eta := by
  have hd0 : (0 : ℝ) ≤ 1 - 4 * eta := by linarith
  set d := Real.sqrt (1 - 4 * eta) with hd
  have hdsq : d * d = 1 - 4 * eta := Real.mul_self_sqrt hd0
  have hdnn : 0 ≤ d := Real.sqrt_nonneg _
  have hd1 : d < 1 := by nlinarith
  set h := 1 / 2 * Mc * eta ^ (-(6 / 10) : ℝ) with hh
  have hpos : 0 < h := by positivity
  have hm2 : 0 < h * (1 - d) := mul_pos hpos (by linarith)
  have hm1 : 0 < h * (1 + d) := mul_pos hpos (by linarith)
  refine ⟨h * (1 + d), h * (1 - d), mcEtaToM1M2_fin h2 h3, hm2, by nlinarith, ?_, ?_⟩
  · rw [chirpMass_fin hm1 hm2]
    congr 1
    have e1 : h * (1 + d) * (h * (1 - d)) = eta * (2 * h) ^ 2 := by nlinarith
    have e2 : h * (1 + d) + h * (1 - d) = 2 * h := by ring
    have h2h : 0 < 2 * h := by linarith
    rw [e1, e2, Real.mul_rpow h2.le (by positivity), ← Real.rpow_natCast (2 * h) 2, ← Real.rpow_mul h2h.le, mul_assoc, ← Real.rpow_add h2h]
    rw [show ((2 : ℕ) : ℝ) * (6 / 10) + -(2 / 10) = 1 by norm_num, Real.rpow_one, hh, Real.rpow_neg h2.le]
    have : eta ^ (6 / 10 : ℝ) ≠ 0 := (Real.rpow_pos_of_pos h2 _).ne'
    field_simp
  · rw [symmetricMassRatio_fin hm1 hm2]
    congr 1
    rw [show h * (1 + d) + h * (1 - d) = 2 * h by ring, div_eq_iff (by positivity)]
    nlinarith

/-- **C14.**  `eta` lies in `(0, 1/4]` for positive masses, and is `1/4` exactly at equal masses. -/
theorem C14_eta_range (m1 m2 : ℝ) (h1 : 0 < m1) (h2 : 0 < m2) :
    ∃ eta : ℝ, symmetricMassRatio (fin m1) (fin m2) = fin eta ∧ 0 < eta ∧ eta ≤ 1 / 4 ∧ (eta = 1 / 4 ↔ m1 = m2) := by
  refine ⟨_, symmetricMassRatio_fin h1 h2, by positivity, ?_, ?_⟩
  · rw [div_le_div_iff₀ (by positivity) (by norm_num)]
    nlinarith [sq_nonneg (m1 - m2)]
  · rw [div_eq_div_iff (by positivity) (by norm_num)]
    constructor
    · intro h
      have : (m1 - m2) ^ 2 = 0 := by nlinarith
      have := pow_eq_zero_iff (two_ne_zero) |>.1 this
      linarith
    · rintro rfl
      ring

/-- **C14.**  `q = m2/m1` for non-zero `m1`; it lies in `(0, 1]` for `0 < m2 ≤ m1`; multiplying back by `m1` gives `m2`, and dividing `m2`
by `q` gives `m1`. -/
theorem C14_mass_ratio (m1 m2 : ℝ) (h1 : m1 ≠ 0) :
    ∃ q : ℝ, massRatio (fin m1) (fin m2) = fin q ∧ q = m2 / m1 ∧ m1QToM2 (fin m1) (fin q) = fin m2 ∧
      (m2 ≠ 0 → m2QToM1 (fin m2) (fin q) = fin m1) ∧ (0 < m2 → m2 ≤ m1 → 0 < q ∧ q ≤ 1) := by
  refine ⟨m2 / m1, by simp [massRatio, h1], rfl, ?_, ?_, ?_⟩
  · simp only [m1QToM2, mul_fin_fin]
    congr 1
    field_simp
  · intro h2
    have : m2 / m1 ≠ 0 := div_ne_zero h2 h1
    simp only [m2QToM1, eqc_fin_of_ne this, select_false, div_fin_of_ne _ this]
    congr 1
    field_simp
  · intro h2 h12
    have : 0 < m1 := by linarith
    exact ⟨by positivity, (div_le_one this).2 h12⟩

/-- **C14.**  From `(m1, q)` to `m2` and back. -/
theorem C14_mass_ratio_inv (m1 q : ℝ) (h1 : m1 ≠ 0) :
    ∃ m2 : ℝ, m1QToM2 (fin m1) (fin q) = fin m2 ∧ massRatio (fin m1) (fin m2) = fin q := by
  refine ⟨m1 * q, rfl, ?_⟩
  simp only [massRatio, eqc_fin_of_ne h1, select_false, div_fin_of_ne _ h1]
  congr 1
  field_simp

/-- **C14.**  From `(m2, q)` to `m1` and back. -/
theorem C14_secondary_inv (m2 q : ℝ) (h2 : m2 ≠ 0) (hq : q ≠ 0) :
    ∃ m1 : ℝ, m2QToM1 (fin m2) (fin q) = fin m1 ∧ massRatio (fin m1) (fin m2) = fin q := by
  have : m2 / q ≠ 0 := div_ne_zero h2 hq
  refine ⟨m2 / q, by simp [m2QToM1, hq], ?_⟩
  simp only [massRatio, eqc_fin_of_ne this, select_false, div_fin_of_ne _ this]
  congr 1
  field_simp

/-- **C14.**  `delta ↔ eta` on `[0, 1] ↔ [0, 1/4]`, and `delta` computed from the masses matches `eta` computed from the masses. -/
theorem C14_delta_eta (delta eta m1 m2 : ℝ) :
    (0 ≤ delta → delta ≤ 1 → ∃ e : ℝ, deltaMToEta (fin delta) = fin e ∧ 0 ≤ e ∧ e ≤ 1 / 4 ∧ etaToDeltaM (fin e) = fin delta) ∧
    (0 ≤ eta → eta ≤ 1 / 4 → ∃ d : ℝ, etaToDeltaM (fin eta) = fin d ∧ 0 ≤ d ∧ d ≤ 1 ∧ deltaMToEta (fin d) = fin eta) ∧
    (0 < m1 → 0 < m2 → ∃ d : ℝ, deltaM (fin m1) (fin m2) = fin d ∧ d = (m1 - m2) / (m1 + m2) ∧
      deltaMToEta (fin d) = symmetricMassRatio (fin m1) (fin m2)) := by
  refine ⟨?_, ?_, ?_⟩
  · intro h0 h1
    refine ⟨1 / 4 * (1 - delta * delta), by simp [deltaMToEta], by nlinarith, by nlinarith, ?_⟩
    have : (1 : ℝ) - 1 / 4 * (1 - delta * delta) * 4 = delta ^ 2 := by ring
    simp only [etaToDeltaM, mul_fin_fin, sub_fin_fin, this]
    rw [sqrt_fin (by positivity), Real.sqrt_sq h0]
  · intro h0 h1
    have h : (0 : ℝ) ≤ 1 - eta * 4 := by linarith
    refine ⟨Real.sqrt (1 - eta * 4), by simp [etaToDeltaM, h], Real.sqrt_nonneg _, ?_, ?_⟩
    · rw [Real.sqrt_le_iff]; refine ⟨by norm_num, ?_⟩
      linarith
    · simp only [deltaMToEta, square_fin, sub_fin_fin, mul_fin_fin, Real.mul_self_sqrt h]
      congr 1
      ring
  · intro h1 h2
    have hM : m1 + m2 ≠ 0 := by positivity
    refine ⟨(m1 - m2) / (m1 + m2), by simp [deltaM, totalMass, hM], rfl, ?_⟩
    rw [symmetricMassRatio_fin h1 h2]
    simp only [deltaMToEta, square_fin, sub_fin_fin, mul_fin_fin]
    congr 1
    field_simp
    ring

/-- **C14.**  Detector and source frame masses are inverse to each other for `z ≠ -1`. -/
theorem C14_redshifted_masses (m z : ℝ) (hz : z ≠ -1) :
    (∃ ms : ℝ, mDetZToMSource (fin m) (fin z) = fin ms ∧ ms = m / (1 + z) ∧ mSourceZToMDet (fin ms) (fin z) = fin m) ∧
    (∃ md : ℝ, mSourceZToMDet (fin m) (fin z) = fin md ∧ md = m * (1 + z) ∧ mDetZToMSource (fin md) (fin z) = fin m) := by
  have h : 1 + z ≠ 0 := fun h => hz (by linarith)
  refine ⟨⟨m / (1 + z), ?_, rfl, ?_⟩, ⟨m * (1 + z), rfl, rfl, ?_⟩⟩
  · simp [mDetZToMSource, hz, h]
  · simp only [mSourceZToMDet, add_fin_fin, mul_fin_fin]
    congr 1
    field_simp
  · simp only [mDetZToMSource, eqc_fin_of_ne hz, select_false, add_fin_fin, div_fin_of_ne _ h]
    congr 1
    field_simp

/-- **C14.**  `eta` from `q` agrees with `eta` from the masses, and is `0` for `q ≤ 0`. -/
theorem C14_eta_from_q (m1 q : ℝ) (h1 : 0 < m1) :
    (0 < q → etaFromQ (fin q) = fin (q / (1 + q) ^ 2) ∧ etaFromQ (fin q) = symmetricMassRatio (fin m1) (m1QToM2 (fin m1) (fin q))) ∧
    (q ≤ 0 → etaFromQ (fin q) = fin 0) := by
  constructor
  · intro hq
    have hval : etaFromQ (fin q) = fin (q / (1 + q) ^ 2) := by
      have hn : ¬ q ≤ 0 := not_le.2 hq
      simp only [etaFromQ, le_fin_fin, hn, decide_false, select_false]
      rw [log_fin_pos hq, log1p_fin (by linarith), mul_fin_fin, sub_fin_fin, exp_fin]
      congr 1
      rw [Real.exp_sub, Real.exp_log hq, mul_comm, Real.exp_mul, Real.exp_log (by linarith)]
      norm_num
    refine ⟨hval, ?_⟩
    rw [hval]
    simp only [m1QToM2, mul_fin_fin]
    rw [symmetricMassRatio_fin h1 (by positivity)]
    congr 1
    field_simp
  · intro hq
    simp [etaFromQ, hq]

/-- **C14.**  The logarithmic form of the chirp mass is its logarithm; the reduced mass is `eta` times the total mass. -/
theorem C14_log_chirp_and_reduced (m1 m2 : ℝ) (h1 : 0 < m1) (h2 : 0 < m2) :
    logChirpMass (fin m1) (fin m2) = log (chirpMass (fin m1) (fin m2)) ∧
    reducedMass (fin m1) (fin m2) = symmetricMassRatio (fin m1) (fin m2) * totalMass (fin m1) (fin m2) := by
  have hM : 0 < m1 + m2 := by linarith
  constructor
  · rw [chirpMass_fin h1 h2, log_fin_pos (by positivity)]
    simp only [logChirpMass, totalMass, add_fin_fin, log_fin_pos h1, log_fin_pos h2, log_fin_pos hM, mul_fin_fin, sub_fin_fin]
    congr 1
    rw [Real.log_mul (Real.rpow_pos_of_pos (by positivity) _).ne' (Real.rpow_pos_of_pos hM _).ne', Real.log_rpow (by positivity),
      Real.log_rpow hM, Real.log_mul h1.ne' h2.ne']
    ring
  · rw [symmetricMassRatio_fin h1 h2]
    simp only [reducedMass, totalMass, m1TimesM2, add_fin_fin, mul_fin_fin, eqc_fin_of_ne hM.ne', select_false, div_fin_of_ne _ hM.ne']
    congr 1
    field_simp

/-- **C14.**  The quantities are the ones their names stand for, for all positive masses: the chirp mass `(m1 m2)^(3/5) / (m1 + m2)^(1/5)`, the symmetric mass ratio `m1 m2 / (m1 + m2)²`, the reduced mass
`m1 m2 / (m1 + m2)`, the relative mass difference, and the mass-weighted mean and difference of the aligned spins. -/
theorem C14_formulas (m1 m2 a b : ℝ) (h1 : 0 < m1) (h2 : 0 < m2) :
    chirpMass (fin m1) (fin m2) = fin ((m1 * m2) ^ (3 / 5 : ℝ) / (m1 + m2) ^ (1 / 5 : ℝ)) ∧ symmetricMassRatio (fin m1) (fin m2) = fin (m1 * m2 / (m1 + m2) ^ 2) ∧
    reducedMass (fin m1) (fin m2) = fin (m1 * m2 / (m1 + m2)) ∧ totalMass (fin m1) (fin m2) = fin (m1 + m2) ∧ deltaM (fin m1) (fin m2) = fin ((m1 - m2) / (m1 + m2)) ∧
    chiEff (fin m1) (fin m2) (fin a) (fin b) = fin ((m1 * a + m2 * b) / (m1 + m2)) ∧ chiMinus (fin m1) (fin m2) (fin a) (fin b) = fin ((m1 * a - m2 * b) / (m1 + m2)) := by
  have hM : m1 + m2 ≠ 0 := by positivity
  have he : eqc (fin (m1 + m2)) 0 = false := by simp [eqc, hM]
  refine ⟨?_, symmetricMassRatio_fin h1 h2, ?_, rfl, ?_, ?_, ?_⟩
  · rw [chirpMass_fin h1 h2, Real.rpow_neg (by positivity)]
    norm_num [div_eq_mul_inv]
  all_goals
    simp only [reducedMass, deltaM, chiEff, chiMinus, totalMass, m1TimesM2, mul_fin_fin, add_fin_fin, sub_fin_fin, he, select]
    simp [div_fin_of_ne _ hM]

/-- **C14 (guards).**  `m1 = 0`, `q = 0`, `z = -1` and a zero total mass give `inf`. -/
theorem C14_guards (x y z : XR) :
    massRatio (fin 0) x = pinf ∧ m2QToM1 x (fin 0) = pinf ∧ mDetZToMSource x (fin (-1)) = pinf ∧
    (∀ a : ℝ, deltaM (fin a) (fin (-a)) = pinf ∧ reducedMass (fin a) (fin (-a)) = pinf ∧
      chiEff (fin a) (fin (-a)) y z = pinf ∧ chiMinus (fin a) (fin (-a)) y z = pinf) := by
  refine ⟨by simp [massRatio], by simp [m2QToM1], by simp [mDetZToMSource], ?_⟩
  intro a
  simp [deltaM, reducedMass, chiEff, chiMinus, totalMass]

/-- GW150914-like masses meet the hypotheses. -/
example : ∃ Mc eta : ℝ, chirpMass (fin 36) (fin 29) = fin Mc ∧ symmetricMassRatio (fin 36) (fin 29) = fin eta ∧
    0 < Mc ∧ 0 < eta ∧ eta ≤ 1 / 4 ∧ mcEtaToM1M2 (fin Mc) (fin eta) = (fin 36, fin 29) :=
  C14_chirp_roundtrip 36 29 (by norm_num) (by norm_num)

/-! ## C15: spins -/

theorem chiEff_fin {m1 m2 : ℝ} (h : m1 + m2 ≠ 0) (a b : ℝ) :
    chiEff (fin m1) (fin m2) (fin a) (fin b) = fin ((m1 * a + m2 * b) / (m1 + m2)) := by
  simp [chiEff, totalMass, h]

theorem chiMinus_fin {m1 m2 : ℝ} (h : m1 + m2 ≠ 0) (a b : ℝ) :
    chiMinus (fin m1) (fin m2) (fin a) (fin b) = fin ((m1 * a - m2 * b) / (m1 + m2)) := by
  simp [chiMinus, totalMass, h]

/-- **C15.**  `(chi1z, chi2z) → (chi_eff, chi_minus) → (chi1z, chi2z)` is the identity for positive masses. -/
theorem C15_chi_roundtrip (m1 m2 a b : ℝ) (h1 : 0 < m1) (h2 : 0 < m2) :
    chiEffChiMinusToChiz (fin m1) (fin m2) (chiEff (fin m1) (fin m2) (fin a) (fin b)) (chiMinus (fin m1) (fin m2) (fin a) (fin b)) =
      (fin a, fin b) := by
  have hM : m1 + m2 ≠ 0 := by positivity
  rw [chiEff_fin hM, chiMinus_fin hM]
  simp only [chiEffChiMinusToChiz, totalMass, add_fin_fin, sub_fin_fin, mul_fin_fin, div_fin_of_ne _ h1.ne', div_fin_of_ne _ h2.ne']
  congr 2 <;> field_simp <;> ring

/-- **C15.**  `(chi_eff, chi_minus) → (chi1z, chi2z) → (chi_eff, chi_minus)` is the identity for positive masses. -/
theorem C15_chi_roundtrip_inv (m1 m2 e d : ℝ) (h1 : 0 < m1) (h2 : 0 < m2) :
    chiEff (fin m1) (fin m2) (chiEffChiMinusToChiz (fin m1) (fin m2) (fin e) (fin d)).1
      (chiEffChiMinusToChiz (fin m1) (fin m2) (fin e) (fin d)).2 = fin e ∧
    chiMinus (fin m1) (fin m2) (chiEffChiMinusToChiz (fin m1) (fin m2) (fin e) (fin d)).1
      (chiEffChiMinusToChiz (fin m1) (fin m2) (fin e) (fin d)).2 = fin d := by
  have hM : m1 + m2 ≠ 0 := by positivity
  simp only [chiEffChiMinusToChiz, totalMass, add_fin_fin, sub_fin_fin, mul_fin_fin, div_fin_of_ne _ h1.ne', div_fin_of_ne _ h2.ne']
  rw [chiEff_fin hM, chiMinus_fin hM]
  constructor <;> congr 1 <;> field_simp <;> ring

/-- **C15.**  `|chi_eff| ≤ 1` and `|chi_minus| ≤ 1` when both aligned spins are at most one in absolute value. -/
theorem C15_chi_bounds (m1 m2 a b : ℝ) (h1 : 0 < m1) (h2 : 0 < m2) (ha : |a| ≤ 1) (hb : |b| ≤ 1) :
    ∃ e d : ℝ, chiEff (fin m1) (fin m2) (fin a) (fin b) = fin e ∧ chiMinus (fin m1) (fin m2) (fin a) (fin b) = fin d ∧
      |e| ≤ 1 ∧ |d| ≤ 1 := by
  have hM : 0 < m1 + m2 := by positivity
  refine ⟨_, _, chiEff_fin hM.ne' a b, chiMinus_fin hM.ne' a b, ?_, ?_⟩ <;>
    rw [abs_div, abs_of_pos hM, div_le_one hM, abs_le] <;> rw [abs_le] at ha hb <;> constructor <;> nlinarith

/-- **C15.**  The forms taking magnitudes and tilts: bounded by one for magnitudes in `[0, 1]` and cosines in `[-1, 1]`. -/
theorem C15_chi_bounds_tilts (m1 m2 a b c1 c2 : ℝ) (h1 : 0 < m1) (h2 : 0 < m2) (ha : 0 ≤ a) (ha1 : a ≤ 1) (hb : 0 ≤ b) (hb1 : b ≤ 1)
    (hc1 : |c1| ≤ 1) (hc2 : |c2| ≤ 1) :
    ∃ e d : ℝ, chiEffFromTilts (fin m1) (fin m2) (fin a) (fin b) (fin c1) (fin c2) = fin e ∧
      chiMinusFromTilts (fin m1) (fin m2) (fin a) (fin b) (fin c1) (fin c2) = fin d ∧ |e| ≤ 1 ∧ |d| ≤ 1 := by
  have f : ∀ x c : ℝ, 0 ≤ x → x ≤ 1 → |c| ≤ 1 → |x * c| ≤ 1 := by
    intro x c h0 h1 hc
    rw [abs_mul, abs_of_nonneg h0]
    nlinarith [abs_nonneg c]
  exact C15_chi_bounds m1 m2 (a * c1) (b * c2) h1 h2 (f a c1 ha ha1 hc1) (f b c2 hb hb1 hc2)

theorem sinTilt_fin {c : ℝ} (h : |c| ≤ 1) :
    ∃ s : ℝ, sinTilt (fin c) = fin s ∧ 0 ≤ s ∧ s ≤ 1 ∧ s * s + c * c = 1 := by
  have hc : (0 : ℝ) ≤ 1 - c * c := by nlinarith [abs_mul_abs_self c, abs_nonneg c]
  refine ⟨Real.sqrt (1 - c * c), by simp [sinTilt, hc], Real.sqrt_nonneg _, ?_, ?_⟩
  · rw [Real.sqrt_le_iff]; refine ⟨by norm_num, ?_⟩
    nlinarith [mul_self_nonneg c]
  · rw [Real.mul_self_sqrt hc]
    ring

/-- **C15.**  `0 ≤ chi_p ≤ 1` for magnitudes in `[0, 1]`, cosines in `[-1, 1]` and `q` in `[0, 1]`; and it is the maximum of the two in-plane
spins, the second weighted by `q (3 + 4q)/(4 + 3q)`. -/
theorem C15_chi_p (a1 c1 a2 c2 q : ℝ) (ha1 : 0 ≤ a1) (ha1' : a1 ≤ 1) (ha2 : 0 ≤ a2) (ha2' : a2 ≤ 1) (hc1 : |c1| ≤ 1) (hc2 : |c2| ≤ 1)
    (hq : 0 ≤ q) (hq1 : q ≤ 1) :
    ∃ p : ℝ, chiP (fin a1) (fin c1) (fin a2) (fin c2) (fin q) = fin p ∧ 0 ≤ p ∧ p ≤ 1 ∧
      p = Max.max (a1 * Real.sqrt (1 - c1 * c1)) ((3 + 4 * q) / (4 + 3 * q) * q * (a2 * Real.sqrt (1 - c2 * c2))) := by
  obtain ⟨s1, e1, s1n, s1l, _⟩ := sinTilt_fin hc1
  obtain ⟨s2, e2, s2n, s2l, _⟩ := sinTilt_fin hc2
  have hc1' : (0 : ℝ) ≤ 1 - c1 * c1 := by nlinarith [abs_mul_abs_self c1, abs_nonneg c1]
  have hc2' : (0 : ℝ) ≤ 1 - c2 * c2 := by nlinarith [abs_mul_abs_self c2, abs_nonneg c2]
  have r1 : s1 = Real.sqrt (1 - c1 * c1) := by
    have : sinTilt (fin c1) = fin (Real.sqrt (1 - c1 * c1)) := by simp [sinTilt, hc1']
    rw [this] at e1
    cases e1
    rfl
  have r2 : s2 = Real.sqrt (1 - c2 * c2) := by
    have : sinTilt (fin c2) = fin (Real.sqrt (1 - c2 * c2)) := by simp [sinTilt, hc2']
    rw [this] at e2
    cases e2
    rfl
  have hden : 0 < 4 + 3 * q := by linarith
  have hw : 0 ≤ (3 + 4 * q) / (4 + 3 * q) * q := by positivity
  have hw1 : (3 + 4 * q) / (4 + 3 * q) * q ≤ 1 := by
    rw [div_mul_eq_mul_div, div_le_one hden]
    nlinarith
  refine ⟨Max.max (a1 * s1) ((3 + 4 * q) / (4 + 3 * q) * q * (a2 * s2)), ?_, ?_, ?_, by rw [r1, r2]⟩
  · simp only [chiP, e1, e2, mul_fin_fin, add_fin_fin, div_fin_of_ne _ hden.ne', max_fin_fin]
    congr 2
    ring
  · exact le_max_of_le_left (by positivity)
  · apply max_le
    · nlinarith
    · have : 0 ≤ a2 * s2 := by positivity
      have : a2 * s2 ≤ 1 := by nlinarith
      nlinarith

/-- **C15.**  Cartesian to polar and back is the identity, the radius is the norm and is preserved. -/
theorem C15_polar (x y r θ : ℝ) :
    (∃ r' θ' : ℝ, cartToPolar (fin x) (fin y) = (fin r', fin θ') ∧ 0 ≤ r' ∧ r' ^ 2 = x ^ 2 + y ^ 2 ∧
      polarToCart (fin r') (fin θ') = (fin x, fin y)) ∧
    (0 < r → -Real.pi < θ → θ ≤ Real.pi → ∃ x' y' : ℝ, polarToCart (fin r) (fin θ) = (fin x', fin y') ∧ x' ^ 2 + y' ^ 2 = r ^ 2 ∧
      cartToPolar (fin x') (fin y') = (fin r, fin θ)) := by
  constructor
  · have hn : 0 ≤ x * x + y * y := add_nonneg (mul_self_nonneg x) (mul_self_nonneg y)
    have habs : ‖(⟨x, y⟩ : ℂ)‖ = Real.sqrt (x * x + y * y) := by
      rw [Complex.norm_def, Complex.normSq_mk]
    refine ⟨Real.sqrt (x * x + y * y), Complex.arg ⟨x, y⟩, by simp [cartToPolar, hn], Real.sqrt_nonneg _, ?_, ?_⟩
    · rw [Real.sq_sqrt hn]; ring
    · simp only [polarToCart, cos_fin, sin_fin, mul_fin_fin]
      rw [← habs, Complex.norm_mul_cos_arg, Complex.norm_mul_sin_arg]
  · intro hr h1 h2
    refine ⟨r * Real.cos θ, r * Real.sin θ, rfl, by nlinarith [Real.sin_sq_add_cos_sq θ], ?_⟩
    have e : r * Real.cos θ * (r * Real.cos θ) + r * Real.sin θ * (r * Real.sin θ) = r ^ 2 := by nlinarith [Real.sin_sq_add_cos_sq θ]
    simp only [cartToPolar, mul_fin_fin, add_fin_fin, e, arctan2_fin]
    rw [sqrt_fin (by positivity), Real.sqrt_sq hr.le]
    have : (⟨r * Real.cos θ, r * Real.sin θ⟩ : ℂ) = r * (Complex.cos θ + Complex.sin θ * Complex.I) := by
      apply Complex.ext <;> simp [Complex.cos_ofReal_re, Complex.sin_ofReal_re]
    rw [this, Complex.arg_mul_cos_add_sin_mul_I hr ⟨h1, h2⟩]

/-- **C15.**  Cartesian to spherical and back is the identity away from the origin, and the radius is the norm. -/
theorem C15_spherical (x y z : ℝ) (h : 0 < x ^ 2 + y ^ 2 + z ^ 2) :
    ∃ r θ φ : ℝ, cartToSpherical (fin x) (fin y) (fin z) = (fin r, fin θ, fin φ) ∧ 0 < r ∧ r ^ 2 = x ^ 2 + y ^ 2 + z ^ 2 ∧
      sphericalToCart (fin r) (fin θ) (fin φ) = (fin x, fin y, fin z) := by
  have h' : 0 < x * x + y * y + z * z := by nlinarith
  set r := Real.sqrt (x * x + y * y + z * z) with hr
  have hrpos : 0 < r := Real.sqrt_pos.2 h'
  have hrsq : r * r = x * x + y * y + z * z := Real.mul_self_sqrt h'.le
  have hz : |z / r| ≤ 1 := by
    rw [abs_div, abs_of_pos hrpos, div_le_one hrpos]
    apply Real.abs_le_sqrt
    nlinarith
  rw [abs_le] at hz
  refine ⟨r, Real.arccos (z / r), Complex.arg ⟨x, y⟩, ?_, hrpos, by nlinarith, ?_⟩
  · simp only [cartToSpherical, mul_fin_fin, add_fin_fin]
    rw [sqrt_fin h'.le, ← hr]
    simp only [eqc_fin_of_ne hrpos.ne', select_false, div_fin_of_ne _ hrpos.ne', arctan2_fin]
    rw [arccos_fin hz.1 hz.2]
  · simp only [sphericalToCart, cos_fin, sin_fin, mul_fin_fin]
    have hcos : Real.cos (Real.arccos (z / r)) = z / r := Real.cos_arccos hz.1 hz.2
    have hsin : r * Real.sin (Real.arccos (z / r)) = ‖(⟨x, y⟩ : ℂ)‖ := by
      rw [Real.sin_arccos, Complex.norm_def, Complex.normSq_mk]
      rw [show x * x + y * y = r ^ 2 * (1 - (z / r) ^ 2) by field_simp; nlinarith]
      rw [Real.sqrt_mul (by positivity), Real.sqrt_sq hrpos.le]
    rw [hsin, hcos, Complex.norm_mul_cos_arg, Complex.norm_mul_sin_arg]
    congr 3
    field_simp

/-- **C15 (origin).**  At the origin the polar angle is NaN, so the round trip fails there: the x coordinate comes back as NaN. -/
theorem C15_spherical_origin_violated :
    (cartToSpherical (fin 0) (fin 0) (fin 0)).2.1 = nan ∧
    (sphericalToCart (cartToSpherical (fin 0) (fin 0) (fin 0)).1 (cartToSpherical (fin 0) (fin 0) (fin 0)).2.1
      (cartToSpherical (fin 0) (fin 0) (fin 0)).2.2).1 = nan := by
  have : (cartToSpherical (fin 0) (fin 0) (fin 0)).2.1 = nan := by
    simp [cartToSpherical, arccos]
  refine ⟨this, ?_⟩
  simp only [sphericalToCart, this]
  simp [XR.sin]

/-- Spherical to Cartesian and back, for `r > 0`, `0 < θ < π` and `-π < φ ≤ π`. -/
theorem C15_spherical_inv (r θ φ : ℝ) (hr : 0 < r) (h1 : 0 < θ) (h2 : θ < Real.pi) (h3 : -Real.pi < φ) (h4 : φ ≤ Real.pi) :
    ∃ x y z : ℝ, sphericalToCart (fin r) (fin θ) (fin φ) = (fin x, fin y, fin z) ∧ x ^ 2 + y ^ 2 + z ^ 2 = r ^ 2 ∧
      cartToSpherical (fin x) (fin y) (fin z) = (fin r, fin θ, fin φ) := by
  have hs := Real.sin_pos_of_pos_of_lt_pi h1 h2
  have hnorm : (r * Real.sin θ * Real.cos φ) ^ 2 + (r * Real.sin θ * Real.sin φ) ^ 2 + (r * Real.cos θ) ^ 2 = r ^ 2 := by
    have a := Real.sin_sq_add_cos_sq θ
    have b := Real.sin_sq_add_cos_sq φ
    have c : Real.cos φ ^ 2 = 1 - Real.sin φ ^ 2 := by linarith
    have d : Real.cos θ ^ 2 = 1 - Real.sin θ ^ 2 := by linarith
    calc _ = r ^ 2 * (Real.sin θ ^ 2 * (Real.cos φ ^ 2 + Real.sin φ ^ 2) + Real.cos θ ^ 2) := by ring
      _ = r ^ 2 := by rw [c, d]; ring
  refine ⟨r * Real.sin θ * Real.cos φ, r * Real.sin θ * Real.sin φ, r * Real.cos θ, rfl, hnorm, ?_⟩
  have e : r * Real.sin θ * Real.cos φ * (r * Real.sin θ * Real.cos φ) + r * Real.sin θ * Real.sin φ * (r * Real.sin θ * Real.sin φ) +
      r * Real.cos θ * (r * Real.cos θ) = r ^ 2 := by rw [← hnorm]; ring
  simp only [cartToSpherical, mul_fin_fin, add_fin_fin, e]
  rw [sqrt_fin (by positivity), Real.sqrt_sq hr.le]
  simp only [eqc_fin_of_ne hr.ne', select_false, div_fin_of_ne _ hr.ne', arctan2_fin]
  rw [mul_div_cancel_left₀ _ hr.ne', arccos_fin (Real.neg_one_le_cos _) (Real.cos_le_one _), Real.arccos_cos h1.le h2.le]
  have : (⟨r * Real.sin θ * Real.cos φ, r * Real.sin θ * Real.sin φ⟩ : ℂ) =
      ((r * Real.sin θ : ℝ) : ℂ) * (Complex.cos φ + Complex.sin φ * Complex.I) := by
    apply Complex.ext <;> simp [← Complex.ofReal_sin, ← Complex.ofReal_cos]
  rw [this, Complex.arg_mul_cos_add_sin_mul_I (by positivity) ⟨h3, h4⟩]

example : ∃ p : ℝ, chiP (fin (1 / 2)) (fin (3 / 10)) (fin (7 / 10)) (fin (-1 / 2)) (fin (8 / 10)) = fin p ∧ 0 ≤ p ∧ p ≤ 1 := by
  obtain ⟨p, h, h0, h1, _⟩ := C15_chi_p (1 / 2) (3 / 10) (7 / 10) (-1 / 2) (8 / 10) (by norm_num) (by norm_num) (by norm_num) (by norm_num)
    (by norm_num [abs_le]) (by norm_num [abs_le]) (by norm_num) (by norm_num)
  exact ⟨p, h, h0, h1⟩

end GW.Conv
