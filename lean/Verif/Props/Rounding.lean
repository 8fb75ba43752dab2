import Verif.Lemmas.RoundedFormulas

/-!
# C107: what rounding can and cannot do to the documented ranges

All theorems hold for every binary format with at least three bits and every rounding to nearest (`Nearest`), in particular for single and double
precision.
-/

namespace GW.Rounding
open GW XR

variable {f : Format} {fl : ℝ → XR}

/-- Single and double precision are usable formats and have a rounding to nearest, so the theorems below are about something. -/
theorem C107_formats : single.Usable ∧ double.Usable ∧ (∃ fl, Nearest single fl) ∧ (∃ fl, Nearest double fl) := by
  have h1 : single.Usable := ⟨by decide, by decide, by decide⟩
  have h2 : double.Usable := ⟨by decide, by decide, by decide⟩
  exact ⟨h1, h2, exists_nearest h1, exists_nearest h2⟩

/-- Numbers like 34.1, 0.7 and 1 of the examples below. -/
theorem mem_single (n k : ℤ) (h : |n| < 2 ^ 24) (h1 : -149 ≤ k) (h2 : k ≤ 104) : single.Mem (n * (2 : ℝ) ^ k) := ⟨n, k, h, h1, h2, rfl⟩

/-- If nothing is rounded, the formulas are those of the exact model. -/
theorem C107_exact (a b c d e : XR) (q alpha low high : ℝ) :
    symmetricMassRatio fin a b = Conv.symmetricMassRatio a b ∧ etaToDeltaM fin a = Conv.etaToDeltaM a ∧ massRatio fin a b = Conv.massRatio a b ∧
    deltaM fin a b = Conv.deltaM a b ∧ mDetZToMSource fin a b = Conv.mDetZToMSource a b ∧ mSourceZToMDet fin a b = Conv.mSourceZToMDet a b ∧
    m1QToM2 fin a b = Conv.m1QToM2 a b ∧ chiCostiltToChiz fin a b = Conv.chiCostiltToChiz a b ∧
    chiMinus fin a b c d = Conv.chiMinus a b c d ∧ chiEff fin a b c d = Conv.chiEff a b c d ∧ mcEtaToM1M2 fin a b = Conv.mcEtaToM1M2 a b ∧
    sinTilt fin a = Conv.sinTilt a ∧ chiP fin a b c d e = Conv.chiP a b c d e ∧ logPlanck fin a = Num.logPlanck a ∧
    logsubexp fin a b = Num.logsubexp a b ∧ truncnormLogpdf fin a q alpha b c = Num.truncnormLogpdf a q alpha b c ∧
    icdf fin q alpha low high = PowerLaw.icdf q alpha low high := by
  have hr : ∀ x : XR, rd fin x = x := fun x => by cases x <;> rfl
  have hp : ∀ (x : XR) (y : ℝ), power fin x (fin y) = XR.pow x y := fun x y => hr _
  have ht : truncnormLogpdf fin a q alpha b c = Num.truncnormLogpdf a q alpha b c := by
    unfold truncnormLogpdf logsubexp sub div mul add
    rw [show rd fin = id from funext hr]
    rfl
  refine ⟨?_, ?_, ?_, ?_, ?_, ?_, ?_, ?_, ?_, ?_, ?_, ?_, ?_, ?_, ?_, ht, ?_⟩ <;>
    simp only [symmetricMassRatio, etaToDeltaM, massRatio, deltaM, mDetZToMSource, mSourceZToMDet, m1QToM2, chiCostiltToChiz, chiMinus, chiEff,
      mcEtaToM1M2, sinTilt, chiP, logPlanck, logsubexp, icdf, softplus, totalMass, m1TimesM2, add, sub, mul, div, hr, hp,
      Conv.symmetricMassRatio, Conv.etaToDeltaM, Conv.massRatio, Conv.deltaM, Conv.mDetZToMSource, Conv.mSourceZToMDet, Conv.m1QToM2,
      Conv.chiCostiltToChiz, Conv.chiMinus, Conv.chiEff, Conv.mcEtaToM1M2, Conv.sinTilt, Conv.chiP, Num.logPlanck, Num.logsubexp,
      PowerLaw.icdf, PowerLaw.icdfX, Conv.totalMass, Conv.m1TimesM2, XR.softplus, XR.logaddexp, XR.square]
  rw [show (fin 1 + fin (PowerLaw.safeAlpha alpha) : XR) = fin (1 + PowerLaw.safeAlpha alpha) from rfl]
  simp only [hp]
  by_cases h : alpha = -1
  · simp [PowerLaw.mask, h, select]
  · have h1 : 1 + PowerLaw.safeAlpha alpha ≠ 0 := by
      simp only [PowerLaw.safeAlpha, ne_eq, h, not_false_eq_true, if_true]
      intro h2; apply h; linarith
    rw [div_fin _ _ h1, hp]

/-- The smoothing window never becomes NaN or exceeds 1, is exactly 0 up to its lower edge and exactly 1 from its upper edge on, is at most
`exp(-1/4)` in its lower half and at least `exp(-1)` in its upper half. -/
theorem C107_window (hf : f.Usable) (h : Nearest f fl) {x : ℝ} (hx : f.Mem x) :
    logPlanck fl (fin x) ≠ nan ∧ le (logPlanck fl (fin x)) (fin 0) ∧ (x ≤ 0 → logPlanck fl (fin x) = ninf) ∧
      (1 ≤ x → logPlanck fl (fin x) = fin 0) ∧ (x ≤ 1 / 2 → le (logPlanck fl (fin x)) (fin (-(1 / 4)))) ∧
      (1 / 2 ≤ x → le (fin (-1)) (logPlanck fl (fin x))) := by
  classical
  have hle : ∀ {y : XR}, le y (fin 0) → y ≠ nan := by
    rintro y hy rfl
    exact hy
  rcases le_or_gt x 0 with h0 | h0
  · have e : logPlanck fl (fin x) = ninf := by
      have : le (fin x) (fin 0) := h0
      simp only [logPlanck, this, decide_true, select, if_true]
    rw [e]
    exact ⟨by simp, trivial, fun _ => rfl, fun h1 => absurd h1 (by linarith), fun _ => trivial, fun h1 => absurd h1 (by linarith)⟩
  rcases le_or_gt 1 x with h1 | h1
  · have e : logPlanck fl (fin x) = fin 0 := by
      have l0 : ¬ (le (fin x) (fin 0)) := by show ¬ (x ≤ 0); linarith
      have l1 : ¬ (lt (fin x) (fin 1)) := by show ¬ (x < 1); linarith
      simp only [logPlanck, l0, l1, decide_false, select, Bool.false_eq_true, if_false]
    rw [e]
    exact ⟨by simp, le_refl (0 : ℝ), fun h2 => absurd h2 (by linarith), fun _ => rfl, fun h2 => absurd h2 (by linarith),
      fun _ => show (-1 : ℝ) ≤ 0 by norm_num⟩
  obtain ⟨a, b, c⟩ := logPlanck_inside hf h hx h0 h1
  exact ⟨hle a, a, fun h2 => absurd h2 (by linarith), fun h2 => absurd h2 (by linarith), b, c⟩

/-- Concrete case: the smallest positive single-precision number, where `1/x` overflows. -/
example : single.Mem (1 * (2 : ℝ) ^ (-149 : ℤ)) := by exact_mod_cast mem_single 1 (-149) (by norm_num) (by norm_num) (by norm_num)

/-- The effective spin and the spin difference of spin components between -1 and 1 lie between -1 and 1, if the total mass does not overflow. -/
theorem C107_spins (hf : f.Usable) (h : Nearest f fl) {m1 m2 c1 c2 : ℝ} (hm1 : f.Mem m1) (hm2 : f.Mem m2) (h1 : 0 ≤ m1) (h2 : 0 ≤ m2)
    (hpos : 0 < m1 + m2) (hover : m1 + m2 < f.limit) (hc1 : |c1| ≤ 1) (hc2 : |c2| ≤ 1) :
    (∃ y, chiEff fl (fin m1) (fin m2) (fin c1) (fin c2) = fin y ∧ |y| ≤ 1) ∧
      (∃ y, chiMinus fl (fin m1) (fin m2) (fin c1) (fin c2) = fin y ∧ |y| ≤ 1) := by
  obtain ⟨a, ha, ha1⟩ := mul_abs_le h hm1 h1 hc1
  obtain ⟨b, hb, hb1⟩ := mul_abs_le h hm2 h2 hc2
  constructor
  · obtain ⟨M, d, y, hM, hM0, hd, hy, hy1⟩ := weighted hf h hm1 hm2 h1 h2 hpos hover ha1 hb1
    refine ⟨y, ?_, hy1⟩
    simp only [chiEff, totalMass, add_def, mul_def, ha, hb, hd, hM, select, eqc, hM0.ne', decide_false, Bool.false_eq_true, if_false]
    rw [div_def _ _ hM0.ne', hy]
  · obtain ⟨M, d, y, hM, hM0, hd, hy, hy1⟩ := weighted hf h (b := -b) hm1 hm2 h1 h2 hpos hover ha1 (by rwa [abs_neg])
    refine ⟨y, ?_, hy1⟩
    rw [← sub_eq_add_neg] at hd
    simp only [chiMinus, totalMass, add_def, sub_def, mul_def, ha, hb, hd, hM, select, eqc, hM0.ne', decide_false, Bool.false_eq_true, if_false]
    rw [div_def _ _ hM0.ne', hy]

/-- Concrete case: masses 34.1 and 1 in single precision, spins 0.9 and -1. -/
example : single.Mem (8939110 * (2 : ℝ) ^ (-18 : ℤ)) ∧ single.Mem 1 ∧ (8939110 : ℝ) * (2 : ℝ) ^ (-18 : ℤ) + 1 < single.limit := by
  refine ⟨by exact_mod_cast mem_single 8939110 (-18) (by norm_num) (by norm_num) (by norm_num), mem_one C107_formats.1, ?_⟩
  simp only [Format.limit, single]
  norm_num

/-- The precession spin of spins, mass ratio and tilt cosines in their ranges lies between 0 and 1. -/
theorem C107_chi_p (hf : f.Usable) (h : Nearest f fl) {a1 c1 a2 c2 q : ℝ} (hq : f.Mem q) (h1 : 0 ≤ a1) (h1' : a1 ≤ 1) (h2 : 0 ≤ a2) (h2' : a2 ≤ 1)
    (hc1 : |c1| ≤ 1) (hc2 : |c2| ≤ 1) (hq0 : 0 ≤ q) (hq1 : q ≤ 1) :
    ∃ y, chiP fl (fin a1) (fin c1) (fin a2) (fin c2) (fin q) = fin y ∧ 0 ≤ y ∧ y ≤ 1 := by
  have z := mem_zero hf
  have o := mem_one hf
  have m3 : f.Mem 3 := by simpa using mem_int hf 3 (by norm_num)
  have m4 : f.Mem 4 := by simpa using mem_int hf 4 (by norm_num)
  have m7 : f.Mem 7 := by simpa using mem_int hf 7 (by norm_num)
  have unit : ∀ {x y : ℝ}, 0 ≤ x → x ≤ 1 → 0 ≤ y → y ≤ 1 → ∃ w, fl (x * y) = fin w ∧ 0 ≤ w ∧ w ≤ 1 := by
    intro x y a b c d
    obtain ⟨w, hw, _, w0, w1⟩ := h.between z o (mul_nonneg a c) (mul_le_one₀ b c d)
    exact ⟨w, hw, w0, w1⟩
  obtain ⟨s1, hs1, _, s10, s11⟩ := sinTilt_mem hf h hc1
  obtain ⟨s2, hs2, _, s20, s21⟩ := sinTilt_mem hf h hc2
  have e4 : fl (4 * q) = fin (4 * q) := h.exact (mem_four_mul hf hq hq0 hq1)
  obtain ⟨t, ht, _, t0, t3⟩ := h.between z m3 (show 0 ≤ 3 * q by linarith) (by linarith)
  have key : 3 + 4 * q ≤ 4 + t := by
    rcases le_or_gt q (1 / 4) with h5 | h5
    · linarith
    · have := h.mono (show 4 * q - 1 ≤ 3 * q by linarith)
      rw [h.exact (mem_four_mul_sub_one hf hq h5.le hq1), ht] at this
      have : 4 * q - 1 ≤ t := this
      linarith
  obtain ⟨A, hA, _, A3, A7⟩ := h.between m3 m7 (show 3 ≤ 3 + 4 * q by linarith) (by linarith)
  obtain ⟨B, hB, _, B4, B7⟩ := h.between m4 m7 (show 4 ≤ 4 + t by linarith) (by linarith)
  have AB := h.mono key
  rw [hA, hB] at AB
  have AB : A ≤ B := AB
  obtain ⟨r, hr, _, r0, r1⟩ := h.between (x := A / B) z o (by positivity) (by rw [div_le_one (by linarith)]; exact AB)
  obtain ⟨u, hu, u0, u1⟩ := unit r0 r1 hq0 hq1
  obtain ⟨v, hv, v0, v1⟩ := unit u0 u1 h2 h2'
  obtain ⟨w, hw, w0, w1⟩ := unit v0 v1 s20 s21
  obtain ⟨x, hx, x0, x1⟩ := unit h1 h1' s10 s11
  refine ⟨Max.max x w, ?_, le_max_of_le_left x0, max_le x1 w1⟩
  rw [chiP, hs1, hs2, mul_def, hx, mul_def, e4, add_def, hA, mul_def, ht, add_def, hB, div_def _ _ (by linarith), hr, mul_def, hu, mul_def, hv,
    mul_def, hw]
  rfl

/-- Concrete case: `q = 0.7` in single precision. -/
example : single.Mem (11744051 * (2 : ℝ) ^ (-24 : ℤ)) ∧ (0 : ℝ) ≤ 11744051 * (2 : ℝ) ^ (-24 : ℤ) ∧ 11744051 * (2 : ℝ) ^ (-24 : ℤ) ≤ (1 : ℝ) := by
  refine ⟨by exact_mod_cast mem_single 11744051 (-24) (by norm_num) (by norm_num) (by norm_num), by positivity, by norm_num⟩

/-- Mass ratios of ordered masses lie between 0 and 1; the secondary mass computed from a mass ratio between 0 and 1 is not above the primary;
the mass difference lies between 0 and 1. -/
theorem C107_ratio (hf : f.Usable) (h : Nearest f fl) {m1 m2 q : ℝ} (hm1 : f.Mem m1) (hm2 : f.Mem m2) (h0 : 0 < m1) (h2 : 0 ≤ m2) (h12 : m2 ≤ m1)
    (hover : m1 + m2 < f.limit) (hq0 : 0 ≤ q) (hq1 : q ≤ 1) :
    (∃ y, massRatio fl (fin m1) (fin m2) = fin y ∧ 0 ≤ y ∧ y ≤ 1) ∧ (∃ y, m1QToM2 fl (fin m1) (fin q) = fin y ∧ 0 ≤ y ∧ y ≤ m1) ∧
      (∃ y, deltaM fl (fin m1) (fin m2) = fin y ∧ 0 ≤ y ∧ y ≤ 1) := by
  have z := mem_zero hf
  have o := mem_one hf
  refine ⟨?_, ?_, ?_⟩
  · obtain ⟨y, hy, _, y0, y1⟩ := h.between (x := m2 / m1) z o (by positivity) ((div_le_one h0).2 h12)
    refine ⟨y, ?_, y0, y1⟩
    simp only [massRatio, select, eqc, h0.ne', decide_false, Bool.false_eq_true, if_false]
    rw [div_def _ _ h0.ne', hy]
  · obtain ⟨y, hy, _, y0, y1⟩ := h.between (x := m1 * q) z hm1 (by positivity) (mul_le_of_le_one_right h0.le hq1)
    exact ⟨y, by rw [m1QToM2, mul_def, hy], y0, y1⟩
  · obtain ⟨M, d, y, hM, hM0, hd, hy, hy1⟩ := weighted hf h (a := m1) (b := -m2) hm1 hm2 h0.le h2 (by linarith) hover
      (by rw [abs_of_pos h0]) (by rw [abs_neg, abs_of_nonneg h2])
    rw [← sub_eq_add_neg] at hd
    have hd0 : 0 ≤ d := by
      have := h.mono (show 0 ≤ m1 - m2 by linarith)
      rw [h.exact z, hd] at this
      exact this
    have hy0 : 0 ≤ y := by
      have := h.mono (show 0 ≤ d / M by positivity)
      rw [h.exact z, hy] at this
      exact this
    refine ⟨y, ?_, hy0, (abs_le.1 hy1).2⟩
    simp only [deltaM, totalMass, add_def, sub_def, hd, hM, select, eqc, hM0.ne', decide_false, Bool.false_eq_true, if_false]
    rw [div_def _ _ hM0.ne', hy]

/-- Concrete case: masses 34.1 and 1, mass ratio 0.7. -/
example (h : Nearest single fl) :
    (∃ y, massRatio fl (fin (8939110 * (2 : ℝ) ^ (-18 : ℤ))) (fin 1) = fin y ∧ 0 ≤ y ∧ y ≤ 1) :=
  (C107_ratio (q := 7 / 10) C107_formats.1 h (by exact_mod_cast mem_single 8939110 (-18) (by norm_num) (by norm_num) (by norm_num))
    (mem_one C107_formats.1) (by norm_num) (by norm_num) (by norm_num) (by simp only [Format.limit, single]; norm_num) (by norm_num)
    (by norm_num)).1

/-- The order of the masses survives the conversion between source and detector frame, in both directions and for every redshift `z ≥ 0`. -/
theorem C107_frames (hf : f.Usable) (h : Nearest f fl) {m1 m2 z : ℝ} (h12 : m2 ≤ m1) (hz : 0 ≤ z) (hover : 1 + z < f.limit) :
    le (mSourceZToMDet fl (fin m2) (fin z)) (mSourceZToMDet fl (fin m1) (fin z)) ∧
      le (mDetZToMSource fl (fin m2) (fin z)) (mDetZToMSource fl (fin m1) (fin z)) := by
  obtain ⟨w, hw, hwm, _⟩ := h.inside (1 + z) (by rw [abs_of_pos (by linarith)]; exact hover)
  have hw1 : 1 ≤ w := by
    have := h.mono (show 1 ≤ 1 + z by linarith)
    rw [h.exact (mem_one hf), hw] at this
    exact this
  have hw0 : 0 < w := by linarith
  have hz1 : z ≠ -1 := by linarith
  constructor
  · simp only [mSourceZToMDet, add_def, hw, mul_def]
    exact h.mono (mul_le_mul_of_nonneg_right h12 hw0.le)
  · simp only [mDetZToMSource, select, eqc, hz1, decide_false, Bool.false_eq_true, if_false, add_def, hw]
    rw [div_def _ _ hw0.ne', div_def _ _ hw0.ne']
    exact h.mono (div_le_div_of_nonneg_right h12 hw0.le)

/-- Concrete case: masses 1 and 34 at redshift 1/3. -/
example (h : Nearest single fl) : le (mSourceZToMDet fl (fin 1) (fin (1 / 3))) (mSourceZToMDet fl (fin 34) (fin (1 / 3))) :=
  (C107_frames C107_formats.1 h (by norm_num) (by norm_num) (by simp only [Format.limit, single]; norm_num)).1

/-- Every point of the mass-ratio support is accepted by the rounded check: rounding never throws a valid point out. -/
theorem C107_sandwich (h : Nearest f fl) {mmin mmax m1 q : ℝ} (hmin : f.Mem mmin) (hm1 : f.Mem m1) (h0 : 0 < mmin) (ha : mmin ≤ m1 * q)
    (hb : m1 * q ≤ m1) (hc : m1 ≤ mmax) : massRatioSandwich fl mmin mmax (fin m1) (fin q) = true := by
  classical
  obtain ⟨y, hy, _, y0, y1⟩ := h.between hmin hm1 ha hb
  have l1 : le (fin mmin) (fin y) := y0
  have l2 : le (fin y) (fin m1) := y1
  have l3 : le (fin m1) (fin mmax) := hc
  simp [massRatioSandwich, Constraints.sandwichMask, hy, h0, l1, l2, l3]

/-- Concrete case: `mmin = 5`, `m1 = 6` and a mass ratio with `m1 q` barely above 5 that need not be representable. -/
example (h : Nearest single fl) : massRatioSandwich fl 5 100 (fin 6) (fin (5 / 6)) = true := by
  have u := C107_formats.1
  refine C107_sandwich h ?_ ?_ (by norm_num) (by norm_num) (by norm_num) (by norm_num)
  · simpa using mem_int u 5 (by norm_num)
  · simpa using mem_int u 6 (by norm_num)

/-- The heavier mass computed from chirp mass and symmetric mass ratio is at least the lighter one and neither is NaN or negative, even where rounding
has pushed `eta` above `1/4`, unless the heavier one overflows. -/
theorem C107_component_masses (hf : f.Usable) (h : Nearest f fl) {Mc eta m1 : ℝ} (heta : 0 < eta) (hMc : 0 ≤ Mc)
    (hfin : (mcEtaToM1M2 fl (fin Mc) (fin eta)).1 = fin m1) :
    ∃ m2, (mcEtaToM1M2 fl (fin Mc) (fin eta)).2 = fin m2 ∧ 0 ≤ m2 ∧ m2 ≤ m1 := by
  have z := mem_zero hf
  have o := mem_one hf
  have m2' : f.Mem 2 := by simpa using mem_int hf 2 (by norm_num)
  -- the square root
  obtain ⟨δ, hδ, δ0, δ1⟩ : ∃ δ, rd fl (sqrt (XR.max (sub fl (fin 1) (mul fl (fin 4) (fin eta))) (fin 0))) = fin δ ∧ 0 ≤ δ ∧ δ ≤ 1 := by
    have fin_case : ∀ d : ℝ, d ≤ 1 → ∃ δ, rd fl (sqrt (XR.max (fin d) (fin 0))) = fin δ ∧ 0 ≤ δ ∧ δ ≤ 1 := by
      intro d hd
      have e : sqrt (XR.max (fin d) (fin 0)) = fin (Real.sqrt (Max.max d 0)) := by
        show XR.sqrt (fin (Max.max d 0)) = _
        simp [XR.sqrt]
      obtain ⟨δ, hδ, _, a, b⟩ := h.between (x := Real.sqrt (Max.max d 0)) z o (Real.sqrt_nonneg _)
        (Real.sqrt_le_one.2 (max_le hd (by norm_num)))
      exact ⟨δ, by rw [e, rd_fin, hδ], a, b⟩
    rw [mul_def]
    rcases h.ge z (show 0 ≤ 4 * eta by linarith) with e | ⟨w, e, _, w0⟩
    · rw [e]
      have : sub fl (fin 1) pinf = ninf := rfl
      rw [this]
      have : XR.max ninf (fin 0) = XR.max (fin (0 : ℝ)) (fin 0) := by simp [XR.max]
      rw [this]
      exact fin_case 0 (by norm_num)
    · rw [e, sub_def]
      rcases h.le o (show 1 - w ≤ 1 by linarith) with e | ⟨v, e, _, v1⟩
      · rw [e]
        have : XR.max ninf (fin 0) = XR.max (fin (0 : ℝ)) (fin 0) := by simp [XR.max]
        rw [this]
        exact fin_case 0 (by norm_num)
      · rw [e]; exact fin_case v v1
  obtain ⟨a, ha, _, a0, a1⟩ := h.between z o (show 0 ≤ 1 - δ by linarith) (by linarith)
  obtain ⟨b, hb, _, b1, b2⟩ := h.between o m2' (show 1 ≤ 1 + δ by linarith) (by linarith)
  simp only [mcEtaToM1M2, hδ, sub_def, add_def, ha, hb] at hfin ⊢
  generalize hH : mul fl (mul fl (fin (1 / 2)) (fin Mc)) (power fl (fin eta) (fl (-(6 / 10)))) = H at hfin ⊢
  -- the common factor is finite and not negative
  have hHnn : ∀ x, H = fin x → 0 ≤ x := by
    intro x hx
    rw [hx, mul_def] at hH
    have c1 := h.ge z (show 0 ≤ 1 / 2 * Mc by linarith)
    have c2 : power fl (fin eta) (fl (-(6 / 10))) = nan ∨ power fl (fin eta) (fl (-(6 / 10))) = pinf ∨
        ∃ y, power fl (fin eta) (fl (-(6 / 10))) = fin y ∧ 0 ≤ y := by
      cases fl (-(6 / 10)) with
      | fin e =>
        simp only [power, XR.pow, heta, if_true, rd_fin]
        rcases h.ge z (show 0 ≤ eta ^ e by positivity) with e | ⟨y, e, _, y0⟩
        · exact Or.inr (Or.inl e)
        · exact Or.inr (Or.inr ⟨y, e, y0⟩)
      | pinf => exact Or.inl rfl
      | ninf => exact Or.inl rfl
      | nan => exact Or.inl rfl
    rcases c1 with c1 | ⟨u, c1, _, u0⟩ <;> rcases c2 with c2 | c2 | ⟨v, c2, v0⟩ <;> rw [c1, c2] at hH
    · cases hH
    · cases hH
    · have : mul fl pinf (fin v) = XR.mulInf v := by
        show rd fl (XR.mulInf v) = _
        unfold XR.mulInf
        split_ifs <;> rfl
      rw [this, XR.mulInf] at hH
      split_ifs at hH
    · cases hH
    · have : mul fl (fin u) pinf = XR.mulInf u := by
        show rd fl (XR.mulInf u) = _
        unfold XR.mulInf
        split_ifs <;> rfl
      rw [this, XR.mulInf] at hH
      split_ifs at hH
    · rw [mul_def] at hH
      have := h.mono (show 0 ≤ u * v by positivity)
      rw [h.exact z, hH] at this
      exact this
  have hb0 : 0 < b := by linarith
  cases H with
  | nan => cases hfin
  | pinf =>
    have : mul fl pinf (fin b) = pinf := by
      show rd fl (XR.mulInf b) = _
      simp [XR.mulInf, hb0, rd]
    rw [this] at hfin; cases hfin
  | ninf =>
    have : mul fl ninf (fin b) = ninf := by
      show rd fl (XR.neg (XR.mulInf b)) = _
      simp [XR.mulInf, hb0, rd, XR.neg]
    rw [this] at hfin; cases hfin
  | fin x =>
    have x0 := hHnn x rfl
    rw [mul_def] at hfin ⊢
    have l1 := h.mono (show 0 ≤ x * a by positivity)
    have l2 := h.mono (show x * a ≤ x * b by nlinarith)
    rw [h.exact z] at l1
    rw [hfin] at l2
    revert l1 l2
    cases fl (x * a) with
    | fin y => exact fun l1 l2 => ⟨y, rfl, l1, l2⟩
    | pinf => exact fun _ l2 => absurd l2 (by simp [le])
    | ninf => exact fun l1 _ => absurd l1 (by simp [le])
    | nan => exact fun l1 _ => absurd l1 (by simp [le])

/-- Concrete case: a vanishing chirp mass gives two masses 0, so the first is finite. -/
example (h : Nearest double fl) : ∃ m1, (mcEtaToM1M2 fl (fin 0) (fin (1 / 5))).1 = fin m1 := by
  obtain ⟨e, he, _, e0, e1⟩ := h.between (x := -(6 / 10)) (mem_one C107_formats.2.1).neg (mem_zero C107_formats.2.1) (by norm_num) (by norm_num)
  have m5 : double.Mem 5 := by simpa using mem_int C107_formats.2.1 5 (by norm_num)
  obtain ⟨p, hp, _, _, _⟩ := h.between (x := (1 / 5 : ℝ) ^ e) (mem_zero C107_formats.2.1) m5 (by positivity) (by
    have := Real.rpow_le_rpow_of_exponent_ge (show (0 : ℝ) < 1 / 5 by norm_num) (by norm_num) e0
    rw [Real.rpow_neg_one] at this
    exact this.trans (by norm_num))
  have z : fl 0 = fin 0 := h.exact (mem_zero C107_formats.2.1)
  have hh : mul fl (mul fl (fin (1 / 2)) (fin 0)) (power fl (fin (1 / 5)) (fl (-(6 / 10)))) = fin 0 := by
    rw [mul_def, mul_zero, z, he]
    simp only [power, XR.pow, show (0 : ℝ) < 1 / 5 by norm_num, if_true, rd_fin, hp, mul_def, zero_mul, z]
  obtain ⟨w, hw, _, w0, w1⟩ := h.between (x := 4 * (1 / 5)) (mem_zero C107_formats.2.1) (mem_one C107_formats.2.1) (by norm_num) (by norm_num)
  obtain ⟨v, hv, _, v0, v1⟩ := h.between (x := 1 - w) (mem_zero C107_formats.2.1) (mem_one C107_formats.2.1) (by linarith) (by linarith)
  obtain ⟨d, hd, _, d0, d1⟩ := h.between (x := Real.sqrt (Max.max v 0)) (mem_zero C107_formats.2.1) (mem_one C107_formats.2.1)
    (Real.sqrt_nonneg _) (Real.sqrt_le_one.2 (max_le v1 (by norm_num)))
  have m2 : double.Mem 2 := by simpa using mem_int C107_formats.2.1 2 (by norm_num)
  obtain ⟨b, hb, _, b0, b1⟩ := h.between (x := 1 + d) (mem_one C107_formats.2.1) m2 (by linarith) (by linarith)
  refine ⟨0, ?_⟩
  have hs : rd fl (sqrt (XR.max (fin v) (fin 0))) = fin d := by
    show rd fl (XR.sqrt (fin (Max.max v 0))) = _
    simp [XR.sqrt, rd, hd]
  simp only [mcEtaToM1M2, hh]
  rw [mul_def, hw, sub_def, hv, hs, add_def, hb, mul_def, zero_mul, z]

/-- The logarithm of a difference of exponentials is never NaN and never above the larger logarithm. -/
theorem C107_logsubexp (hf : f.Usable) (h : Nearest f fl) {a b : ℝ} (ha : f.Mem a) (hab : b ≤ a) :
    logsubexp fl (fin a) (fin b) ≠ nan ∧ le (logsubexp fl (fin a) (fin b)) (fin a) := by
  have z := mem_zero hf
  have o := mem_one hf
  obtain ⟨e, he, e0, e1⟩ : ∃ e, rd fl (XR.exp (fl (b - a))) = fin e ∧ 0 ≤ e ∧ e ≤ 1 := by
    rcases h.le z (show b - a ≤ 0 by linarith) with e | ⟨y, e, _, y0⟩
    · rw [e]
      exact ⟨0, by show fl 0 = _; exact h.exact z, le_rfl, by norm_num⟩
    · rw [e]
      obtain ⟨w, hw, _, w0, w1⟩ := h.between z o (Real.exp_pos y).le (Real.exp_le_one_iff.2 y0)
      exact ⟨w, hw, w0, w1⟩
  have hs : logsubexp fl (fin a) (fin b) = add fl (fin a) (rd fl (log1p (fin (-e)))) := by
    rw [logsubexp, sub_def, he]; rfl
  rw [hs]
  have hl : rd fl (log1p (fin (-e))) = ninf ∨ ∃ l, rd fl (log1p (fin (-e))) = fin l ∧ l ≤ 0 := by
    rcases eq_or_lt_of_le e1 with rfl | e2
    · left
      show rd fl (XR.log (fin (1 + -1))) = _
      simp [XR.log, rd]
    · rw [log1p_fin (by linarith), rd_fin]
      rcases h.le z (show Real.log (1 + -e) ≤ 0 from Real.log_nonpos (by linarith) (by linarith)) with q | ⟨y, q, _, y0⟩
      · exact Or.inl q
      · exact Or.inr ⟨y, q, y0⟩
  rcases hl with hl | ⟨l, hl, l0⟩
  · rw [hl]
    exact ⟨by simp [add, rd, HAdd.hAdd, Add.add, XR.add], trivial⟩
  · rw [hl, add_def]
    rcases h.le ha (show a + l ≤ a by linarith) with q | ⟨y, q, _, y0⟩
    · rw [q]; exact ⟨by simp, trivial⟩
    · rw [q]; exact ⟨by simp, y0⟩

/-- Concrete case: `log(e^3 - e^2)`. -/
example (h : Nearest single fl) : le (logsubexp fl (fin 3) (fin 2)) (fin 3) :=
  (C107_logsubexp C107_formats.1 h (by simpa using mem_int C107_formats.1 3 (by norm_num)) (by norm_num)).2

/-- Rounding changes the symmetric mass ratio by a few units in the last place at most: for masses between `2^-10` and `2^10` the result is within
the factors `(1 - u)^3 / (1 + u)^2` and `(1 + u)^3 / (1 - u)^2` of `m1 m2 / (m1 + m2)^2`, with `u = 2^-p`. -/
theorem C107_eta_accuracy (h : Nearest f fl) (hp : 3 ≤ f.p) (hmin : f.emin + f.p - 1 ≤ -60) (hmax : 60 ≤ f.emax) {m1 m2 : ℝ}
    (h1 : 1 / 1024 ≤ m1) (h1' : m1 ≤ 1024) (h2 : 1 / 1024 ≤ m2) (h2' : m2 ≤ 1024) :
    ∃ e, symmetricMassRatio fl (fin m1) (fin m2) = fin e ∧
      m1 * m2 / (m1 + m2) ^ 2 * ((1 - 1 / 2 ^ f.p) ^ 3 / (1 + 1 / 2 ^ f.p) ^ 2) ≤ e ∧
      e ≤ m1 * m2 / (m1 + m2) ^ 2 * ((1 + 1 / 2 ^ f.p) ^ 3 / (1 - 1 / 2 ^ f.p) ^ 2) := by
  have lo : (2 : ℝ) ^ (f.emin + f.p - 1) ≤ 1 / 2 ^ 60 := by
    have : (2 : ℝ) ^ (f.emin + f.p - 1) ≤ 2 ^ (-60 : ℤ) := zpow_le_zpow_right₀ (by norm_num) hmin
    refine this.trans (by norm_num)
  have hi : (2 : ℝ) ^ 60 ≤ (2 : ℝ) ^ f.emax := by
    have : (2 : ℝ) ^ (60 : ℤ) ≤ 2 ^ f.emax := zpow_le_zpow_right₀ (by norm_num) hmax
    refine le_trans (by norm_num) this
  set u : ℝ := 1 / 2 ^ f.p with hu
  have u0 : 0 < u := by positivity
  have u1 : u ≤ 1 / 8 := by
    rw [hu]
    have : (2 : ℝ) ^ 3 ≤ 2 ^ f.p := pow_le_pow_right₀ (by norm_num) hp
    exact one_div_le_one_div_of_le (by norm_num) (by linarith)
  have rel : ∀ x : ℝ, 1 / 2 ^ 60 ≤ x → x ≤ 2 ^ 60 → ∃ y, fl x = fin y ∧ x * (1 - u) ≤ y ∧ y ≤ x * (1 + u) ∧ x / 2 ≤ y ∧ y ≤ x * 2 := by
    intro x a b
    obtain ⟨y, hy, _, hd⟩ := h.rel (by omega) (lo.trans a) (b.trans hi)
    have : x / 2 ^ f.p = x * u := by rw [hu]; ring
    rw [this] at hd
    have x0 : 0 < x := lt_of_lt_of_le (by positivity) a
    have xu : x * u ≤ x * (1 / 8) := mul_le_mul_of_nonneg_left u1 x0.le
    obtain ⟨c, d⟩ := abs_le.1 hd
    exact ⟨y, hy, by linarith, by linarith, by linarith, by linarith⟩
  have p1 : 0 < m1 := by linarith
  have p2 : 0 < m2 := by linarith
  obtain ⟨M, hM, M1, M2, M3, M4⟩ := rel (m1 + m2) (le_trans (by norm_num) (show 1 / 1024 ≤ m1 + m2 by linarith))
    (le_trans (show m1 + m2 ≤ 2048 by linarith) (by norm_num))
  have Mlo : 1 / 1024 ≤ M := by linarith
  have Mhi : M ≤ 4096 := by linarith
  have M0 : 0 < M := by linarith
  have q1 : 1 / 1024 * (1 / 1024) ≤ m1 * m2 := mul_le_mul h1 h2 (by norm_num) p1.le
  have q2 : m1 * m2 ≤ 1024 * 1024 := mul_le_mul h1' h2' p2.le (by norm_num)
  obtain ⟨w, hw, w1, w2, w3, w4⟩ := rel (m1 * m2) (le_trans (by norm_num) q1) (q2.trans (by norm_num))
  have wlo : 1 / 2 ^ 21 ≤ w := le_trans (by linarith) w3
  have whi : w ≤ 2 ^ 21 := w4.trans (by linarith)
  have w0 : 0 < w := lt_of_lt_of_le (by positivity) wlo
  have ilo : 1 / 2 ^ 24 ≤ 1 / M ^ 2 := one_div_le_one_div_of_le (by positivity) ((pow_le_pow_left₀ M0.le Mhi 2).trans (by norm_num))
  have ihi : 1 / M ^ 2 ≤ 2 ^ 20 := (one_div_le_one_div_of_le (by norm_num) (pow_le_pow_left₀ (by norm_num) Mlo 2)).trans (by norm_num)
  obtain ⟨P, hP, P1, P2, P3, P4⟩ := rel (1 / M ^ 2) (le_trans (by norm_num) ilo) (ihi.trans (by norm_num))
  have i0 : 0 < 1 / M ^ 2 := by positivity
  have Plo : 1 / 2 ^ 25 ≤ P := le_trans (by linarith) P3
  have Phi : P ≤ 2 ^ 21 := P4.trans (by linarith)
  have P0 : 0 < P := lt_of_lt_of_le (by positivity) Plo
  obtain ⟨e, he, e1, e2, _, _⟩ := rel (w * P)
    (le_trans (by norm_num) (mul_le_mul wlo Plo (by positivity) w0.le)) ((mul_le_mul whi Phi P0.le (by positivity)).trans (by norm_num))
  have hpow : power fl (fin M) (fin (-2)) = fin P := by
    simp only [power, XR.pow, M0, if_true, rd_fin]
    rw [← hP]
    congr 1
    rw [Real.rpow_neg M0.le, one_div]
    norm_num
  have s0 : 0 < m1 + m2 := by linarith
  have v0 : 0 < 1 - u := by linarith
  refine ⟨e, ?_, ?_, ?_⟩
  · rw [symmetricMassRatio, totalMass, m1TimesM2, add_def, hM, mul_def, hw, hpow, mul_def, he]
  · -- lower bound
    have a1 : 1 / ((m1 + m2) ^ 2 * (1 + u) ^ 2) ≤ 1 / M ^ 2 := by
      apply one_div_le_one_div_of_le (by positivity)
      have : M ^ 2 ≤ ((m1 + m2) * (1 + u)) ^ 2 := pow_le_pow_left₀ M0.le M2 2
      rwa [mul_pow] at this
    have a2 : 1 / ((m1 + m2) ^ 2 * (1 + u) ^ 2) * (1 - u) ≤ P := le_trans (mul_le_mul_of_nonneg_right a1 v0.le) P1
    have a3 : (m1 * m2 * (1 - u)) * (1 / ((m1 + m2) ^ 2 * (1 + u) ^ 2) * (1 - u)) ≤ w * P := mul_le_mul w1 a2 (by positivity) w0.le
    have a4 := mul_le_mul_of_nonneg_right a3 v0.le
    refine le_trans (le_of_eq ?_) (a4.trans e1)
    field_simp
  · have a1 : 1 / M ^ 2 ≤ 1 / ((m1 + m2) ^ 2 * (1 - u) ^ 2) := by
      apply one_div_le_one_div_of_le (by positivity)
      have : ((m1 + m2) * (1 - u)) ^ 2 ≤ M ^ 2 := pow_le_pow_left₀ (by positivity) M1 2
      rwa [mul_pow] at this
    have a2 : P ≤ 1 / ((m1 + m2) ^ 2 * (1 - u) ^ 2) * (1 + u) := le_trans P2 (mul_le_mul_of_nonneg_right a1 (by linarith))
    have a3 : w * P ≤ (m1 * m2 * (1 + u)) * (1 / ((m1 + m2) ^ 2 * (1 - u) ^ 2) * (1 + u)) := mul_le_mul w2 a2 P0.le (by positivity)
    have a4 := mul_le_mul_of_nonneg_right a3 (show 0 ≤ 1 + u by linarith)
    refine (e2.trans a4).trans (le_of_eq ?_)
    field_simp

/-- Both precisions of JAX meet the hypotheses. -/
example : single.emin + single.p - 1 ≤ -60 ∧ 60 ≤ single.emax ∧ double.emin + double.p - 1 ≤ -60 ∧ 60 ≤ double.emax := by decide

/-- Finding: the symmetric mass ratio leaves its range `[0, 1/4]`.  For two equal masses of 34.1 it is above `1/4`, in single and in double
precision, and the mass difference computed from it is NaN. -/
theorem C107_eta_violated :
    (∀ fl, Nearest single fl → fl (341 / 10) = fin (8939110 * (2 : ℝ) ^ (-18 : ℤ)) ∧
      ∃ e, symmetricMassRatio fl (fl (341 / 10)) (fl (341 / 10)) = fin e ∧ 1 / 4 < e ∧ etaToDeltaM fl (fin e) = nan) ∧
    (∀ fl, Nearest double fl → fl (341 / 10) = fin (4799148352916685 * (2 : ℝ) ^ (-47 : ℤ)) ∧
      ∃ e, symmetricMassRatio fl (fl (341 / 10)) (fl (341 / 10)) = fin e ∧ 1 / 4 < e ∧ etaToDeltaM fl (fin e) = nan) := by
  constructor
  · intro fl h
    have e1 : fl (341 / 10) = fin (8939110 * (2 : ℝ) ^ (-18 : ℤ)) := by
      exact_mod_cast h.eq_of_close (x := 341 / 10) 8939110 (-18) (by decide) (by decide) (by decide) (by decide) (by decide)
        (by norm_num [abs_lt])
    refine ⟨e1, 8388609 * (2 : ℝ) ^ (-25 : ℤ), ?_, by norm_num, ?_⟩
    · have eM : fl (8939110 * (2 : ℝ) ^ (-18 : ℤ) + 8939110 * (2 : ℝ) ^ (-18 : ℤ)) = fin (8939110 * (2 : ℝ) ^ (-17 : ℤ)) := by
        exact_mod_cast h.eq_of_close (x := 8939110 * (2 : ℝ) ^ (-18 : ℤ) + 8939110 * (2 : ℝ) ^ (-18 : ℤ)) 8939110 (-17) (by decide) (by decide)
          (by decide) (by decide) (by decide) (by norm_num [abs_lt])
      have ew : fl (8939110 * (2 : ℝ) ^ (-18 : ℤ) * (8939110 * (2 : ℝ) ^ (-18 : ℤ))) = fin (9525739 * (2 : ℝ) ^ (-13 : ℤ)) := by
        exact_mod_cast h.eq_of_close (x := 8939110 * (2 : ℝ) ^ (-18 : ℤ) * (8939110 * (2 : ℝ) ^ (-18 : ℤ))) 9525739 (-13) (by decide) (by decide)
          (by decide) (by decide) (by decide) (by norm_num [abs_lt])
      have ep : power fl (fin (8939110 * (2 : ℝ) ^ (-17 : ℤ))) (fin (-2)) = fin (14774444 * (2 : ℝ) ^ (-36 : ℤ)) := by
        simp only [power, XR.pow, show (0 : ℝ) < 8939110 * (2 : ℝ) ^ (-17 : ℤ) by norm_num, if_true, rd_fin]
        rw [Real.rpow_neg (by norm_num), Real.rpow_two]
        exact (h.eq_of_close (x := ((8939110 * (2 : ℝ) ^ (-17 : ℤ)) ^ 2)⁻¹) 14774444 (-36) (by decide) (by decide)
          (by decide) (by decide) (by decide) (by norm_num [abs_lt])).trans (by norm_num)
      rw [e1, symmetricMassRatio, totalMass, m1TimesM2, add_def, eM, mul_def, ew, ep, mul_def]
      exact_mod_cast h.eq_of_close (x := 9525739 * (2 : ℝ) ^ (-13 : ℤ) * (14774444 * (2 : ℝ) ^ (-36 : ℤ))) 8388609 (-25) (by decide) (by decide)
        (by decide) (by decide) (by decide) (by norm_num [abs_lt])
    · have m4 : fl (8388609 * (2 : ℝ) ^ (-25 : ℤ) * 4) = fin (8388609 * (2 : ℝ) ^ (-23 : ℤ)) := by
        exact_mod_cast h.eq_of_close (x := 8388609 * (2 : ℝ) ^ (-25 : ℤ) * 4) 8388609 (-23) (by decide) (by decide) (by decide) (by decide)
          (by decide) (by norm_num [abs_lt])
      have m5 : fl (1 - 8388609 * (2 : ℝ) ^ (-23 : ℤ)) = fin (1 - 8388609 * (2 : ℝ) ^ (-23 : ℤ)) :=
        h.exact ⟨-1, -23, by decide, by decide, by decide, by norm_num⟩
      rw [etaToDeltaM, mul_def, m4, sub_def, m5]
      norm_num [XR.sqrt, rd]
  · intro fl h
    have e1 : fl (341 / 10) = fin (4799148352916685 * (2 : ℝ) ^ (-47 : ℤ)) := by
      exact_mod_cast h.eq_of_close (x := 341 / 10) 4799148352916685 (-47) (by decide) (by decide) (by decide) (by decide) (by decide)
        (by norm_num [abs_lt])
    refine ⟨e1, 4503599627370497 * (2 : ℝ) ^ (-54 : ℤ), ?_, by norm_num, ?_⟩
    · have eM : fl (4799148352916685 * (2 : ℝ) ^ (-47 : ℤ) + 4799148352916685 * (2 : ℝ) ^ (-47 : ℤ)) = fin (4799148352916685 * (2 : ℝ) ^ (-46 : ℤ)) := by
        exact_mod_cast h.eq_of_close (x := 4799148352916685 * (2 : ℝ) ^ (-47 : ℤ) + 4799148352916685 * (2 : ℝ) ^ (-47 : ℤ)) 4799148352916685 (-46)
          (by decide) (by decide) (by decide) (by decide) (by decide) (by norm_num [abs_lt])
      have ew : fl (4799148352916685 * (2 : ℝ) ^ (-47 : ℤ) * (4799148352916685 * (2 : ℝ) ^ (-47 : ℤ))) = fin (5114092463576843 * (2 : ℝ) ^ (-42 : ℤ)) := by
        exact_mod_cast h.eq_of_close (x := 4799148352916685 * (2 : ℝ) ^ (-47 : ℤ) * (4799148352916685 * (2 : ℝ) ^ (-47 : ℤ))) 5114092463576843 (-42)
          (by decide) (by decide) (by decide) (by decide) (by decide) (by norm_num [abs_lt])
      have ep : power fl (fin (4799148352916685 * (2 : ℝ) ^ (-46 : ℤ))) (fin (-2)) = fin (7931968281021642 * (2 : ℝ) ^ (-65 : ℤ)) := by
        simp only [power, XR.pow, show (0 : ℝ) < 4799148352916685 * (2 : ℝ) ^ (-46 : ℤ) by norm_num, if_true, rd_fin]
        rw [Real.rpow_neg (by norm_num), Real.rpow_two]
        exact (h.eq_of_close (x := ((4799148352916685 * (2 : ℝ) ^ (-46 : ℤ)) ^ 2)⁻¹) 7931968281021642 (-65) (by decide) (by decide)
          (by decide) (by decide) (by decide) (by norm_num [abs_lt])).trans (by norm_num)
      rw [e1, symmetricMassRatio, totalMass, m1TimesM2, add_def, eM, mul_def, ew, ep, mul_def]
      exact_mod_cast h.eq_of_close (x := 5114092463576843 * (2 : ℝ) ^ (-42 : ℤ) * (7931968281021642 * (2 : ℝ) ^ (-65 : ℤ))) 4503599627370497 (-54)
        (by decide) (by decide) (by decide) (by decide) (by decide) (by norm_num [abs_lt])
    · have m4 : fl (4503599627370497 * (2 : ℝ) ^ (-54 : ℤ) * 4) = fin (4503599627370497 * (2 : ℝ) ^ (-52 : ℤ)) := by
        exact_mod_cast h.eq_of_close (x := 4503599627370497 * (2 : ℝ) ^ (-54 : ℤ) * 4) 4503599627370497 (-52) (by decide) (by decide) (by decide)
          (by decide) (by decide) (by norm_num [abs_lt])
      have m5 : fl (1 - 4503599627370497 * (2 : ℝ) ^ (-52 : ℤ)) = fin (1 - 4503599627370497 * (2 : ℝ) ^ (-52 : ℤ)) :=
        h.exact ⟨-1, -52, by decide, by decide, by decide, by norm_num⟩
      rw [etaToDeltaM, mul_def, m4, sub_def, m5]
      norm_num [XR.sqrt, rd]

/-- The power `32768 ^ fl(1/3)` in double precision: below 32, because `fl(1/3)` is below `1/3`. -/
theorem thirdPower (s : ℝ) (hs : s = 6004799503160661 * (2 : ℝ) ^ (-54 : ℤ)) :
    ∃ v : ℝ, (32768 : ℝ) ^ s = v ∧ 0 ≤ v ∧ v ≤ 32 - (2 : ℝ) ^ (-48 : ℤ) := by
  obtain ⟨t, ht⟩ : ∃ t : ℝ, t = 5 * (2 : ℝ) ^ (-54 : ℤ) := ⟨_, rfl⟩
  have t0 : 0 < t := by rw [ht]; positivity
  have e : (32768 : ℝ) ^ s = 32 * ((2 : ℝ) ^ t)⁻¹ := by
    have e15 : (32768 : ℝ) = 2 ^ (15 : ℝ) := by rw [show (15 : ℝ) = ((15 : ℕ) : ℝ) by norm_num, Real.rpow_natCast]; norm_num
    have e5 : (32 : ℝ) = 2 ^ (5 : ℝ) := by rw [show (5 : ℝ) = ((5 : ℕ) : ℝ) by norm_num, Real.rpow_natCast]; norm_num
    have et : (15 : ℝ) * s = 5 + -t := by rw [ht, hs]; norm_num
    rw [e15, ← Real.rpow_mul (by norm_num), et, Real.rpow_add (by norm_num), Real.rpow_neg (by norm_num), ← e5]
  rw [e]
  have l : 1 + t * (69 / 100) ≤ (2 : ℝ) ^ t := by
    rw [Real.rpow_def_of_pos (by norm_num)]
    have := Real.add_one_le_exp (Real.log 2 * t)
    have l2 := Real.log_two_gt_d9
    nlinarith
  have l1 : (0 : ℝ) < 1 + t * (69 / 100) := by linarith [mul_pos t0 (show (0 : ℝ) < 69 / 100 by norm_num)]
  have l2 : ((2 : ℝ) ^ t)⁻¹ ≤ (1 + t * (69 / 100))⁻¹ := inv_anti₀ l1 l
  refine ⟨_, rfl, mul_nonneg (by norm_num) (inv_nonneg.2 (Real.rpow_nonneg (by norm_num) _)), ?_⟩
  refine (mul_le_mul_of_nonneg_left l2 (by norm_num)).trans ?_
  rw [ht]
  norm_num

/-- Finding: a draw can fall outside the support.  In double precision the power law with slope 2 between 32 and 64 returns, for the uniform draw 0,
a number below 32, which its own support check rejects. -/
theorem C107_sample_violated (h : Nearest double fl) :
    ∃ y, icdf fl 0 2 32 64 = fin y ∧ y < 32 ∧ (PowerLaw.Dist.mk 2 32 64 true).support (fin y) = false ∧
      (PowerLaw.Dist.mk 2 32 64 true).logProb (fin y) = ninf := by
  have z : double.Mem 0 := mem_zero C107_formats.2.1
  have ex : ∀ n : ℤ, |n| < 2 ^ 53 → fl n = fin n := fun n hn => h.exact ⟨n, 0, hn, by decide, by decide, by simp⟩
  have e3 : fl (1 + 2) = fin 3 := by rw [show (1 + 2 : ℝ) = ((3 : ℤ) : ℝ) by norm_num, ex 3 (by decide)]; norm_num
  have elow : power fl (fin 32) (fin 3) = fin 32768 := by
    simp only [power, XR.pow, show (0 : ℝ) < 32 by norm_num, if_true, rd_fin]
    rw [show (32 : ℝ) ^ (3 : ℝ) = ((32768 : ℤ) : ℝ) by rw [show (3 : ℝ) = ((3 : ℕ) : ℝ) by norm_num, Real.rpow_natCast]; norm_num,
      ex 32768 (by decide)]
    norm_num
  have ehigh : power fl (fin 64) (fin 3) = fin 262144 := by
    simp only [power, XR.pow, show (0 : ℝ) < 64 by norm_num, if_true, rd_fin]
    rw [show (64 : ℝ) ^ (3 : ℝ) = ((262144 : ℤ) : ℝ) by rw [show (3 : ℝ) = ((3 : ℕ) : ℝ) by norm_num, Real.rpow_natCast]; norm_num,
      ex 262144 (by decide)]
    norm_num
  have ediff : fl (262144 - 32768) = fin 229376 := by
    rw [show (262144 - 32768 : ℝ) = ((229376 : ℤ) : ℝ) by norm_num, ex 229376 (by decide)]; norm_num
  have ezero : fl (0 * 229376) = fin 0 := by rw [zero_mul]; exact h.exact z
  have esum : fl (32768 + 0) = fin 32768 := by rw [show (32768 + 0 : ℝ) = ((32768 : ℤ) : ℝ) by norm_num, ex 32768 (by decide)]; norm_num
  have ethird : fl (1 / 3) = fin (6004799503160661 * (2 : ℝ) ^ (-54 : ℤ)) := by
    exact_mod_cast h.eq_of_close (x := 1 / 3) 6004799503160661 (-54) (by decide) (by decide) (by decide) (by decide) (by decide)
      (by norm_num [abs_lt])
  obtain ⟨v, hv, v0, v1⟩ := thirdPower _ rfl
  have hs : icdf fl 0 2 32 64 = fl v := by
    have hm : PowerLaw.mask 2 = true := by simp [PowerLaw.mask]; norm_num
    have hsa : PowerLaw.safeAlpha 2 = 2 := by simp [PowerLaw.safeAlpha]; intro h; norm_num at h
    simp only [icdf, hm, hsa, select, if_true, add_def, e3, elow, ehigh, sub_def, ediff, mul_def, ezero, esum]
    rw [div_def _ _ (by norm_num), ethird]
    simp only [power, XR.pow, show (0 : ℝ) < 32768 by norm_num, if_true, rd_fin, hv]
  have hm : double.Mem (32 - (2 : ℝ) ^ (-48 : ℤ)) := ⟨9007199254740991, -48, by decide, by decide, by decide, by norm_num⟩
  obtain ⟨y, hy, _, _, y1⟩ := h.between z hm v0 v1
  have y2 : y < 32 := lt_of_le_of_lt y1 (by norm_num)
  have hsup : (PowerLaw.Dist.mk 2 32 64 true).support (fin y) = false := by
    have : ¬ (le (fin 32) (fin y)) := by show ¬ ((32 : ℝ) ≤ y); linarith
    simp [PowerLaw.Dist.support, this]
  exact ⟨y, by rw [hs, hy], y2, hsup, by simp [PowerLaw.Dist.logProb, hsup, select]⟩

/-- Concrete case: there is such a rounding. -/
example : ∃ fl, Nearest double fl := C107_formats.2.2.2

/-- Finding: a truncated normal that is very wide compared with its interval gets the log density `+inf` inside the interval: the mass of
the interval is computed as 0.  Here in single precision with scale `2^30` and in double precision with scale `2^60`, on `[-1, 1]`. -/
theorem C107_truncnorm_violated :
    (∀ fl, Nearest single fl → truncnormLogpdf fl (fin 0) 0 (2 ^ 30) (fin (-1)) (fin 1) = pinf) ∧
      (∀ fl, Nearest double fl → truncnormLogpdf fl (fin 0) 0 (2 ^ 60) (fin (-1)) (fin 1) = pinf) := by
  constructor
  · intro fl h
    refine wide_normal C107_formats.1 h (2 ^ 30) (by norm_num) ⟨1, 30, by decide, by decide, by decide, by norm_num⟩
      (by simp only [Format.limit, single]; norm_num) ⟨1, -30, by decide, by decide, by decide, by norm_num⟩ ?_
    intro v h1 h2
    refine eq_half_of_close h (by decide) (by decide) (by decide) ?_ ?_
    · norm_num [single] at h1 ⊢; linarith
    · norm_num [single]; linarith
  · intro fl h
    refine wide_normal C107_formats.2.1 h (2 ^ 60) (by norm_num) ⟨1, 60, by decide, by decide, by decide, by norm_num⟩
      (by
        have : (2 : ℝ) ^ (60 : ℤ) ≤ 2 ^ (971 : ℤ) := zpow_le_zpow_right₀ (by norm_num) (by norm_num)
        simp only [Format.limit, double]
        refine lt_of_lt_of_le ?_ (mul_le_mul_of_nonneg_left this (by norm_num))
        norm_num) ⟨1, -60, by decide, by decide, by decide, by norm_num⟩ ?_
    intro v h1 h2
    refine eq_half_of_close h (by decide) (by decide) (by decide) ?_ ?_
    · norm_num [double] at h1 ⊢; linarith
    · norm_num [double]; linarith

end GW.Rounding
