import Verif.Lemmas.Rounding
import Verif.Lemmas.Numeric
import Mathlib.Analysis.Complex.ExponentialBounds
import Mathlib.Analysis.SpecialFunctions.Pow.Real
import Mathlib.Analysis.Real.Pi.Bounds

/-!
# The formulas of the code in rounded arithmetic
-/

namespace GW.Rounding
open GW XR

variable {f : Format} {fl : ℝ → XR}

/-- `x - 1` is exact between `1/2` and `1`. -/
theorem mem_sub_one {x : ℝ} (hx : f.Mem x) (h1 : 1 / 2 ≤ x) (h2 : x ≤ 1) : f.Mem (x - 1) := by
  obtain ⟨n, k, a1, a2, a3, rfl⟩ := hx
  have hk : (0 : ℝ) < 2 ^ k := by positivity
  have hn0 : 0 < n := by
    by_contra hc
    have : (n : ℝ) ≤ 0 := by exact_mod_cast not_lt.1 hc
    nlinarith
  have hn1 : (1 : ℝ) ≤ n := by exact_mod_cast hn0
  rcases le_or_gt k 0 with h3 | h3
  · obtain ⟨d, hd⟩ := Int.eq_ofNat_of_zero_le (show 0 ≤ -k by omega)
    have e : (2 : ℝ) ^ k * 2 ^ d = 1 := by
      have : k = -(d : ℤ) := by omega
      rw [this, zpow_neg, zpow_natCast]
      field_simp
    have u1 : (2 : ℤ) ^ d ≤ 2 * n := by
      have : (2 : ℝ) ^ d ≤ 2 * n := by nlinarith
      exact_mod_cast this
    have u2 : n ≤ (2 : ℤ) ^ d := by
      have : (n : ℝ) ≤ 2 ^ d := by nlinarith
      exact_mod_cast this
    rw [abs_of_pos hn0] at a1
    refine ⟨n - 2 ^ d, k, ?_, a2, a3, ?_⟩
    · rw [abs_of_nonpos (by linarith)]
      linarith
    · push_cast
      linarith
  · exfalso
    have : (2 : ℝ) ^ (1 : ℤ) ≤ 2 ^ k := zpow_le_zpow_right₀ (by norm_num) (by omega)
    norm_num at this
    nlinarith

theorem log1p_fin {x : ℝ} (h : -1 < x) : log1p (fin x) = fin (Real.log (1 + x)) := by
  show XR.log (fin (1 + x)) = _
  simp [XR.log, show 0 < 1 + x by linarith]

/-- The correction `log1p(exp(-|y|))` of `softplus` lies between 0 and 1, and is at least `1/4` where `|y| ≤ 1/2`. -/
theorem correction (hf : f.Usable) (h : Nearest f fl) (y : XR) (hy : y ≠ nan) :
    ∃ c, rd fl (log1p (rd fl (XR.exp (-(XR.abs y))))) = fin c ∧ f.Mem c ∧ 0 ≤ c ∧ c ≤ 1 ∧
      (∀ a, y = fin a → |a| ≤ 1 / 2 → 1 / 4 ≤ c) := by
  have key : ∀ e : ℝ, 0 ≤ e → e ≤ 1 → ∃ c, rd fl (log1p (rd fl (fin e))) = fin c ∧ f.Mem c ∧ 0 ≤ c ∧ c ≤ 1 ∧ (1 / 2 ≤ e → 1 / 4 ≤ c) := by
    intro e h0 h1
    obtain ⟨d, hd, _, hd0, hd1⟩ := h.between (mem_zero hf) (mem_one hf) h0 h1
    rw [rd_fin, hd, log1p_fin (by linarith), rd_fin]
    have l0 : 0 ≤ Real.log (1 + d) := Real.log_nonneg (by linarith)
    have l1 : Real.log (1 + d) ≤ 1 := by
      have := Real.log_le_sub_one_of_pos (show 0 < 1 + d by linarith)
      linarith
    obtain ⟨c, hc, hm, hc0, hc1⟩ := h.between (mem_zero hf) (mem_one hf) l0 l1
    refine ⟨c, hc, hm, hc0, hc1, fun he => ?_⟩
    obtain ⟨d', hd', _, hdh, _⟩ := h.between (mem_half hf) (mem_one hf) he h1
    rw [hd] at hd'
    injection hd' with hd'
    subst hd'
    have l2 : 1 / 4 ≤ Real.log (1 + d) := by
      have := Real.one_sub_inv_le_log_of_pos (show 0 < 1 + d by linarith)
      have h3 : (1 + d)⁻¹ ≤ (3 / 2 : ℝ)⁻¹ := inv_anti₀ (by norm_num) (by linarith)
      norm_num at h3
      linarith
    obtain ⟨c', hc', _, hc2, _⟩ := h.between (mem_quarter hf) (mem_one hf) l2 l1
    rw [hc] at hc'
    injection hc' with hc'
    rw [hc']; exact hc2
  cases y with
  | nan => exact absurd rfl hy
  | pinf =>
    obtain ⟨c, a, a', b, d, _⟩ := key 0 le_rfl (by norm_num)
    exact ⟨c, a, a', b, d, by simp⟩
  | ninf =>
    obtain ⟨c, a, a', b, d, _⟩ := key 0 le_rfl (by norm_num)
    exact ⟨c, a, a', b, d, by simp⟩
  | fin x =>
    obtain ⟨c, a, a', b, d, e⟩ := key (Real.exp (-|x|)) (Real.exp_pos _).le (by rw [Real.exp_le_one_iff]; linarith [abs_nonneg x])
    refine ⟨c, a, a', b, d, fun z hz hz2 => e ?_⟩
    injection hz with hz
    subst hz
    have := Real.add_one_le_exp (-|x|)
    linarith

theorem sub_zero_ne_nan (h : Nearest f fl) (y : XR) (hy : y ≠ nan) : sub fl y (fin 0) ≠ nan := by
  cases y with
  | nan => exact absurd rfl hy
  | fin a => rw [sub_def]; exact h.ne_nan _
  | pinf => simp [sub, rd, HSub.hSub, Sub.sub, XR.add, Neg.neg, XR.neg]
  | ninf => simp [sub, rd, HSub.hSub, Sub.sub, XR.add, Neg.neg, XR.neg]

/-- `softplus` of anything but NaN is at least 0, at least `1/4` on the non-negative numbers and at most 1 on the non-positive ones. -/
theorem softplus_bounds (hf : f.Usable) (h : Nearest f fl) (y : XR) (hy : y ≠ nan) (hm : ∀ a, y = fin a → f.Mem a) :
    le (fin 0) (softplus fl y) ∧ (le (fin 0) y → le (fin (1 / 4)) (softplus fl y)) ∧ (le y (fin 0) → le (softplus fl y) (fin 1)) := by
  have hd := sub_zero_ne_nan h y hy
  obtain ⟨c, hc, hcm, hc0, hc1, hc2⟩ := correction hf h _ hd
  have hs : softplus fl y = add fl (XR.max y (fin 0)) (fin c) := by
    rw [softplus]
    have : (sub fl y (fin 0)).isNan = false := by
      revert hd
      cases sub fl y (fin 0) <;> simp [isNan]
    simp only [this, hc]
    simp
  rw [hs]
  cases y with
  | nan => exact absurd rfl hy
  | pinf =>
    have : add fl (XR.max pinf (fin 0)) (fin c) = pinf := rfl
    rw [this]
    exact ⟨trivial, fun _ => trivial, fun hh => absurd hh (by simp [le])⟩
  | ninf =>
    have : add fl (XR.max ninf (fin 0)) (fin c) = fl (0 + c) := rfl
    rw [this, zero_add, h.exact hcm]
    exact ⟨hc0, fun hh => absurd hh (by simp [le]), fun _ => hc1⟩
  | fin a =>
    have e : add fl (XR.max (fin a) (fin 0)) (fin c) = fl (Max.max a 0 + c) := rfl
    have hma := hm a rfl
    rw [e]
    refine ⟨?_, fun ha => ?_, fun ha => ?_⟩
    · rcases h.ge (mem_zero hf) (show 0 ≤ Max.max a 0 + c by positivity) with e | ⟨y, e, _, e2⟩
      · rw [e]; trivial
      · rw [e]; exact e2
    · have ha : 0 ≤ a := ha
      have hq : 1 / 4 ≤ Max.max a 0 + c := by
        rw [max_eq_left ha]
        rcases le_or_gt a (1 / 2) with h3 | h3
        · have := hc2 a (by rw [sub_def, sub_zero, h.exact hma]) (by rwa [abs_of_nonneg ha])
          linarith
        · linarith
      rcases h.ge (mem_quarter hf) hq with e | ⟨y, e, _, e2⟩
      · rw [e]; trivial
      · rw [e]; exact e2
    · have ha : a ≤ 0 := ha
      rw [max_eq_right ha, zero_add, h.exact hcm]
      exact hc1

theorem add_ne_nan_of_fin (h : Nearest f fl) (a : ℝ) {y : XR} (hy : y ≠ nan) : add fl (fin a) y ≠ nan ∧ add fl y (fin a) ≠ nan := by
  cases y with
  | nan => exact absurd rfl hy
  | fin b => exact ⟨h.ne_nan _, h.ne_nan _⟩
  | pinf => exact ⟨by simp [add, rd, HAdd.hAdd, Add.add, XR.add], by simp [add, rd, HAdd.hAdd, Add.add, XR.add]⟩
  | ninf => exact ⟨by simp [add, rd, HAdd.hAdd, Add.add, XR.add], by simp [add, rd, HAdd.hAdd, Add.add, XR.add]⟩

theorem add_mem (h : Nearest f fl) (x y : XR) : ∀ a, add fl x y = fin a → f.Mem a := by
  intro a ha
  unfold add at ha
  revert ha
  cases x + y with
  | fin b => intro ha; exact h.mem ha
  | pinf => simp [rd]
  | ninf => simp [rd]
  | nan => simp [rd]

theorem neg_le_neg_fin {x : XR} {a : ℝ} (h : le (fin a) x) : le (-x) (fin (-a)) := by
  cases x with
  | fin b => show -b ≤ -a; have : a ≤ b := h; linarith
  | pinf => trivial
  | ninf => exact absurd h (by simp [le])
  | nan => exact absurd h (by simp [le])

theorem neg_fin_le_neg {x : XR} {a : ℝ} (h : le x (fin a)) : le (fin (-a)) (-x) := by
  cases x with
  | fin b => show -a ≤ -b; have : b ≤ a := h; linarith
  | ninf => trivial
  | pinf => exact absurd h (by simp [le])
  | nan => exact absurd h (by simp [le])

open Classical in
/-- The window strictly inside `(0, 1)`. -/
theorem logPlanck_inside (hf : f.Usable) (h : Nearest f fl) {x : ℝ} (hx : f.Mem x) (h0 : 0 < x) (h1 : x < 1) :
    le (logPlanck fl (fin x)) (fin 0) ∧ (x ≤ 1 / 2 → le (logPlanck fl (fin x)) (fin (-(1 / 4)))) ∧
      (1 / 2 ≤ x → le (fin (-1)) (logPlanck fl (fin x))) := by
  have hx0 : x ≠ 0 := h0.ne'
  have hx1 : x ≠ 1 := h1.ne
  have e : logPlanck fl (fin x) = -(softplus fl (add fl (fl (1 / x)) (div fl (fin 1) (fl (x - 1))))) := by
    have l0 : ¬ (le (fin x) (fin 0)) := by show ¬ (x ≤ 0); linarith
    have l1 : lt (fin x) (fin 1) := h1
    simp only [logPlanck, select, eqc, hx0, hx1, decide_false, Bool.false_eq_true, if_false, l0, l1, decide_true, if_true, sub_def]
    rw [div_def _ _ hx0]
  rw [e]
  have m1 : f.Mem (-1) := (mem_one hf).neg
  have mh : f.Mem (-(1 / 2)) := (mem_half hf).neg
  have m2 : f.Mem 2 := by simpa using mem_int hf 2 (by norm_num)
  rcases le_total x (1 / 2) with hh | hh
  · -- left half: the second reciprocal is between -2 and -1, the first at least 2
    obtain ⟨s, hs, _, hs1, hs2⟩ := h.between m1 mh (show -1 ≤ x - 1 by linarith) (show x - 1 ≤ -(1 / 2) by linarith)
    have hs0 : s < 0 := by linarith
    obtain ⟨r, hr, _, hr1, hr2⟩ := h.between (x := 1 / s) m2.neg m1 (by rw [le_div_iff_of_neg hs0]; linarith)
      (by rw [div_le_iff_of_neg hs0]; linarith)
    rw [hs, div_def _ _ hs0.ne, hr]
    have hi : (2 : ℝ) ≤ 1 / x := by rw [le_div_iff₀ h0]; linarith
    have hy : add fl (fl (1 / x)) (fin r) ≠ nan ∧ le (fin 0) (add fl (fl (1 / x)) (fin r)) := by
      refine ⟨(add_ne_nan_of_fin h r (h.ne_nan _)).2, ?_⟩
      rcases h.ge m2 hi with e | ⟨y, e, _, e2⟩
      · rw [e]; trivial
      · rw [e, add_def]
        rcases h.ge (mem_zero hf) (show 0 ≤ y + r by linarith) with e | ⟨z, e, _, e2⟩
        · rw [e]; trivial
        · rw [e]; exact e2
    obtain ⟨b1, b2, b3⟩ := softplus_bounds hf h _ hy.1 (add_mem h _ _)
    refine ⟨by simpa using neg_le_neg_fin b1, fun _ => neg_le_neg_fin (b2 hy.2), fun hx2 => ?_⟩
    -- exactly one half
    have hxe : x = 1 / 2 := by linarith
    subst hxe
    have e1 : fl (1 / (1 / 2)) = fin 2 := by rw [show (1 : ℝ) / (1 / 2) = 2 by norm_num, h.exact m2]
    have e2 : s = -(1 / 2) := by
      have : fl (1 / 2 - 1) = fin (-(1 / 2)) := by rw [show (1 / 2 - 1 : ℝ) = -(1 / 2) by norm_num, h.exact mh]
      rw [hs] at this; injection this
    have e3 : r = -2 := by
      rw [e2, show (1 : ℝ) / -(1 / 2) = -2 by norm_num, h.exact m2.neg] at hr
      injection hr with hr; exact hr.symm
    have hz : le (add fl (fl (1 / (1 / 2))) (fin r)) (fin 0) := by
      rw [e1, e3, add_def, show (2 : ℝ) + -2 = 0 by norm_num, h.exact (mem_zero hf)]
      exact le_refl (0 : ℝ)
    simpa using neg_fin_le_neg (b3 hz)
  · -- right half: `x - 1` is exact and the second reciprocal is at most -2
    have hm := mem_sub_one hx hh h1.le
    have hs0 : x - 1 < 0 := by linarith
    rw [h.exact hm, div_def _ _ hs0.ne]
    have hi1 : (1 : ℝ) ≤ 1 / x := by rw [le_div_iff₀ h0]; linarith
    have hi2 : 1 / x ≤ (2 : ℝ) := by rw [div_le_iff₀ h0]; linarith
    obtain ⟨r, hr, _, hr1, hr2⟩ := h.between (mem_one hf) m2 hi1 hi2
    rw [hr]
    have hj : 1 / (x - 1) ≤ -(2 : ℝ) := by rw [div_le_iff_of_neg hs0]; linarith
    have hy : add fl (fin r) (fl (1 / (x - 1))) ≠ nan ∧ le (add fl (fin r) (fl (1 / (x - 1)))) (fin 0) := by
      refine ⟨(add_ne_nan_of_fin h r (h.ne_nan _)).1, ?_⟩
      rcases h.le m2.neg hj with e | ⟨y, e, _, e2⟩
      · rw [e]; trivial
      · rw [e, add_def]
        rcases h.le (mem_zero hf) (show r + y ≤ 0 by linarith) with e | ⟨z, e, _, e2⟩
        · rw [e]; trivial
        · rw [e]; exact e2
    obtain ⟨b1, b2, b3⟩ := softplus_bounds hf h _ hy.1 (add_mem h _ _)
    refine ⟨by simpa using neg_le_neg_fin b1, fun hx2 => ?_, fun _ => by simpa using neg_fin_le_neg (b3 hy.2)⟩
    have hxe : x = 1 / 2 := by linarith
    subst hxe
    have e1 : fl (1 / (1 / 2 - 1)) = fin (-2) := by rw [show (1 : ℝ) / (1 / 2 - 1) = -2 by norm_num, h.exact m2.neg]
    have e3 : r = 2 := by
      rw [show (1 : ℝ) / (1 / 2) = 2 by norm_num, h.exact m2] at hr
      injection hr with hr; exact hr.symm
    have hz : le (fin 0) (add fl (fin r) (fl (1 / (1 / 2 - 1)))) := by
      rw [e1, e3, add_def, show (2 : ℝ) + -2 = 0 by norm_num, h.exact (mem_zero hf)]
      exact le_refl (0 : ℝ)
    exact neg_le_neg_fin (b2 hz)

/-- The weighted mean of two numbers of magnitude at most 1 stays at most 1. -/
theorem weighted (hf : f.Usable) (h : Nearest f fl) {m1 m2 a b : ℝ} (hm1 : f.Mem m1) (hm2 : f.Mem m2) (h1 : 0 ≤ m1) (h2 : 0 ≤ m2)
    (hpos : 0 < m1 + m2) (hover : m1 + m2 < f.limit) (ha : |a| ≤ m1) (hb : |b| ≤ m2) :
    ∃ M d y, fl (m1 + m2) = fin M ∧ 0 < M ∧ fl (a + b) = fin d ∧ fl (d / M) = fin y ∧ |y| ≤ 1 := by
  obtain ⟨M, hM, hMm, _⟩ := h.inside (m1 + m2) (by rwa [abs_of_pos hpos])
  have hM0 : 0 < M := by
    rcases lt_or_ge 0 m1 with h3 | h3
    · have := h.mono (show m1 ≤ m1 + m2 by linarith)
      rw [h.exact hm1, hM] at this
      have : m1 ≤ M := this
      linarith
    · have := h.mono (show m2 ≤ m1 + m2 by linarith)
      rw [h.exact hm2, hM] at this
      have : m2 ≤ M := this
      linarith
  have hab : |a + b| ≤ m1 + m2 := (abs_add_le a b).trans (by linarith)
  obtain ⟨d, hd, hdm, _⟩ := h.inside (a + b) (lt_of_le_of_lt hab hover)
  obtain ⟨u1, u2⟩ := abs_le.1 hab
  have v1 := h.mono u1
  have v2 := h.mono u2
  rw [h.odd, hM, hd] at v1
  rw [hM, hd] at v2
  have v1 : -M ≤ d := v1
  have v2 : d ≤ M := v2
  have hdM : |d / M| ≤ 1 := by
    rw [abs_div, abs_of_pos hM0, div_le_one hM0]
    exact abs_le.2 ⟨v1, v2⟩
  obtain ⟨y, hy, _, hy1⟩ := h.abs_le (mem_one hf) hdM
  exact ⟨M, d, y, hM, hM0, hd, hy, hy1⟩

theorem mul_abs_le (h : Nearest f fl) {m c : ℝ} (hm : f.Mem m) (h0 : 0 ≤ m) (hc : |c| ≤ 1) : ∃ a, fl (m * c) = fin a ∧ |a| ≤ m := by
  have : |m * c| ≤ m := by rw [abs_mul, abs_of_nonneg h0]; exact mul_le_of_le_one_right h0 hc
  obtain ⟨a, ha, _, ha1⟩ := h.abs_le hm this
  exact ⟨a, ha, ha1⟩

/-- `sin_tilt` lies between 0 and 1. -/
theorem sinTilt_mem (hf : f.Usable) (h : Nearest f fl) {c : ℝ} (hc : |c| ≤ 1) :
    ∃ s, sinTilt fl (fin c) = fin s ∧ f.Mem s ∧ 0 ≤ s ∧ s ≤ 1 := by
  have hcc : c * c ≤ 1 := by rw [← abs_mul_abs_self]; nlinarith [abs_nonneg c]
  obtain ⟨d, hd, _, hd0, hd1⟩ := h.between (mem_zero hf) (mem_one hf) (mul_self_nonneg c) hcc
  obtain ⟨e, he, _, he0, he1⟩ := h.between (mem_zero hf) (mem_one hf) (show 0 ≤ 1 - d by linarith) (by linarith)
  obtain ⟨s, hs, hm, hs0, hs1⟩ := h.between (mem_zero hf) (mem_one hf) (Real.sqrt_nonneg e) (Real.sqrt_le_one.2 he1)
  refine ⟨s, ?_, hm, hs0, hs1⟩
  rw [sinTilt, mul_def, hd, sub_def, he]
  simp [XR.sqrt, he0, rd, hs]

/-- The Gaussian mass below `-b` is at most `1/2` and within `b` of it. -/
theorem ndtr_near_zero {b : ℝ} (hb : 0 ≤ b) :
    (ProbabilityTheory.gaussianReal 0 1).real (Set.Iic (-b)) ≤ 1 / 2 ∧ 1 / 2 - b ≤ (ProbabilityTheory.gaussianReal 0 1).real (Set.Iic (-b)) := by
  have h0 : (ProbabilityTheory.gaussianReal 0 1).real (Set.Iic (0 : ℝ)) = 1 / 2 := by
    have := Num.PhiX_neg (x := fin 0) (by simp)
    have e : (-(fin 0) : XR) = fin 0 := by show XR.neg (fin 0) = _; simp [XR.neg]
    rw [e] at this
    simp only [Num.PhiX, Num.down_fin] at this
    linarith
  have hsub : Set.Iic (-b) ⊆ Set.Iic (0 : ℝ) := Set.Iic_subset_Iic.2 (by linarith)
  have hu : (ProbabilityTheory.gaussianReal 0 1).real (Set.Iic (0 : ℝ)) =
      (ProbabilityTheory.gaussianReal 0 1).real (Set.Iic (-b)) + (ProbabilityTheory.gaussianReal 0 1).real (Set.Ioc (-b) 0) := by
    rw [← Set.Iic_union_Ioc_eq_Iic (show -b ≤ 0 by linarith),
      MeasureTheory.measureReal_union (Set.Iic_disjoint_Ioc le_rfl) measurableSet_Ioc]
  have hpdf : ∀ x : ℝ, ProbabilityTheory.gaussianPDF 0 1 x ≤ 1 := by
    intro x
    rw [ProbabilityTheory.gaussianPDF, ENNReal.ofReal_le_one, ProbabilityTheory.gaussianPDFReal]
    have h1 : 1 ≤ Real.sqrt (2 * Real.pi * ((1 : NNReal) : ℝ)) := by
      rw [Real.one_le_sqrt]
      simp only [NNReal.coe_one, mul_one]
      linarith [Real.pi_gt_three]
    have h2 : Real.exp (-(x - 0) ^ 2 / (2 * ((1 : NNReal) : ℝ))) ≤ 1 := by
      rw [Real.exp_le_one_iff]
      exact div_nonpos_of_nonpos_of_nonneg (by nlinarith [sq_nonneg (x - 0)]) (by positivity)
    have h3 : (Real.sqrt (2 * Real.pi * ((1 : NNReal) : ℝ)))⁻¹ ≤ 1 := inv_le_one_of_one_le₀ h1
    exact mul_le_one₀ h3 (Real.exp_pos _).le h2
  have hs : (ProbabilityTheory.gaussianReal 0 1).real (Set.Ioc (-b) 0) ≤ b := by
    have : (ProbabilityTheory.gaussianReal 0 1) (Set.Ioc (-b) 0) ≤ ENNReal.ofReal b := by
      rw [ProbabilityTheory.gaussianReal_apply 0 (by norm_num)]
      calc ∫⁻ x in Set.Ioc (-b) 0, ProbabilityTheory.gaussianPDF 0 1 x ≤ ∫⁻ _ in Set.Ioc (-b) 0, 1 := MeasureTheory.lintegral_mono fun x => hpdf x
        _ = ENNReal.ofReal b := by
          rw [MeasureTheory.setLIntegral_one, Real.volume_Ioc]; simp
    exact ENNReal.toReal_le_of_le_ofReal hb this
  have hn : 0 ≤ (ProbabilityTheory.gaussianReal 0 1).real (Set.Ioc (-b) 0) := MeasureTheory.measureReal_nonneg
  constructor <;> linarith

/-- Numbers just below `1/2` are rounded to `1/2`. -/
theorem eq_half_of_close (h : Nearest f fl) (h0 : 2 ≤ f.p) (h1 : f.emin ≤ -(f.p : ℤ) - 1) (h2 : 0 ≤ f.emax) {v : ℝ}
    (h3 : 1 / 2 - (2 : ℝ) ^ (-(f.p : ℤ) - 3) ≤ v) (h4 : v ≤ 1 / 2) : fl v = fin (1 / 2) := by
  have hp : (0 : ℝ) < 2 ^ (-(f.p : ℤ) - 3) := by positivity
  have hpp : (2 : ℝ) ^ (-(f.p : ℤ) - 3) ≤ 2 ^ (-5 : ℤ) := zpow_le_zpow_right₀ (by norm_num) (by omega)
  norm_num at hpp
  have mh : f.Mem (1 / 2) := ⟨2 ^ (f.p - 1), -(f.p : ℤ), by
    rw [abs_of_pos (by positivity)]
    exact pow_lt_pow_right₀ (by norm_num) (by omega), by omega, by omega, by
    push_cast
    rw [← zpow_natCast, ← zpow_add₀ (by norm_num)]
    have : ((f.p - 1 : ℕ) : ℤ) + -(f.p : ℤ) = -1 := by omega
    rw [this]; norm_num⟩
  obtain ⟨y, hy, hm, hn⟩ := h.inside v (by
    have := mem_abs_lt mh
    rw [abs_lt] at *
    constructor <;> norm_num at * <;> linarith)
  rw [hy]
  congr 1
  have d := hn _ mh
  rw [abs_of_nonpos (show v - 1 / 2 ≤ 0 by linarith)] at d
  have d2 : |y - 1 / 2| ≤ 2 * (2 : ℝ) ^ (-(f.p : ℤ) - 3) := by
    have := abs_sub_le y v (1 / 2)
    rw [abs_sub_comm y v, abs_of_nonpos (show v - 1 / 2 ≤ 0 by linarith)] at this
    linarith
  have e2 : 2 * (2 : ℝ) ^ (-(f.p : ℤ) - 3) = 2 ^ (-(f.p : ℤ) - 2) := by
    rw [show -(f.p : ℤ) - 2 = (-(f.p : ℤ) - 3) + 1 by ring, zpow_add₀ (by norm_num)]; norm_num; ring
  rw [e2] at d2
  obtain ⟨d3, d4⟩ := abs_le.1 d2
  obtain ⟨n, k, a1, a2, a3, rfl⟩ := hm
  have u : (0 : ℝ) < 2 ^ (-(f.p : ℤ) - 1) := by positivity
  have e1 : (2 : ℝ) ^ (-(f.p : ℤ) - 1) = 2 * 2 ^ (-(f.p : ℤ) - 2) := by
    rw [show -(f.p : ℤ) - 1 = (-(f.p : ℤ) - 2) + 1 by ring, zpow_add₀ (by norm_num)]; norm_num; ring
  have eh : (1 / 2 : ℝ) = 2 ^ f.p * 2 ^ (-(f.p : ℤ) - 1) := by
    rw [← zpow_natCast, ← zpow_add₀ (by norm_num)]
    have : (f.p : ℤ) + (-(f.p : ℤ) - 1) = -1 := by ring
    rw [this]; norm_num
  rcases le_or_gt (-(f.p : ℤ) - 1) k with hk | hk
  · obtain ⟨j, rfl⟩ := Int.le.dest hk
    have e : (2 : ℝ) ^ (-(f.p : ℤ) - 1 + (j : ℤ)) = 2 ^ j * 2 ^ (-(f.p : ℤ) - 1) := by
      rw [zpow_add₀ (by norm_num), zpow_natCast]; ring
    rw [e, eh] at d3 d4 ⊢
    have l1 : ((n * 2 ^ j - 2 ^ f.p : ℤ) : ℝ) < 1 := by push_cast; nlinarith
    have l2 : (-1 : ℝ) < ((n * 2 ^ j - 2 ^ f.p : ℤ) : ℝ) := by push_cast; nlinarith
    have l3 : n * 2 ^ j - 2 ^ f.p < 1 := by exact_mod_cast l1
    have l4 : -1 < n * 2 ^ j - 2 ^ f.p := by exact_mod_cast l2
    have l5 : n * 2 ^ j = 2 ^ f.p := by omega
    have l6 : (n : ℝ) * 2 ^ j = 2 ^ f.p := by exact_mod_cast l5
    rw [← mul_assoc, l6]
  · exfalso
    have b1 : (n : ℝ) < 2 ^ f.p := by
      have := (Int.cast_lt (R := ℝ)).2 ((le_abs_self n).trans_lt a1)
      push_cast at this
      exact this
    have b2 : (2 : ℝ) ^ k ≤ 2 ^ (-(f.p : ℤ) - 2) := zpow_le_zpow_right₀ (by norm_num) (by omega)
    have b3 : (0 : ℝ) < 2 ^ k := by positivity
    have b4 : (n : ℝ) * 2 ^ k ≤ 2 ^ f.p * 2 ^ (-(f.p : ℤ) - 2) :=
      le_trans (mul_le_mul_of_nonneg_right b1.le b3.le) (mul_le_mul_of_nonneg_left b2 (by positivity))
    have b5 : (2 : ℝ) ^ f.p * 2 ^ (-(f.p : ℤ) - 2) = 1 / 4 := by rw [e1] at eh; linarith
    have b6 : (2 : ℝ) ^ (-(f.p : ℤ) - 2) < 1 / 4 := by
      have : (2 : ℝ) ^ (-(f.p : ℤ) - 2) ≤ 2 ^ (-4 : ℤ) := zpow_le_zpow_right₀ (by norm_num) (by omega)
      norm_num at this ⊢
      linarith
    linarith

/-- A normal distribution whose tails are rounded to `1/2` on both sides of the interval `[-1, 1]` has log density `+inf` at 0. -/
theorem wide_normal (hf : f.Usable) (h : Nearest f fl) (scale : ℝ) (hs : 1 ≤ scale) (hms : f.Mem scale) (hbig : scale + 8 < f.limit) (hm : f.Mem (1 / scale))
    (hhalf : ∀ v, 1 / 2 - 1 / scale ≤ v → v ≤ 1 / 2 → fl v = fin (1 / 2)) :
    truncnormLogpdf fl (fin 0) 0 scale (fin (-1)) (fin 1) = pinf := by
  classical
  have z := mem_zero hf
  have o := mem_one hf
  have s0 : 0 < scale := by linarith
  have b0 : 0 < 1 / scale := by positivity
  have ha : div fl (sub fl (fin (-1)) (fin 0)) (fin scale) = fin (-(1 / scale)) := by
    rw [sub_def, sub_zero, h.exact o.neg, div_def _ _ s0.ne', neg_div, h.exact hm.neg]
  have hb : div fl (sub fl (fin 1) (fin 0)) (fin scale) = fin (1 / scale) := by
    rw [sub_def, sub_zero, h.exact o, div_def _ _ s0.ne', h.exact hm]
  have hz : div fl (sub fl (fin 0) (fin 0)) (fin scale) = fin 0 := by
    rw [sub_def, sub_zero, h.exact z, div_def _ _ s0.ne', zero_div, h.exact z]
  obtain ⟨t1, t2⟩ := ndtr_near_zero b0.le
  have hn : rd fl (Num.ndtr (fin (-(1 / scale)))) = fin (1 / 2) := hhalf _ t2 t1
  have l1 : ¬ (le (fin (1 / scale)) (fin 0)) := by show ¬ (1 / scale ≤ 0); linarith
  have l2 : ¬ (lt (fin 0) (fin (-(1 / scale)))) := by show ¬ (0 < -(1 / scale)); linarith
  have l3 : lt (fin 0) (fin (1 / scale)) := b0
  have l4 : ¬ (lt (fin 0) (fin (-1))) := by show ¬ ((0 : ℝ) < -1); norm_num
  have l5 : ¬ (lt (fin 1) (fin 0)) := by show ¬ ((1 : ℝ) < 0); norm_num
  have l6 : ¬ (scale ≤ 0) := by linarith
  have e1 : (-(fin (1 / scale)) : XR) = fin (-(1 / scale)) := rfl
  have e2 : (-(fin (1 / 2)) : XR) = fin (-(1 / 2)) := rfl
  have e3 : sub fl (fin (-(1 / 2))) (fin (1 / 2)) = fin (-1) := by
    rw [sub_def, show (-(1 / 2) - 1 / 2 : ℝ) = -1 by norm_num, h.exact o.neg]
  have e4 : rd fl (log1p (fin (-1))) = ninf := by
    show rd fl (XR.log (fin (1 + -1))) = _
    simp [XR.log, rd]
  -- the finite part
  obtain ⟨L, hL⟩ : ∃ L : ℝ, L = Real.log (2 * Real.pi) := ⟨_, rfl⟩
  have p1 := Real.pi_gt_three
  have p2 := Real.pi_le_four
  have m7 : f.Mem 7 := by simpa using mem_int hf 7 (by norm_num)
  have L0 : 0 ≤ L := by rw [hL]; exact Real.log_nonneg (by linarith)
  have L7 : L ≤ 7 := by
    rw [hL]
    have := Real.log_le_sub_one_of_pos (show 0 < 2 * Real.pi by linarith)
    linarith
  obtain ⟨c, hc, hcm, c0, c7⟩ := h.between z m7 L0 L7
  obtain ⟨g, hg, _, hg7⟩ := h.abs_le (x := -1 / 2 * c) m7 (by rw [abs_le]; constructor <;> linarith)
  have q0 : 0 ≤ Real.log scale := Real.log_nonneg hs
  have q1 : Real.log scale ≤ scale := by
    have := Real.log_le_sub_one_of_pos s0
    linarith
  obtain ⟨q, hq, _, hq0, hq1⟩ := h.between z hms q0 q1
  obtain ⟨g1, g2⟩ := abs_le.1 hg7
  obtain ⟨w, hw, _⟩ := h.inside (g - q) (by rw [abs_lt]; constructor <;> linarith)
  have e5 : mul fl (fin 0) (fin 0) = fin 0 := by rw [mul_def, mul_zero, h.exact z]
  have e6 : add fl (fin 0) (fin c) = fin c := by rw [add_def, zero_add, h.exact hcm]
  have e7 : mul fl (fin (-1 / 2)) (fin c) = fin g := by rw [mul_def, hg]
  have e8 : rd fl (XR.log (fin scale)) = fin q := by simp [XR.log, s0, rd, hq]
  have e9 : sub fl (fin g) (fin q) = fin w := by rw [sub_def, hw]
  have e10 : sub fl (fin w) ninf = pinf := rfl
  unfold truncnormLogpdf
  simp only [l6, if_false, ha, hb, hz, l1, l2, l3, if_true, e1, hn, e2, e3, e4, e5, ← hL, hc, e6, e7, e8, e9, e10, l4, l5, decide_false,
    Bool.or_false, select, Bool.false_eq_true]

end GW.Rounding
