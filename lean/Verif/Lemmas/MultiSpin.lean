import Verif.Model.MultiSpin
import Verif.Spec.MultiSpin
import Verif.Props.Smoothed

/-!
# Lemmas about the model with spins per component
-/

namespace GW.MultiSpin
open GW XR GW.PowerLaw GW.Constraints GW.Num GW.Mass ProbabilityTheory MeasureTheory
open GW.MultiSpin.Spec
open scoped Classical

/-! ## Truncated normals and tilts -/

theorem between_fin (a b : ℝ) : between (fin a) (fin b) = Set.Icc a b := by
  ext y
  simp [between]

theorem gauss_pos_int {loc scale lo hi : ℝ} (hs : 0 < scale) (h : lo < hi) : 0 < ∫ y in lo..hi, gaussianPDFReal loc (scale ^ 2).toNNReal y := by
  have p := (C27_truncnorm loc scale (fin lo) (fin hi) hs h).1
  rwa [between_fin, integral_Icc_eq_integral_Ioc, ← intervalIntegral.integral_of_le h.le] at p

theorem cut_nonneg {loc scale lo hi : ℝ} (hs : 0 < scale) (h : lo < hi) (x : ℝ) : 0 ≤ cutNormal loc scale lo hi x := by
  unfold cutNormal
  split_ifs
  · exact div_nonneg (gaussianPDFReal_nonneg _ _ _) (gauss_pos_int hs h).le
  · exact le_refl _

theorem cut_spec {loc scale lo hi : ℝ} (hs : 0 < scale) (h : lo < hi) (x : ℝ) :
    IsLog (truncnormLogpdf (fin x) loc scale (fin lo) (fin hi)) ∧ expR (truncnormLogpdf (fin x) loc scale (fin lo) (fin hi)) = cutNormal loc scale lo hi x := by
  obtain ⟨-, -, o, -⟩ := C27_truncnorm loc scale (fin lo) (fin hi) hs h
  by_cases hx : lo ≤ x ∧ x ≤ hi
  · obtain ⟨e, p⟩ := truncGauss_spec (loc := loc) hs hx.1 hx.2 h
    have : IsLog (truncnormLogpdf (fin x) loc scale (fin lo) (fin hi)) := by
      cases ht : truncnormLogpdf (fin x) loc scale (fin lo) (fin hi) <;> rw [ht] at e <;> simp_all [IsLog]
    refine ⟨this, ?_⟩
    rw [exp_isLog this] at e
    rw [fin.inj e, cutNormal, if_pos hx, truncGauss]
  · have : truncnormLogpdf (fin x) loc scale (fin lo) (fin hi) = ninf := by
      apply o
      rw [not_and_or, not_le, not_le] at hx
      exact hx
    rw [this, cutNormal, if_neg hx]
    exact ⟨isLog_ninf, rfl⟩

theorem cut_eq_indicator (loc scale lo hi : ℝ) : cutNormal loc scale lo hi =
    (Set.Icc lo hi).indicator fun x => gaussianPDFReal loc (scale ^ 2).toNNReal x / ∫ y in lo..hi, gaussianPDFReal loc (scale ^ 2).toNNReal y := by
  ext x
  simp only [cutNormal, Set.indicator_apply, Set.mem_Icc]

theorem cut_integrable (loc scale lo hi : ℝ) : Integrable (cutNormal loc scale lo hi) := by
  rw [cut_eq_indicator]
  exact ((integrable_gaussianPDFReal _ _).div_const _).indicator measurableSet_Icc

theorem cut_integral {loc scale lo hi : ℝ} (hs : 0 < scale) (h : lo < hi) : ∫ x, cutNormal loc scale lo hi x = 1 := by
  rw [cut_eq_indicator, integral_indicator measurableSet_Icc, integral_div, integral_Icc_eq_integral_Ioc, ← intervalIntegral.integral_of_le h.le]
  exact div_self (gauss_pos_int hs h).ne'

theorem tilts_nonneg {z l1 s1 l2 s2 : ℝ} (h1 : 0 < s1) (h2 : 0 < s2) (z0 : 0 ≤ z) (z1 : z ≤ 1) (t1 t2 : ℝ) : 0 ≤ tilts z l1 s1 l2 s2 t1 t2 := by
  unfold tilts
  split_ifs
  · have := cut_nonneg (loc := l1) (lo := -1) (hi := 1) h1 (by norm_num) t1
    have := cut_nonneg (loc := l2) (lo := -1) (hi := 1) h2 (by norm_num) t2
    have : 0 ≤ 1 - z := by linarith
    positivity
  · exact le_refl _

/-- The inner integral. -/
theorem tilts_inner {z l1 s1 l2 s2 : ℝ} (h2 : 0 < s2) (t1 : ℝ) :
    Integrable (fun t2 => tilts z l1 s1 l2 s2 t1 t2) ∧
    ∫ t2, tilts z l1 s1 l2 s2 t1 t2 = z * cutNormal l1 s1 (-1) 1 t1 + (1 - z) * (Set.Icc (-1 : ℝ) 1).indicator (fun _ => (1 / 2 : ℝ)) t1 := by
  by_cases ht : -1 ≤ t1 ∧ t1 ≤ 1
  · have e : (fun t2 => tilts z l1 s1 l2 s2 t1 t2) = fun t2 => z * cutNormal l1 s1 (-1) 1 t1 * cutNormal l2 s2 (-1) 1 t2 + (Set.Icc (-1 : ℝ) 1).indicator (fun _ => (1 - z) * (1 / 4)) t2 := by
      ext t2
      by_cases h' : -1 ≤ t2 ∧ t2 ≤ 1
      · simp only [tilts, ht, h', and_self, if_true, Set.indicator_apply, Set.mem_Icc]
        ring
      · have : cutNormal l2 s2 (-1) 1 t2 = 0 := if_neg h'
        rw [this]
        simp only [tilts, ht, h', and_false, if_false, Set.indicator_apply, Set.mem_Icc]
        ring
    have i1 : Integrable (fun t2 => z * cutNormal l1 s1 (-1) 1 t1 * cutNormal l2 s2 (-1) 1 t2) := (cut_integrable _ _ _ _).const_mul _
    have i2 : Integrable ((Set.Icc (-1 : ℝ) 1).indicator (fun _ => (1 - z) * (1 / 4))) := by
      rw [integrable_indicator_iff measurableSet_Icc]
      exact integrableOn_const (by simp)
    rw [e]
    refine ⟨i1.add i2, ?_⟩
    rw [integral_add i1 i2, integral_const_mul, cut_integral h2 (by norm_num), integral_indicator measurableSet_Icc, setIntegral_const]
    have : t1 ∈ Set.Icc (-1 : ℝ) 1 := ht
    simp only [Set.indicator_apply, this, if_true, Real.volume_real_Icc]
    norm_num
    ring
  · have e : (fun t2 => tilts z l1 s1 l2 s2 t1 t2) = fun _ => 0 := by
      ext t2
      simp only [tilts, ht, false_and, if_false]
    have c : cutNormal l1 s1 (-1) 1 t1 = 0 := if_neg ht
    have : ¬ t1 ∈ Set.Icc (-1 : ℝ) 1 := ht
    rw [e, c]
    simp only [Set.indicator_apply, this, if_false]
    simp

theorem tilts_outer {z l1 s1 l2 s2 : ℝ} (h1 : 0 < s1) (h2 : 0 < s2) :
    Integrable (fun t1 => ∫ t2, tilts z l1 s1 l2 s2 t1 t2) ∧ ∫ t1, ∫ t2, tilts z l1 s1 l2 s2 t1 t2 = 1 := by
  have i1 : Integrable (fun t1 => z * cutNormal l1 s1 (-1) 1 t1) := (cut_integrable _ _ _ _).const_mul _
  have i2 : Integrable (fun t1 => (1 - z) * (Set.Icc (-1 : ℝ) 1).indicator (fun _ => (1 / 2 : ℝ)) t1) := by
    apply Integrable.const_mul
    rw [integrable_indicator_iff measurableSet_Icc]
    exact integrableOn_const (by simp)
  simp only [fun t1 => (tilts_inner (z := z) (l1 := l1) (s1 := s1) (l2 := l2) h2 t1).2]
  refine ⟨i1.add i2, ?_⟩
  rw [integral_add i1 i2, integral_const_mul, integral_const_mul, cut_integral h1 (by norm_num), integral_indicator measurableSet_Icc, setIntegral_const]
  simp only [Real.volume_real_Icc]
  norm_num

/-! ## Log-sum-exp over the finite entries -/

theorem lse_finite (l : List XR) (h : ∀ x ∈ l, IsLog x) : logsumexpWhere (l.map fun c => (c, !c.isNegInf)) = log (fin (l.map expR).sum) := by
  rw [logsumexpWhere_eq]
  · congr 2
    clear h
    induction l with
    | nil => rfl
    | cons x xs ih =>
      cases hx : x.isNegInf with
      | false => simp [hx, ih]
      | true =>
        have : x = ninf := (isNegInf_iff x).1 hx
        subst this
        simp [ih]
  · intro p hp _
    obtain ⟨x, hx, rfl⟩ := List.mem_map.1 hp
    exact h x hx

theorem logaddexp_log {x y : XR} (hx : IsLog x) (hy : IsLog y) (hp : 0 < expR x + expR y) : logaddexp x y = fin (Real.log (expR x + expR y)) := by
  rcases hx.cases with rfl | ⟨a, rfl⟩ <;> rcases hy.cases with rfl | ⟨b, rfl⟩
  · simp at hp
  · have e : log1p (exp (-(XR.abs ninf))) = fin 0 := by
      rw [show exp (-(XR.abs ninf)) = fin 0 from rfl, log1p_fin (by norm_num)]
      simp
    have m : XR.max ninf (fin b) = fin b := rfl
    simp [logaddexp, e, m]
  · have e : log1p (exp (-(XR.abs pinf))) = fin 0 := by
      rw [show exp (-(XR.abs pinf)) = fin 0 from rfl, log1p_fin (by norm_num)]
      simp
    have m : XR.max (fin a) ninf = fin a := rfl
    simp [logaddexp, e, m]
  · rw [logaddexp_fin]
    simp

theorem log1p_spec {x : ℝ} (h : x ≤ 1) : IsLog (log1p (-(fin x))) ∧ expR (log1p (-(fin x))) = 1 - x := by
  rcases h.lt_or_eq with h | h
  · have : 0 < 1 + -x := by linarith
    rw [neg_fin, log1p_fin this]
    refine ⟨isLog_fin _, ?_⟩
    rw [expR_fin, Real.exp_log this]
    ring
  · subst h
    simp [log1p, isLog_ninf]

theorem log_spec {x : ℝ} (h : 0 ≤ x) : IsLog (log (fin x)) ∧ expR (log (fin x)) = x := by
  refine ⟨isLog_log_sum h, ?_⟩
  rcases h.lt_or_eq with h | h
  · rw [log_fin_pos h, expR_fin, Real.exp_log h]
  · rw [← h]
    simp

/-! ## The primary-mass components -/

/-- The four parts of the primary-mass density before smoothing: the power law below and above the break, and the two peaks. -/
noncomputable def massPart (p : TwoPeak) (m : ℝ) : Fin 4 → ℝ :=
  let law := brokenShape p.alpha1 p.alpha2 p.mbreak m / ∫ t in p.m1min..p.mmax, brokenShape p.alpha1 p.alpha2 p.mbreak t
  ![p.lambda0 * (if m < p.mbreak then law else 0), p.lambda0 * (if m < p.mbreak then 0 else law),
    p.lambda1 * truncGauss p.loc1 p.scale1 p.m1min p.mmax m, (1 - (p.lambda0 + p.lambda1)) * truncGauss p.loc2 p.scale2 p.m1min p.mmax m]

theorem massPart_sum (p : TwoPeak) (m : ℝ) : ∑ k, massPart p m k = p.mixture m := by
  simp only [massPart, Fin.sum_univ_four, TwoPeak.mixture]
  simp only [Matrix.cons_val_zero, Matrix.cons_val_one, Matrix.cons_val]
  split_ifs <;> ring

theorem massPart_nonneg {p : TwoPeak} (h : p.Proper) {m : ℝ} (h0 : p.m1min ≤ m) (h1 : m ≤ p.mmax) (k : Fin 4) : 0 ≤ massPart p m k := by
  have hmm : p.m1min < p.mmax := h.brk.trans h.max
  have a := (broken_spec h h0 h1).2.le
  have b := (truncGauss_spec (loc := p.loc1) h.s1 h0 h1 hmm).2.le
  have c := (truncGauss_spec (loc := p.loc2) h.s2 h0 h1 hmm).2.le
  have l0 := h.l0
  have l1 := h.l1
  have l2 : 0 ≤ 1 - (p.lambda0 + p.lambda1) := by linarith [h.l]
  fin_cases k
  · simp only [massPart]
    simp only [Fin.zero_eta, Matrix.cons_val_zero]
    split_ifs <;> positivity
  · simp only [massPart]
    simp only [Fin.mk_one, Matrix.cons_val_one, Matrix.cons_val_zero]
    split_ifs <;> positivity
  · simp only [massPart]
    simp only [Fin.reduceFinMk, Matrix.cons_val]
    positivity
  · simp only [massPart]
    simp only [Fin.reduceFinMk, Matrix.cons_val]
    positivity

theorem bpl_norm {p : TwoPeak} (h : p.Proper) :
    ∃ c, logaddexp (-(logProbX (fin p.mbreak) (-p.alpha1) (fin p.m1min) (fin p.mbreak))) (-(logProbX (fin p.mbreak) (-p.alpha2) (fin p.mbreak) (fin p.mmax))) = fin c ∧
      ∀ m, p.m1min ≤ m → m ≤ p.mmax → Real.exp ((if m < p.mbreak then p.alpha1 else p.alpha2) * (Real.log p.mbreak - Real.log m) - c) =
        brokenShape p.alpha1 p.alpha2 p.mbreak m / ∫ t in p.m1min..p.mmax, brokenShape p.alpha1 p.alpha2 p.mbreak t := by
  have hb := h.m1.trans h.brk
  have e1 := logProbFn_eq (α := -p.alpha1) h.m1 h.brk hb
  have e2 := logProbFn_eq (α := -p.alpha2) hb h.max hb
  simp only [logProbFn] at e1 e2
  have hc := (⟨_, by rw [e1, e2, neg_fin, neg_fin, logaddexp_fin]⟩ : ∃ c, logaddexp (-(logProbX (fin p.mbreak) (-p.alpha1) (fin p.m1min) (fin p.mbreak)))
    (-(logProbX (fin p.mbreak) (-p.alpha2) (fin p.mbreak) (fin p.mmax))) = fin c)
  obtain ⟨c, hc⟩ := hc
  refine ⟨c, hc, ?_⟩
  intro m h0 h1
  have hm := h.m1.trans_le h0
  have e := (broken_spec h h0 h1).1
  have hr : 0 < p.mbreak / m := div_pos hb hm
  simp only [brokenLogProb, hc, div_fin_of_ne _ hm.ne', log_fin_pos hr] at e
  rw [← Real.log_div hb.ne' hm.ne']
  by_cases hlt : m < p.mbreak
  · simp only [hlt, if_true]
    simp only [lt_fin_fin, hlt, decide_true, select_true, mul_fin_fin, sub_fin_fin, exp_fin] at e
    exact fin.inj e
  · simp only [hlt, if_false]
    simp only [lt_fin_fin, hlt, decide_false, select_false, mul_fin_fin, sub_fin_fin, exp_fin] at e
    exact fin.inj e

theorem m1Components_spec {d : Model} (h : d.mass.Proper) {m : ℝ} (hm1 : m ≤ d.mass.mmax) :
    ∃ c : Fin 4 → XR, d.m1Components (fin m) = [c 0, c 1, c 2, c 3] ∧ (∀ k, IsLog (c k)) ∧
      (m < d.mass.m1min → ∀ k, c k = ninf) ∧ (d.mass.m1min ≤ m → ∀ k, expR (c k) = massPart d.mass m k * planckTaper ((m - d.mass.m1min) / d.mass.delta1)) := by
  by_cases hlow : m < d.mass.m1min
  · refine ⟨fun _ => ninf, ?_, fun _ => isLog_ninf, fun _ _ => rfl, fun h' => absurd h' (not_le.2 hlow)⟩
    simp [Model.m1Components, hlow]
  · have h0 := not_lt.1 hlow
    obtain ⟨c, hc, hx⟩ := bpl_norm h
    have hx := hx m h0 hm1
    have hm := h.m1.trans_le h0
    have hb := h.m1.trans h.brk
    have hmm : d.mass.m1min < d.mass.mmax := h.brk.trans h.max
    have hp := C25_log_window ((m - d.mass.m1min) / d.mass.delta1)
    have ga := cut_spec (loc := d.mass.loc1) h.s1 hmm m
    have gb := cut_spec (loc := d.mass.loc2) h.s2 hmm m
    have hcut : ∀ loc scale : ℝ, cutNormal loc scale d.mass.m1min d.mass.mmax m = truncGauss loc scale d.mass.m1min d.mass.mmax m := fun loc scale => if_pos ⟨h0, hm1⟩
    rw [hcut] at ga gb
    have l0 := log_spec h.l0
    have l1 := log_spec h.l1
    have l2 := log1p_spec h.l
    have hlt : decide (lt (fin m) (fin d.mass.m1min)) = false := by simp [hlow]
    set S := logPlanck (fin ((m - d.mass.m1min) / d.mass.delta1)) with hS
    set T := planckTaper ((m - d.mass.m1min) / d.mass.delta1) with hT
    set b1 : XR := select (decide (lt (fin m) (fin d.mass.mbreak))) (fin d.mass.alpha1 * (log (fin d.mass.mbreak) - log (fin m))) ninf with hb1
    set b2 : XR := select (decide (lt (fin m) (fin d.mass.mbreak))) ninf (fin d.mass.alpha2 * (log (fin d.mass.mbreak) - log (fin m))) with hb2
    have B1 : IsLog b1 ∧ expR b1 / Real.exp c = if m < d.mass.mbreak then brokenShape d.mass.alpha1 d.mass.alpha2 d.mass.mbreak m /
        ∫ t in d.mass.m1min..d.mass.mmax, brokenShape d.mass.alpha1 d.mass.alpha2 d.mass.mbreak t else 0 := by
      by_cases hlt : m < d.mass.mbreak
      · rw [if_pos hlt] at hx ⊢
        simp only [hb1, lt_fin_fin, hlt, decide_true, select_true, log_fin_pos hm, log_fin_pos hb, sub_fin_fin, mul_fin_fin]
        refine ⟨isLog_fin _, ?_⟩
        rw [expR_fin, ← Real.exp_sub, hx]
      · simp [hb1, hlt, isLog_ninf]
    have B2 : IsLog b2 ∧ expR b2 / Real.exp c = if m < d.mass.mbreak then 0 else brokenShape d.mass.alpha1 d.mass.alpha2 d.mass.mbreak m /
        ∫ t in d.mass.m1min..d.mass.mmax, brokenShape d.mass.alpha1 d.mass.alpha2 d.mass.mbreak t := by
      by_cases hlt : m < d.mass.mbreak
      · simp [hb2, hlt, isLog_ninf]
      · rw [if_neg hlt] at hx ⊢
        simp only [hb2, lt_fin_fin, hlt, decide_false, select_false, log_fin_pos hm, log_fin_pos hb, sub_fin_fin, mul_fin_fin]
        refine ⟨isLog_fin _, ?_⟩
        rw [expR_fin, ← Real.exp_sub, hx]
    refine ⟨![log (fin d.mass.lambda0) + b1 - fin c + S, log (fin d.mass.lambda0) + b2 - fin c + S,
      log (fin d.mass.lambda1) + truncnormLogpdf (fin m) d.mass.loc1 d.mass.scale1 (fin d.mass.m1min) (fin d.mass.mmax) + S,
      log1p (-(fin (d.mass.lambda0 + d.mass.lambda1))) + truncnormLogpdf (fin m) d.mass.loc2 d.mass.scale2 (fin d.mass.m1min) (fin d.mass.mmax) + S], ?_, ?_, fun h' => absurd h' hlow, fun _ => ?_⟩
    · simp only [Model.m1Components, decide_eq_false (not_le.2 h.d1), hlt, Bool.or_false, select_false, planck_frac _ _ _ h.d1, hc, List.map_cons, List.map_nil]
      rfl
    · intro k
      fin_cases k
      · exact (IsLog.sub_fin (l0.1.add B1.1) c).add hp.2.1
      · exact (IsLog.sub_fin (l0.1.add B2.1) c).add hp.2.1
      · exact (l1.1.add ga.1).add hp.2.1
      · exact (l2.1.add gb.1).add hp.2.1
    · intro k
      fin_cases k
      · show expR (log (fin d.mass.lambda0) + b1 - fin c + S) = _ * (if m < d.mass.mbreak then _ else 0) * T
        rw [expR_add (IsLog.sub_fin (l0.1.add B1.1) c) hp.2.1, expR_sub_fin (l0.1.add B1.1), expR_add l0.1 B1.1, hp.2.2, l0.2, ← B1.2]
        ring
      · show expR (log (fin d.mass.lambda0) + b2 - fin c + S) = _ * (if m < d.mass.mbreak then 0 else _) * T
        rw [expR_add (IsLog.sub_fin (l0.1.add B2.1) c) hp.2.1, expR_sub_fin (l0.1.add B2.1), expR_add l0.1 B2.1, hp.2.2, l0.2, ← B2.2]
        ring
      · show expR (log (fin d.mass.lambda1) + _ + S) = _ * _ * T
        rw [expR_add (l1.1.add ga.1) hp.2.1, expR_add l1.1 ga.1, hp.2.2, l1.2, ga.2]
      · show expR (log1p _ + _ + S) = _ * _ * T
        rw [expR_add (l2.1.add gb.1) hp.2.1, expR_add l2.1 gb.1, hp.2.2, l2.2, gb.2]

/-! ## The two classes compute the same normalisations -/

theorem comps_sum {d : Model} (h : d.mass.Proper) {m : ℝ} (hm : m ≤ d.mass.mmax) : sum ((d.m1Components (fin m)).map exp) = exp (d.mass.m1Unnorm (fin m)) := by
  obtain ⟨c, e, hl, hlow, hx⟩ := m1Components_spec h hm
  have u := TwoPeak.m1Unnorm_spec h hm
  rw [exp_isLog u.1, u.2, e]
  simp only [List.map_cons, List.map_nil, exp_isLog (hl _), sum_cons, sum_nil]
  have : (0 : XR) = fin 0 := rfl
  rw [add_fin_fin, add_fin_fin, add_fin_fin, add_fin_fin]
  congr 1
  by_cases hm0 : m < d.mass.m1min
  · simp [hlow hm0, TwoPeak.smooth, planck_zero h.d1 hm0.le]
  · have hx := hx (not_lt.1 hm0)
    have := massPart_sum d.mass m
    rw [Fin.sum_univ_four] at this
    rw [hx, hx, hx, hx, TwoPeak.smooth, ← this]
    ring

theorem logZ_same {d : Model} (h : d.mass.Proper) : d.logZ = d.mass.logZ := by
  have hmm : d.mass.m1min ≤ d.mass.mmax := (h.brk.trans h.max).le
  simp only [Model.logZ, TwoPeak.logZ]
  have e : ((linspace d.mass.m1min d.mass.mmax 1000).map fun m => sum ((d.m1Components m).map exp)) = (linspace d.mass.m1min d.mass.mmax 1000).map fun m => exp (d.mass.m1Unnorm m) := by
    rw [linspace_eq, List.map_map, List.map_map]
    apply List.map_congr_left
    intro m hm
    exact comps_sum h (linR_mem_Icc hmm (by norm_num) hm).2
  rw [e]

theorem qUnnorm_same {d : Model} (h : d.mass.Proper) (hv : d.mass.validate = true) {m q : ℝ} (h0 : d.mass.m2min ≤ m) (h1 : m ≤ d.mass.mmax) (hq : q ≤ 1) :
    d.qUnnorm (fin m) (fin q) = d.mass.qUnnorm (fin m) (fin q) := by
  by_cases hsup : d.mass.support (fin m) (fin q) = true
  · simp only [Model.qUnnorm, TwoPeak.qUnnorm, validated, hsup, select_true, ite_self]
  · have hlt : m * q < d.mass.m2min := by
      by_contra hc
      apply hsup
      rw [TwoPeak.support, accepts_iff, C19_ratio_iff]
      exact ⟨h.m2, h0, h1, (div_le_iff₀ (h.m2.trans_le h0)).2 (by linarith [not_lt.1 hc]), hq⟩
    rw [Bool.not_eq_true] at hsup
    simp only [Model.qUnnorm, TwoPeak.qUnnorm, validated, hv, hsup, select_false, if_true, mul_fin_fin]
    simp [hlt]

theorem zq_same {d : Model} (h : d.mass.Proper) (hv : d.mass.validate = true) : d.zq = d.mass.zq := by
  simp only [Model.zq, TwoPeak.zq, zqTable, Model.m1s, TwoPeak.m1s]
  rw [linspace_eq d.mass.m2min, List.map_map, List.map_map]
  apply List.map_congr_left
  intro m hm
  have a := linR_mem_Icc h.m2max.le (by norm_num) hm
  have e : ((linspace 0.005 1 500).map fun q => exp (d.qUnnorm (fin m) q)) = (linspace 0.005 1 500).map fun q => exp (d.mass.qUnnorm (fin m) q) := by
    rw [linspace_eq, List.map_map, List.map_map]
    apply List.map_congr_left
    intro q hq
    have b := linR_mem_Icc (by norm_num) (by norm_num) hq
    simp only [Function.comp]
    rw [qUnnorm_same h hv a.1 a.2 b.2]
  simp only [Function.comp]
  rw [e]

end GW.MultiSpin
