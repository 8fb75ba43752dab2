import Verif.Model.Smoothed
import Verif.Lemmas.Numeric
import Verif.Props.Planck
import Verif.Props.Numeric
import Verif.Props.MassModels

/-!
# C25: smoothed mass models
-/

namespace GW.Mass
open GW XR GW.PowerLaw GW.Constraints GW.Num ProbabilityTheory
open scoped Classical

/-! ## Helpers -/

theorem exp_isLog {x : XR} (h : IsLog x) : exp x = fin (expR x) := by
  rcases h.cases with h | ⟨a, h⟩ <;> simp [h]

theorem IsLog.sub_fin {x : XR} (h : IsLog x) (a : ℝ) : IsLog (x - fin a) := by
  rcases h.cases with h | ⟨b, h⟩
  · rw [h]
    exact isLog_ninf
  · rw [h, sub_fin_fin]
    exact isLog_fin _

theorem expR_sub_fin {x : XR} (h : IsLog x) (a : ℝ) : expR (x - fin a) = expR x / Real.exp a := by
  rcases h.cases with h | ⟨b, h⟩
  · rw [h]
    simp
  · rw [h, sub_fin_fin, expR_fin, expR_fin, Real.exp_sub]

theorem trapR_pos : ∀ {ys xs : List ℝ} (_ : ys.length = xs.length) (_ : 2 ≤ xs.length) (_ : ∀ y ∈ ys, 0 ≤ y) (_ : ∀ h : 1 < ys.length, (0 : ℝ) < ys[1])
    (_ : xs.Pairwise (· < ·)), 0 < trapR ys xs
  | y0 :: y1 :: ys, x0 :: x1 :: xs, _, _, hy, h1, hx => by
    rw [trapR]
    have a := trapR_nonneg (y1 :: ys) (x1 :: xs) (fun y h => hy y (List.mem_cons_of_mem _ h)) (hx.tail.imp le_of_lt)
    have b : x0 < x1 := (List.pairwise_cons.1 hx).1 x1 (by simp)
    have c := hy y0 (by simp)
    have d : 0 < y1 := h1 (by simp)
    have : 0 < (x1 - x0) * (y1 + y0) := mul_pos (by linarith) (by linarith)
    linarith
  | [], [], _, h, _, _, _ => absurd h (by simp)
  | [_], [_], _, h, _, _, _ => absurd h (by simp)

theorem trap_exp {f : XR → XR} {xs : List ℝ} (h : ∀ x ∈ xs, IsLog (f (fin x))) :
    trapezoid ((xs.map fin).map fun m => exp (f m)) (xs.map fin) = fin (trapR (xs.map fun x => expR (f (fin x))) xs) := by
  rw [← trapezoid_fin]
  congr 1
  rw [List.map_map, List.map_map]
  apply List.map_congr_left
  intro x hx
  simp [exp_isLog (h x hx)]

theorem linR_eq_nodes (a b : ℝ) {n : ℕ} (hn : 2 ≤ n) : linR a b n = (List.range n).map (node a b n) := by
  apply List.ext_getElem
  · simp
  · intro i h1 h2
    rw [linR_getElem a b hn h1]
    simp [node]

theorem trapR_linR (f : ℝ → ℝ) (a b : ℝ) {n : ℕ} (hn : 2 ≤ n) : trapR ((linR a b n).map f) (linR a b n) = trapz f a b n := by
  have h := (C27_cumtrapz n (by omega) (fun i => f (node a b n i)) (node a b n)).2.2
  have e1 : ((List.range n).map fun i => fin (f (node a b n i))) = ((linR a b n).map f).map fin := by
    rw [linR_eq_nodes a b hn]
    simp [List.map_map, Function.comp_def]
  have e2 : ((List.range n).map fun i => fin (node a b n i)) = (linR a b n).map fin := by
    rw [linR_eq_nodes a b hn]
    simp [List.map_map, Function.comp_def]
  rw [e1, e2, trapezoid_fin] at h
  injection h

theorem trapz_congr {f g : ℝ → ℝ} {a b : ℝ} (hab : a ≤ b) {n : ℕ} (hn : 2 ≤ n) (h : ∀ x, a ≤ x → x ≤ b → f x = g x) : trapz f a b n = trapz g a b n := by
  rw [← trapR_linR f a b hn, ← trapR_linR g a b hn]
  congr 1
  apply List.map_congr_left
  intro x hx
  have := linR_mem_Icc hab hn hx
  exact h x this.1 this.2

theorem trapz_nonneg {f : ℝ → ℝ} {a b : ℝ} (hab : a ≤ b) {n : ℕ} (hn : 2 ≤ n) (h : ∀ x, a ≤ x → x ≤ b → 0 ≤ f x) : 0 ≤ trapz f a b n := by
  rw [← trapR_linR f a b hn]
  apply trapR_nonneg
  · intro y hy
    obtain ⟨x, hx, rfl⟩ := List.mem_map.1 hy
    have := linR_mem_Icc hab hn hx
    exact h x this.1 this.2
  · exact linR_pairwise hab hn

theorem trapz_pos {f : ℝ → ℝ} {a b : ℝ} (hab : a < b) {n : ℕ} (hn : 2 ≤ n) (h : ∀ x, a ≤ x → x ≤ b → 0 ≤ f x) (h1 : 0 < f (node a b n 1)) : 0 < trapz f a b n := by
  rw [← trapR_linR f a b hn]
  apply trapR_pos (by simp) (by simpa using hn) _ _ (linR_pairwise_lt hab hn)
  · intro y hy
    obtain ⟨x, hx, rfl⟩ := List.mem_map.1 hy
    have := linR_mem_Icc hab.le hn hx
    exact h x this.1 this.2
  · intro hl
    simp only [List.getElem_map]
    rw [linR_getElem a b hn (by simpa using hl)]
    simpa [node] using h1

/-- `jnp.trapezoid(jnp.exp(f(xs)), xs)` on a `linspace`. -/
theorem trap_linspace {f : XR → XR} {g : ℝ → ℝ} {a b : ℝ} (hab : a ≤ b) {n : ℕ} (hn : 2 ≤ n) (h : ∀ x, a ≤ x → x ≤ b → IsLog (f (fin x)) ∧ expR (f (fin x)) = g x) :
    trapezoid ((linspace a b n).map fun m => exp (f m)) (linspace a b n) = fin (trapz g a b n) := by
  rw [linspace_eq, trap_exp, trapR_linR (fun x => expR (f (fin x))) a b hn]
  · congr 1
    exact trapz_congr hab hn fun x h0 h1 => (h x h0 h1).2
  · intro x hx
    have := linR_mem_Icc hab hn hx
    exact (h x this.1 this.2).1

/-- The interpolated mass-ratio normalisation at a mass inside the grid. -/
theorem logZq_interp {lq : XR → XR → XR} {R : ℝ → ℝ → ℝ} {lo hi : ℝ} (hlh : lo < hi)
    (h : ∀ m, lo ≤ m → m ≤ hi → ∀ q, 0 < q → q ≤ 1 → IsLog (lq (fin m) (fin q)) ∧ expR (lq (fin m) (fin q)) = R m q) {m : ℝ} (h0 : lo ≤ m) (h1 : m ≤ hi) (l r : XR) :
    ∃ v, 0 ≤ v ∧ Interpolates (fun m => trapz (R m) 0.005 1 500) lo hi 1000 m v ∧
      logZq (interp (fin m) (linspace lo hi 1000) (zqTable lq (linspace lo hi 1000) (linspace 0.005 1 500)) l r) = fin (Real.log (if v ≤ 0 then 1 else v)) := by
  set T : ℝ → ℝ := fun m => trapz (R m) 0.005 1 500 with hT
  have htab : zqTable lq (linspace lo hi 1000) (linspace 0.005 1 500) = ((linR lo hi 1000).map T).map fin := by
    rw [zqTable, linspace_eq lo hi, List.map_map, List.map_map]
    apply List.map_congr_left
    intro m hm
    have a := linR_mem_Icc hlh.le (by norm_num) hm
    simp only [Function.comp]
    exact trap_linspace (f := lq (fin m)) (by norm_num) (by norm_num) fun q b0 b1 => h m a.1 a.2 q (by linarith [(by norm_num : (0 : ℝ) < 0.005)]) b1
  have hT0 : ∀ m, lo ≤ m → m ≤ hi → 0 ≤ T m := by
    intro m a0 a1
    apply trapz_nonneg (by norm_num) (by norm_num)
    intro q b0 b1
    rw [← (h m a0 a1 q (by linarith [(by norm_num : (0 : ℝ) < 0.005)]) b1).2]
    exact expR_nonneg _
  have n0 : ∀ y ∈ (linR lo hi 1000).map T, 0 ≤ y := by
    intro y hy
    obtain ⟨m, hm, rfl⟩ := List.mem_map.1 hy
    have a := linR_mem_Icc hlh.le (by norm_num) hm
    exact hT0 m a.1 a.2
  have g0 : (linR lo hi 1000)[0]'(by simp) ≤ m := by
    rw [linR_zero lo hi (n := 1000) (by norm_num)]
    exact h0
  have g1 : m ≤ (linR lo hi 1000)[(linR lo hi 1000).length - 1]'(by simp) := by
    simp only [length_linR]
    rw [linR_last lo hi (n := 1000) (by norm_num)]
    exact h1
  obtain ⟨v, hv, e⟩ := interp_nonneg (linR_pairwise_lt hlh (n := 1000) (by norm_num)) (by simp) (by simp) n0 g0 g1 l r
  obtain ⟨i, hi', a0, a1, -, e'⟩ := interp_cell (linR_pairwise_lt hlh (n := 1000) (by norm_num)) (ys := (linR lo hi 1000).map T) (by simp) (by simp) g0 g1 l r
  refine ⟨v, hv, ⟨i, by simpa using hi', ?_, ?_, ?_⟩, ?_⟩
  · rw [linR_getElem lo hi (by norm_num)] at a0
    exact a0
  · rw [linR_getElem lo hi (by norm_num)] at a1
    exact a1
  · have : v = _ := fin.inj (e.symm.trans e')
    rw [this]
    simp only [List.getElem_map]
    rw [linR_getElem lo hi (by norm_num), linR_getElem lo hi (by norm_num)]
    rfl
  · rw [linspace_eq lo hi] at htab ⊢
    rw [htab, e]
    rcases hv.eq_or_lt with hz | hz
    · simp [logZq, ← hz]
    · simp [logZq, not_le.2 hz, hz]

/-- Both two-dimensional models have this form. -/
theorem assemble {lo hi w : ℝ} (h0 : 0 < lo) (hlh : lo < hi) {A : XR → XR} {S : ℝ → ℝ} (hA : ∀ m, lo ≤ m → m ≤ hi → IsLog (A (fin m)) ∧ expR (A (fin m)) = S m)
    {Q : XR → XR → XR} {R : ℝ → ℝ → ℝ} (hQ : ∀ m, lo ≤ m → m ≤ hi → ∀ q, 0 < q → q ≤ 1 → IsLog (Q (fin m) (fin q)) ∧ expR (Q (fin m) (fin q)) = R m q)
    {F : XR → XR → XR} (hF : ∀ m q, F m q = validated true (accepts (.massRatioSandwich lo hi) [m, q])
      ((A m - fin w) + (Q m q - logZq (interp m (linspace lo hi 1000) (zqTable Q (linspace lo hi 1000) (linspace 0.005 1 500)) (fin 1) (fin 1))))) :
    (∀ m q : XR, IsLog (F m q)) ∧ (∀ m q : XR, ¬ (Leaf.massRatioSandwich lo hi).check [m, q] = .ok true → F m q = ninf) ∧
    ∃ Zq : ℝ → ℝ, (∀ m, lo ≤ m → m ≤ hi → ∃ v, 0 ≤ v ∧ Interpolates (fun m => trapz (R m) 0.005 1 500) lo hi 1000 m v ∧ Zq m = if v ≤ 0 then 1 else v) ∧
      ∀ m q : ℝ, (Leaf.massRatioSandwich lo hi).check [fin m, fin q] = .ok true → expR (F (fin m) (fin q)) = S m / Real.exp w * (R m q / Zq m) := by
  have hout : ∀ m q : XR, ¬ (Leaf.massRatioSandwich lo hi).check [m, q] = .ok true → F m q = ninf := by
    intro m q hn
    rw [← accepts_iff, Bool.not_eq_true] at hn
    simp only [hF, validated, hn, select_false, if_true]
  have hZ : ∀ m, ∃ z : ℝ, lo ≤ m → m ≤ hi → 0 < z ∧ (∃ v, 0 ≤ v ∧ Interpolates (fun m => trapz (R m) 0.005 1 500) lo hi 1000 m v ∧ z = if v ≤ 0 then 1 else v) ∧
      logZq (interp (fin m) (linspace lo hi 1000) (zqTable Q (linspace lo hi 1000) (linspace 0.005 1 500)) (fin 1) (fin 1)) = fin (Real.log z) := by
    intro m
    by_cases hm : lo ≤ m ∧ m ≤ hi
    · obtain ⟨v, a, b, c⟩ := logZq_interp hlh hQ hm.1 hm.2 (fin 1) (fin 1)
      refine ⟨if v ≤ 0 then 1 else v, fun _ _ => ⟨?_, ⟨v, a, b, rfl⟩, c⟩⟩
      split_ifs with h
      · exact one_pos
      · exact not_le.1 h
    · exact ⟨0, fun a b => absurd ⟨a, b⟩ hm⟩
  choose Zq hZq using hZ
  have hin : ∀ m q : ℝ, (Leaf.massRatioSandwich lo hi).check [fin m, fin q] = .ok true → IsLog (F (fin m) (fin q)) ∧ expR (F (fin m) (fin q)) = S m / Real.exp w * (R m q / Zq m) := by
    intro m q hsup
    obtain ⟨_, b1, b2, b3, b4⟩ := (C19_ratio_iff _ _ _ _).1 hsup
    have hm := h0.trans_le b1
    have hq : 0 < q := lt_of_lt_of_le (by positivity) b3
    obtain ⟨z0, -, ez⟩ := hZq m b1 b2
    have a1 := hA m b1 b2
    have a2 := hQ m b1 b2 q hq b4
    have hacc : accepts (.massRatioSandwich lo hi) [fin m, fin q] = true := (accepts_iff _ _).2 hsup
    simp only [hF, validated, hacc, select_true, if_true, ez]
    have s1 := IsLog.sub_fin a1.1 w
    have s2 := IsLog.sub_fin a2.1 (Real.log (Zq m))
    refine ⟨s1.add s2, ?_⟩
    rw [expR_add s1 s2, expR_sub_fin a1.1, expR_sub_fin a2.1, a1.2, a2.2, Real.exp_log z0]
  refine ⟨?_, hout, Zq, fun m a b => (hZq m a b).2.1, fun m q hsup => (hin m q hsup).2⟩
  intro m q
  by_cases hsup : (Leaf.massRatioSandwich lo hi).check [m, q] = .ok true
  · obtain ⟨m', b, rfl, hb⟩ := C19_finite_only lo hi m (m * q) (by rwa [← C19_same_set])
    have hq : ∃ q', q = fin q' := by
      have hsm : sandwichMask lo hi (fin m') (fin m' * q) = true := by
        simpa [Leaf.check] using hsup
      have hmm : 0 < m' := by
        rw [hb, sandwichMask_fin] at hsm
        linarith [hsm.1, hsm.2.1, hsm.2.2.1]
      cases q with
      | fin a => exact ⟨a, rfl⟩
      | nan => simp at hb
      | pinf =>
        have : fin m' * pinf = mulInf m' := rfl
        rw [this, mulInf, if_pos hmm] at hb
        simp at hb
      | ninf =>
        have : fin m' * ninf = neg (mulInf m') := rfl
        rw [this, mulInf, if_pos hmm] at hb
        simp [neg] at hb
    obtain ⟨q', rfl⟩ := hq
    exact (hin m' q' hsup).1
  · rw [hout m q hsup]
    exact isLog_ninf

theorem normPdf_fin (x loc : ℝ) {s : ℝ} (hs : 0 < s) : normPdf (fin x) loc s = fin (gaussianPDFReal loc (s ^ 2).toNNReal x) := by
  have h1 : s * s ≠ 0 := by positivity
  have h2 : 0 < 2 * Real.pi * (s * s) := by positivity
  simp only [normPdf, square_fin, mul_fin_fin, log_fin_pos h2, sub_fin_fin, div_fin_of_ne _ h1, add_fin_fin, div_fin_of_ne _ two_ne_zero, neg_fin, exp_fin]
  congr 1
  rw [gaussianPDFReal, Real.coe_toNNReal _ (sq_nonneg s), show -((Real.log (2 * Real.pi * (s * s)) + (x - loc) * (x - loc) / (s * s)) / 2) =
    -(1 / 2 * Real.log (2 * Real.pi * (s * s))) + -(x - loc) ^ 2 / (2 * s ^ 2) by field_simp; ring, Real.exp_add, Real.exp_neg]
  congr 2
  rw [← Real.log_rpow h2, Real.exp_log (by positivity), Real.sqrt_eq_rpow, pow_two]

theorem planck_frac (x lo w : ℝ) (hw : 0 < w) : (fin x - fin lo) / fin (safeWidth w) = fin ((x - lo) / w) := by
  rw [safeWidth, if_neg (not_le.2 hw), sub_fin_fin, div_fin_of_ne _ hw.ne']

/-- What the mass-ratio part of the smoothed models looks like. -/
theorem qpart {beta delta lo m q : ℝ} (hd : 0 < delta) (hq : 0 < q) :
    IsLog (fin beta * log (fin q) + logPlanck ((fin m * fin q - fin lo) / fin (safeWidth delta))) ∧
    expR (fin beta * log (fin q) + logPlanck ((fin m * fin q - fin lo) / fin (safeWidth delta))) = q ^ beta * planckTaper ((m * q - lo) / delta) := by
  have hp := C25_log_window ((m * q - lo) / delta)
  rw [mul_fin_fin, planck_frac _ _ _ hd, log_fin_pos hq, mul_fin_fin]
  refine ⟨(isLog_fin _).add hp.2.1, ?_⟩
  rw [expR_add (isLog_fin _) hp.2.1, hp.2.2, expR_fin, Real.rpow_def_of_pos hq, mul_comm beta]

theorem planck_zero {m lo w : ℝ} (hw : 0 < w) (h : m ≤ lo) : planckTaper ((m - lo) / w) = 0 :=
  (C25_window_shape.1 _).2 (div_nonpos_of_nonpos_of_nonneg (by linarith) hw.le)

theorem planck_one {m lo w : ℝ} (hw : 0 < w) (h : lo + w ≤ m) : planckTaper ((m - lo) / w) = 1 :=
  (C25_window_shape.2.1 _).2 ((one_le_div hw).2 (by linarith))

theorem planck_nonneg (x : ℝ) : 0 ≤ planckTaper x := by
  unfold planckTaper
  split_ifs <;> positivity

theorem planck_pos {x : ℝ} (h : 0 < x) : 0 < planckTaper x :=
  lt_of_le_of_ne (planck_nonneg x) fun e => not_le.2 h ((C25_window_shape.1 x).1 e.symm)

/-- Outside the mass-ratio support but at a positive ratio at most one, with the mass in range: the secondary is too light. -/
theorem light_of_not {lo hi m q : ℝ} (h0 : 0 < lo) (h1 : lo ≤ m) (h2 : m ≤ hi) (hq : q ≤ 1) (hn : accepts (.massRatioSandwich lo hi) [fin m, fin q] = false) : m * q ≤ lo := by
  by_contra hc
  push Not at hc
  have : accepts (.massRatioSandwich lo hi) [fin m, fin q] = true := by
    rw [accepts_iff, C19_ratio_iff]
    have hm : 0 < m := by linarith
    exact ⟨h0, h1, h2, (div_le_iff₀ hm).2 (by linarith), hq⟩
  rw [this] at hn
  exact absurd hn (by simp)

/-! ## Power law plus peak -/

/-- The primary-mass density of the power law plus peak before smoothing. -/
noncomputable def TwoComponent.mixture (d : TwoComponent) (m : ℝ) : ℝ :=
  (1 - d.lambdaPeak) * (m ^ (-d.alpha) / ∫ t in d.mmin..d.mmax, t ^ (-d.alpha)) + d.lambdaPeak * gaussianPDFReal d.loc (d.scale ^ 2).toNNReal m

/-- …and after. -/
noncomputable def TwoComponent.smooth (d : TwoComponent) (m : ℝ) : ℝ := d.mixture m * planckTaper ((m - d.mmin) / d.delta)

/-- The unnormalised mass-ratio density given the primary mass. -/
noncomputable def TwoComponent.ratio (d : TwoComponent) (m q : ℝ) : ℝ := q ^ d.beta * planckTaper ((m * q - d.mmin) / d.delta)

theorem TwoComponent.mixture_pos (d : TwoComponent) (h0 : 0 < d.mmin) (hmax : d.mmin < d.mmax) (hl : 0 ≤ d.lambdaPeak) (hl1 : d.lambdaPeak ≤ 1) (hs : 0 < d.scale) {m : ℝ} (hm : 0 < m) :
    0 < d.mixture m := by
  have hJ : 0 < ∫ t in d.mmin..d.mmax, t ^ (-d.alpha) := J_pos (α := -d.alpha) h0 hmax
  have hv0 : (d.scale ^ 2).toNNReal ≠ 0 := by
    simp only [ne_eq, Real.toNNReal_eq_zero, not_le]
    positivity
  have hg := gaussianPDFReal_pos d.loc (d.scale ^ 2).toNNReal m hv0
  have hpw : 0 < m ^ (-d.alpha) := Real.rpow_pos_of_pos hm _
  unfold TwoComponent.mixture
  rcases hl.eq_or_lt with h | h
  · rw [← h]
    simp only [sub_zero, one_mul, zero_mul, add_zero]
    positivity
  · have h1 : 0 ≤ 1 - d.lambdaPeak := by linarith
    positivity

theorem TwoComponent.m1Unnorm_spec (d : TwoComponent) (h0 : 0 < d.mmin) (hmax : d.mmin < d.mmax) (hd : 0 < d.delta) (hl : 0 ≤ d.lambdaPeak) (hl1 : d.lambdaPeak ≤ 1) (hs : 0 < d.scale)
    {m : ℝ} (hm : 0 < m) : IsLog (d.m1Unnorm (fin m)) ∧ expR (d.m1Unnorm (fin m)) = d.smooth m := by
  have hJ := J_pos (α := -d.alpha) h0 hmax
  have hmix : 0 < (1 - d.lambdaPeak) * m ^ (-d.alpha) * Real.exp (-(Real.log (J (-d.alpha) d.mmin d.mmax))) + d.lambdaPeak * gaussianPDFReal d.loc (d.scale ^ 2).toNNReal m := by
    have := d.mixture_pos h0 hmax hl hl1 hs hm
    rw [Real.exp_neg, Real.exp_log hJ, mul_assoc, ← div_eq_mul_inv]
    exact this
  have hp := C25_log_window ((m - d.mmin) / d.delta)
  have e : d.m1Unnorm (fin m) = fin (Real.log ((1 - d.lambdaPeak) * m ^ (-d.alpha) * Real.exp (-(Real.log (J (-d.alpha) d.mmin d.mmax))) + d.lambdaPeak * gaussianPDFReal d.loc (d.scale ^ 2).toNNReal m))
      + logPlanck (fin ((m - d.mmin) / d.delta)) := by
    simp only [TwoComponent.m1Unnorm, decide_eq_false (not_le.2 hd), select_false, planck_frac _ _ _ hd, logNorm_eq h0 hmax, neg_fin, exp_fin, normPdf_fin _ _ hs, pow_fin_pos hm, mul_fin_fin, add_fin_fin,
      log_fin_pos hmix]
  rw [e]
  refine ⟨(isLog_fin _).add hp.2.1, ?_⟩
  rw [expR_add (isLog_fin _) hp.2.1, hp.2.2, expR_fin, Real.exp_log hmix, TwoComponent.smooth, TwoComponent.mixture, Real.exp_neg, Real.exp_log hJ, J]
  ring

/-- The analytic part of the normalisation is the integral of the mixture above the smoothing range. -/
theorem TwoComponent.integral_mixture (d : TwoComponent) {a : ℝ} (ha : 0 < a) (hmax : a < d.mmax) (hs : 0 < d.scale) :
    ∫ m in a..d.mmax, d.mixture m = (1 - d.lambdaPeak) * (J (-d.alpha) a d.mmax / J (-d.alpha) d.mmin d.mmax)
      + d.lambdaPeak * (PhiX (fin ((d.mmax - d.loc) / d.scale)) - PhiX (fin ((a - d.loc) / d.scale))) := by
  have hg : IntervalIntegrable (gaussianPDFReal d.loc (d.scale ^ 2).toNNReal) MeasureTheory.volume a d.mmax := (integrable_gaussianPDFReal _ _).intervalIntegrable
  have hb := gauss_between (loc := d.loc) hs (low := fin a) (high := fin d.mmax) hmax
  have hset : between (fin a) (fin d.mmax) = Set.Icc a d.mmax := by
    ext y
    simp [between]
  rw [hset, MeasureTheory.integral_Icc_eq_integral_Ioc, ← intervalIntegral.integral_of_le hmax.le, sub_fin_fin, sub_fin_fin, div_fin_of_ne _ hs.ne', div_fin_of_ne _ hs.ne'] at hb
  have hp := intervalIntegrable_rpow_pos (α := -d.alpha) ha (ha.trans hmax)
  unfold TwoComponent.mixture
  rw [intervalIntegral.integral_add ((hp.div_const _).const_mul _) (hg.const_mul _), intervalIntegral.integral_const_mul, intervalIntegral.integral_const_mul, intervalIntegral.integral_div, hb]
  rfl

theorem TwoComponent.logZ_eq (d : TwoComponent) (h0 : 0 < d.mmin) (hd : 0 < d.delta) (hdm : d.mmin + d.delta < d.mmax) (hl : 0 ≤ d.lambdaPeak) (hl1 : d.lambdaPeak ≤ 1) (hs : 0 < d.scale) :
    0 < trapz d.smooth d.mmin (d.mmin + d.delta) 100 + ∫ m in (d.mmin + d.delta)..d.mmax, d.mixture m ∧
    d.logZ = fin (Real.log (trapz d.smooth d.mmin (d.mmin + d.delta) 100 + ∫ m in (d.mmin + d.delta)..d.mmax, d.mixture m)) := by
  have hmax : d.mmin < d.mmax := by linarith
  have hnum := trap_linspace (f := d.m1Unnorm) (g := d.smooth) (a := d.mmin) (b := d.mmin + d.delta) (n := 100) (by linarith) (by norm_num)
    fun x a _ => d.m1Unnorm_spec h0 hmax hd hl hl1 hs (h0.trans_le a)
  have hn0 : 0 ≤ trapz d.smooth d.mmin (d.mmin + d.delta) 100 := by
    apply trapz_nonneg (by linarith) (by norm_num)
    intro x a _
    exact mul_nonneg (d.mixture_pos h0 hmax hl hl1 hs (h0.trans_le a)).le (planck_nonneg _)
  have hlow : 0 < d.mmin + d.delta := by linarith
  have e1 := logNorm_eq (α := -d.alpha) hlow hdm
  have e2 := logNorm_eq (α := -d.alpha) h0 hmax
  have e3 : ndtr ((fin d.mmax - fin d.loc) / fin d.scale) = fin (PhiX (fin ((d.mmax - d.loc) / d.scale))) := by
    rw [sub_fin_fin, div_fin_of_ne _ hs.ne', ndtr_eq (by simp)]
  have e4 : ndtr ((fin d.mmin + fin d.delta - fin d.loc) / fin d.scale) = fin (PhiX (fin ((d.mmin + d.delta - d.loc) / d.scale))) := by
    rw [add_fin_fin, sub_fin_fin, div_fin_of_ne _ hs.ne', ndtr_eq (by simp)]
  have hi := d.integral_mixture hlow hdm hs
  have hpos : 0 < ∫ m in (d.mmin + d.delta)..d.mmax, d.mixture m := by
    have hphi : PhiX (fin ((d.mmin + d.delta - d.loc) / d.scale)) < PhiX (fin ((d.mmax - d.loc) / d.scale)) := by
      apply PhiX_lt
      exact div_lt_div_of_pos_right (by linarith) hs
    rw [hi]
    have j1 := J_pos (α := -d.alpha) hlow hdm
    have j2 := J_pos (α := -d.alpha) h0 hmax
    rcases hl.eq_or_lt with h | h
    · rw [← h]
      simp only [sub_zero, one_mul, zero_mul, add_zero]
      positivity
    · have h1 : 0 ≤ 1 - d.lambdaPeak := by linarith
      have h2 : 0 < PhiX (fin ((d.mmax - d.loc) / d.scale)) - PhiX (fin ((d.mmin + d.delta - d.loc) / d.scale)) := by linarith
      positivity
  refine ⟨by linarith, ?_⟩
  simp only [TwoComponent.logZ]
  rw [hnum, e1, e2, e3, e4]
  simp only [sub_fin_fin, exp_fin, mul_fin_fin, add_fin_fin]
  rw [Real.exp_sub, Real.exp_log (J_pos hlow hdm), Real.exp_log (J_pos h0 hmax), ← hi, log_fin_pos (by linarith)]

/-- **C25.**  `SmoothedTwoComponentPrimaryMassRatio` with `0 < mmin`, `0 < delta`, `mmin + delta < mmax`, `0 ≤ lambda_peak ≤ 1`, `scale > 0` and argument validation: the log density is a number or `-inf` for *every* pair of
floats, `-inf` outside the support, and on the support it is the documented density: the power law plus peak times the Planck window, over its normalisation (trapezoid below `mmin + delta`, exact above), times
`q^beta` times the Planck window of the secondary, over the tabulated normalisation at `m1` (`1` where the table vanishes). -/
theorem C25_two_component (d : TwoComponent) (h0 : 0 < d.mmin) (hd : 0 < d.delta) (hdm : d.mmin + d.delta < d.mmax) (hl : 0 ≤ d.lambdaPeak) (hl1 : d.lambdaPeak ≤ 1) (hs : 0 < d.scale)
    (hv : d.validate = true) :
    (∀ m q : XR, IsLog (d.logProb m q)) ∧
    (∀ m q : XR, ¬ (Leaf.massRatioSandwich d.mmin d.mmax).check [m, q] = .ok true → d.logProb m q = ninf) ∧
    0 < trapz d.smooth d.mmin (d.mmin + d.delta) 100 + ∫ m in (d.mmin + d.delta)..d.mmax, d.mixture m ∧
    ∃ Zq : ℝ → ℝ, (∀ m, d.mmin ≤ m → m ≤ d.mmax → ∃ v, 0 ≤ v ∧ Interpolates (fun m => trapz (d.ratio m) 0.005 1 500) d.mmin d.mmax 1000 m v ∧ Zq m = if v ≤ 0 then 1 else v) ∧
      ∀ m q : ℝ, (Leaf.massRatioSandwich d.mmin d.mmax).check [fin m, fin q] = .ok true →
        expR (d.logProb (fin m) (fin q)) =
          d.smooth m / (trapz d.smooth d.mmin (d.mmin + d.delta) 100 + ∫ m in (d.mmin + d.delta)..d.mmax, d.mixture m) * (d.ratio m q / Zq m) := by
  have hmax : d.mmin < d.mmax := by linarith
  obtain ⟨hZ0, hZ⟩ := d.logZ_eq h0 hd hdm hl hl1 hs
  have hQ : ∀ m, d.mmin ≤ m → m ≤ d.mmax → ∀ q, 0 < q → q ≤ 1 → IsLog (d.qUnnorm (fin m) (fin q)) ∧ expR (d.qUnnorm (fin m) (fin q)) = d.ratio m q := by
    intro m b1 b2 q hq hq1
    by_cases hsup : d.support (fin m) (fin q) = true
    · have := qpart (beta := d.beta) (lo := d.mmin) (m := m) hd hq
      simp only [TwoComponent.qUnnorm, validated, hsup, select_true, ite_self, decide_eq_false (not_le.2 hd), select_false]
      exact this
    · rw [Bool.not_eq_true] at hsup
      simp only [TwoComponent.qUnnorm, validated, hv, hsup, select_false, if_true]
      refine ⟨isLog_ninf, ?_⟩
      rw [TwoComponent.ratio, planck_zero hd (light_of_not h0 b1 b2 hq1 hsup)]
      simp
  have := assemble (w := Real.log (trapz d.smooth d.mmin (d.mmin + d.delta) 100 + ∫ m in (d.mmin + d.delta)..d.mmax, d.mixture m)) h0 hmax
    (fun m a _ => d.m1Unnorm_spec h0 hmax hd hl hl1 hs (h0.trans_le a)) hQ (F := d.logProb) (by
      intro m q
      simp only [TwoComponent.logProb, hZ, hv]
      rfl)
  rw [Real.exp_log hZ0] at this
  exact ⟨this.1, this.2.1, hZ0, this.2.2⟩

/-- The power law plus peak of the LVK analyses. -/
example : let d : TwoComponent := ⟨3.4, 1.1, 4.8, 0.038, 34, 87, 5, 3.6, true⟩
    IsLog (d.logProb (fin 35) (fin 0.8)) ∧ IsLog (d.logProb (fin 5) nan) ∧ 0 < expR (d.logProb (fin 35) (fin 0.8)) := by
  intro d
  have h := C25_two_component d (by norm_num [d]) (by norm_num [d]) (by norm_num [d]) (by norm_num [d]) (by norm_num [d]) (by norm_num [d]) rfl
  refine ⟨h.1 _ _, h.1 _ _, ?_⟩
  obtain ⟨Zq, hz, he⟩ := h.2.2.2
  rw [he 35 0.8 ((C19_ratio_iff _ _ _ _).2 (by norm_num [d]))]
  obtain ⟨v, v0, -, hv⟩ := hz 35 (by norm_num [d]) (by norm_num [d])
  have p1 := d.mixture_pos (by norm_num [d]) (by norm_num [d]) (by norm_num [d]) (by norm_num [d]) (by norm_num [d]) (m := 35) (by norm_num)
  have p2 : 0 < planckTaper ((35 - d.mmin) / d.delta) := planck_pos (by norm_num [d])
  have p3 : 0 < planckTaper ((35 * 0.8 - d.mmin) / d.delta) := planck_pos (by norm_num [d])
  have p4 : 0 < Zq 35 := by
    rw [hv]
    split_ifs with h
    · exact one_pos
    · exact not_le.1 h
  have p5 := h.2.2.1
  have p6 : (0 : ℝ) < 0.8 ^ d.beta := Real.rpow_pos_of_pos (by norm_num) _
  unfold TwoComponent.smooth TwoComponent.ratio at *
  positivity

/-- **C25.**  With a non-positive smoothing width (and `mmin + delta > 0`) the model is `-inf` everywhere, never NaN. -/
theorem C25_two_component_width (d : TwoComponent) (h0 : 0 < d.mmin) (hmax : d.mmin < d.mmax) (hd : d.delta ≤ 0) (hd' : 0 < d.mmin + d.delta) (hl : 0 ≤ d.lambdaPeak) (hl1 : d.lambdaPeak ≤ 1)
    (hs : 0 < d.scale) (hv : d.validate = true) (m q : XR) : d.logProb m q = ninf := by
  have em : ∀ m, d.m1Unnorm m = ninf := by
    intro m
    simp only [TwoComponent.m1Unnorm, decide_eq_true hd, select_true]
  have eq : ∀ m q, d.qUnnorm m q = ninf := by
    intro m q
    simp only [TwoComponent.qUnnorm, decide_eq_true hd, select_true, validated]
    cases d.validate <;> cases d.support m q <;> simp
  have hdm : d.mmin + d.delta < d.mmax := by linarith
  have hnum : trapezoid ((linspace d.mmin (d.mmin + d.delta) 100).map fun m => exp (d.m1Unnorm m)) (linspace d.mmin (d.mmin + d.delta) 100) = fin 0 := by
    rw [linspace_eq, trap_exp (f := d.m1Unnorm) (fun x _ => by rw [em]; exact isLog_ninf), trapR_linR (fun x => expR (d.m1Unnorm (fin x))) _ _ (by norm_num)]
    simp [em, trapz]
  have e1 := logNorm_eq (α := -d.alpha) hd' hdm
  have e2 := logNorm_eq (α := -d.alpha) h0 hmax
  have e3 : ndtr ((fin d.mmax - fin d.loc) / fin d.scale) = fin (PhiX (fin ((d.mmax - d.loc) / d.scale))) := by
    rw [sub_fin_fin, div_fin_of_ne _ hs.ne', ndtr_eq (by simp)]
  have e4 : ndtr ((fin d.mmin + fin d.delta - fin d.loc) / fin d.scale) = fin (PhiX (fin ((d.mmin + d.delta - d.loc) / d.scale))) := by
    rw [add_fin_fin, sub_fin_fin, div_fin_of_ne _ hs.ne', ndtr_eq (by simp)]
  have hpos : 0 < 0 + ((1 - d.lambdaPeak) * Real.exp (Real.log (J (-d.alpha) (d.mmin + d.delta) d.mmax) - Real.log (J (-d.alpha) d.mmin d.mmax))
      + d.lambdaPeak * (PhiX (fin ((d.mmax - d.loc) / d.scale)) - PhiX (fin ((d.mmin + d.delta - d.loc) / d.scale)))) := by
    have hphi : PhiX (fin ((d.mmin + d.delta - d.loc) / d.scale)) < PhiX (fin ((d.mmax - d.loc) / d.scale)) := by
      apply PhiX_lt
      exact div_lt_div_of_pos_right (by linarith) hs
    have hE := Real.exp_pos (Real.log (J (-d.alpha) (d.mmin + d.delta) d.mmax) - Real.log (J (-d.alpha) d.mmin d.mmax))
    rcases hl.eq_or_lt with h | h
    · rw [← h]
      simp only [sub_zero, one_mul, zero_mul, add_zero, zero_add]
      exact hE
    · have h1 : 0 ≤ 1 - d.lambdaPeak := by linarith
      have h2 : 0 < PhiX (fin ((d.mmax - d.loc) / d.scale)) - PhiX (fin ((d.mmin + d.delta - d.loc) / d.scale)) := by linarith
      positivity
  obtain ⟨w, hw⟩ : ∃ w, d.logZ = fin w := by
    simp only [TwoComponent.logZ]
    rw [hnum, e1, e2, e3, e4]
    simp only [sub_fin_fin, exp_fin, mul_fin_fin, add_fin_fin]
    exact ⟨_, log_fin_pos hpos⟩
  simp only [TwoComponent.logProb, em, eq, hw, validated, hv, if_true]
  cases hsup : d.support m q with
  | false => rfl
  | true =>
    obtain ⟨m', b, rfl, hb⟩ := C19_finite_only d.mmin d.mmax m (m * q) (by rwa [← C19_same_set, ← accepts_iff, ← TwoComponent.support])
    have hm : d.mmin ≤ m' ∧ m' ≤ d.mmax := by
      have hsm : sandwichMask d.mmin d.mmax (fin m') (fin m' * q) = true := by
        have := (accepts_iff _ _).1 hsup
        simpa [Leaf.check] using this
      rw [hb, sandwichMask_fin] at hsm
      exact ⟨by linarith [hsm.2.1, hsm.2.2.1], hsm.2.2.2⟩
    obtain ⟨v, -, -, hz⟩ := logZq_interp (lq := d.qUnnorm) (R := fun _ _ => 0) hmax (fun m _ _ q _ _ => by rw [eq]; exact ⟨isLog_ninf, rfl⟩) hm.1 hm.2 (fin 1) (fin 1)
    have hz' : logZq (interp (fin m') d.m1s d.zq (fin 1) (fin 1)) = fin (Real.log (if v ≤ 0 then 1 else v)) := hz
    rw [hz']
    rfl

/-- The log normalisation of a power law with reversed bounds is NaN. -/
theorem logNorm_reversed {α l h : ℝ} (hh : 0 < h) (hlh : h < l) : logNorm α l h = nan := by
  have hl := hh.trans hlh
  have hJ : J α l h < 0 := by
    have := J_pos (α := α) hh hlh
    rw [J, intervalIntegral.integral_symm]
    rw [J] at this
    linarith
  by_cases hα : α = -1
  · subst hα
    rw [J_neg_one hl hh, Real.log_div hh.ne' hl.ne'] at hJ
    simp only [logNorm, logNormX, mask_neg_one, select_false, log_fin_pos hh, log_fin_pos hl, sub_fin_fin, log_fin_neg hJ]
  · rw [J_closed hα hl hh] at hJ
    simp only [logNorm, logNormX, mask_of_ne hα, select_true, safeAlpha_of_ne hα, pow_fin_pos hh, pow_fin_pos hl, sub_fin_fin,
      div_fin_of_ne _ (one_add_ne hα), log_fin_neg hJ]

/-- **C25, violated.**  A smoothing width larger than the mass range (allowed by `arg_constraints`) makes `SmoothedTwoComponentPrimaryMassRatio` NaN at every point of its support, whatever the other parameters. -/
theorem C25_two_component_wide_violated (d : TwoComponent) (h0 : 0 < d.mmin) (hmax : d.mmin < d.mmax) (hd : d.mmax < d.mmin + d.delta) (m q : XR)
    (hsup : (Leaf.massRatioSandwich d.mmin d.mmax).check [m, q] = .ok true) : d.logProb m q = nan := by
  have e : logNorm (-d.alpha) (d.mmin + d.delta) d.mmax = nan := logNorm_reversed (h0.trans hmax) hd
  have hz : d.logZ = nan := by
    simp only [TwoComponent.logZ]
    rw [e]
    simp
  have hs : d.support m q = true := (accepts_iff _ _).2 hsup
  simp only [TwoComponent.logProb, hz, validated, hs, select_true, ite_self]
  simp

/-- A mass range of 5 to 9 solar masses with a smoothing width of 5, at `(8, 0.9)`. -/
example (d : TwoComponent) (h : d.mmin = 5 ∧ d.mmax = 9 ∧ d.delta = 5) : d.logProb (fin 8) (fin 0.9) = nan :=
  C25_two_component_wide_violated d (by rw [h.1]; norm_num) (by rw [h.1, h.2.1]; norm_num) (by rw [h.1, h.2.1, h.2.2]; norm_num) _ _
    ((C19_ratio_iff _ _ _ _).2 (by rw [h.1, h.2.1]; norm_num))

/-! ## Broken power law plus two peaks -/

/-- A normal density truncated to `[a, b]`. -/
noncomputable def truncGauss (loc scale a b m : ℝ) : ℝ := gaussianPDFReal loc (scale ^ 2).toNNReal m / ∫ y in a..b, gaussianPDFReal loc (scale ^ 2).toNNReal y

/-- The primary-mass density of the broken power law plus two peaks before smoothing. -/
noncomputable def TwoPeak.mixture (d : TwoPeak) (m : ℝ) : ℝ :=
  d.lambda0 * (brokenShape d.alpha1 d.alpha2 d.mbreak m / ∫ t in d.m1min..d.mmax, brokenShape d.alpha1 d.alpha2 d.mbreak t)
    + d.lambda1 * truncGauss d.loc1 d.scale1 d.m1min d.mmax m + (1 - (d.lambda0 + d.lambda1)) * truncGauss d.loc2 d.scale2 d.m1min d.mmax m

/-- …and after. -/
noncomputable def TwoPeak.smooth (d : TwoPeak) (m : ℝ) : ℝ := d.mixture m * planckTaper ((m - d.m1min) / d.delta1)

/-- The unnormalised mass-ratio density given the primary mass. -/
noncomputable def TwoPeak.ratio (d : TwoPeak) (m q : ℝ) : ℝ := q ^ d.beta * planckTaper ((m * q - d.m2min) / d.delta2)

/-- What the documentation of `BrokenPowerlawTwoPeak` asks of the parameters. -/
structure TwoPeak.Proper (d : TwoPeak) : Prop where
  m1 : 0 < d.m1min
  brk : d.m1min < d.mbreak
  max : d.mbreak < d.mmax
  m2 : 0 < d.m2min
  m2max : d.m2min < d.mmax
  s1 : 0 < d.scale1
  s2 : 0 < d.scale2
  d1 : 0 < d.delta1
  d2 : 0 < d.delta2
  l0 : 0 ≤ d.lambda0
  l1 : 0 ≤ d.lambda1
  l : d.lambda0 + d.lambda1 ≤ 1

theorem truncGauss_spec {loc scale a b m : ℝ} (hs : 0 < scale) (h0 : a ≤ m) (h1 : m ≤ b) (hab : a < b) :
    exp (truncnormLogpdf (fin m) loc scale (fin a) (fin b)) = fin (truncGauss loc scale a b m) ∧ 0 < truncGauss loc scale a b m := by
  have hset : between (fin a) (fin b) = Set.Icc a b := by
    ext y
    simp [between]
  obtain ⟨p, e, -, -⟩ := C27_truncnorm loc scale (fin a) (fin b) hs hab
  rw [hset] at p e
  have e := e m ⟨h0, h1⟩
  rw [MeasureTheory.integral_Icc_eq_integral_Ioc, ← intervalIntegral.integral_of_le hab.le] at p e
  have hv0 : (scale ^ 2).toNNReal ≠ 0 := by
    simp only [ne_eq, Real.toNNReal_eq_zero, not_le]
    positivity
  have hg := gaussianPDFReal_pos loc (scale ^ 2).toNNReal m hv0
  have : 0 < truncGauss loc scale a b m := div_pos hg p
  refine ⟨?_, this⟩
  rw [e, exp_fin]
  congr 1
  exact Real.exp_log this

theorem broken_spec {d : TwoPeak} (h : d.Proper) {m : ℝ} (h0 : d.m1min ≤ m) (h1 : m ≤ d.mmax) :
    exp (brokenLogProb (fin m) d.alpha1 d.alpha2 d.m1min d.mmax d.mbreak) = fin (brokenShape d.alpha1 d.alpha2 d.mbreak m / ∫ t in d.m1min..d.mmax, brokenShape d.alpha1 d.alpha2 d.mbreak t) ∧
    0 < brokenShape d.alpha1 d.alpha2 d.mbreak m / ∫ t in d.m1min..d.mmax, brokenShape d.alpha1 d.alpha2 d.mbreak t := by
  set b : Broken := ⟨d.alpha1, d.alpha2, d.mbreak, d.mmax, d.m1min, false⟩ with hb
  have hint := (C24_broken b h.m1 h.brk h.max).2.1
  have hN := brokenNorm_pos (d := b) h.m1 h.brk h.max
  have e : ∀ m, d.m1min ≤ m → m ≤ d.mmax → expR (b.logProb (fin m)) = brokenShape d.alpha1 d.alpha2 d.mbreak m / brokenNorm b := fun m a c => broken_exp (d := b) h.m1 h.brk h.max a c
  have hmm : d.m1min ≤ d.mmax := (h.brk.trans h.max).le
  have hI : ∫ t in d.m1min..d.mmax, brokenShape d.alpha1 d.alpha2 d.mbreak t = brokenNorm b := by
    have : ∫ t in d.m1min..d.mmax, expR (b.logProb (fin t)) = ∫ t in d.m1min..d.mmax, brokenShape d.alpha1 d.alpha2 d.mbreak t / brokenNorm b := by
      apply intervalIntegral.integral_congr
      intro t ht
      rw [Set.uIcc_of_le hmm] at ht
      exact e t ht.1 ht.2
    rw [this, intervalIntegral.integral_div, div_eq_one_iff_eq hN.ne'] at hint
    exact hint
  have hm := h.m1.trans_le h0
  have hbk := h.m1.trans h.brk
  have hpos : 0 < brokenShape d.alpha1 d.alpha2 d.mbreak m := Real.rpow_pos_of_pos (by positivity) _
  rw [hI]
  refine ⟨?_, by positivity⟩
  have e2 := e m h0 h1
  have e3 : b.logProb (fin m) = brokenLogProb (fin m) d.alpha1 d.alpha2 d.m1min d.mmax d.mbreak := rfl
  rw [e3] at e2
  have e4 := broken_eq (d := b) h.m1 h.brk h.max h0 h1
  rw [e3] at e4
  rw [e4, expR_fin] at e2
  rw [e4, exp_fin, e2]

theorem TwoPeak.mixture_pos {d : TwoPeak} (h : d.Proper) {m : ℝ} (h0 : d.m1min ≤ m) (h1 : m ≤ d.mmax) : 0 < d.mixture m := by
  have hmm : d.m1min < d.mmax := h.brk.trans h.max
  have a := (broken_spec h h0 h1).2
  have b := (truncGauss_spec (loc := d.loc1) h.s1 h0 h1 hmm).2
  have c := (truncGauss_spec (loc := d.loc2) h.s2 h0 h1 hmm).2
  have l0 := h.l0
  have l1 := h.l1
  have l2 : 0 ≤ 1 - (d.lambda0 + d.lambda1) := by linarith [h.l]
  unfold TwoPeak.mixture
  rcases l0.eq_or_lt with k | k
  · rcases l1.eq_or_lt with k' | k'
    · rw [← k, ← k']
      simp only [zero_mul, zero_add, add_zero, sub_zero, one_mul]
      exact c
    · positivity
  · positivity

theorem TwoPeak.m1Unnorm_spec {d : TwoPeak} (h : d.Proper) {m : ℝ} (hm1 : m ≤ d.mmax) : IsLog (d.m1Unnorm (fin m)) ∧ expR (d.m1Unnorm (fin m)) = d.smooth m := by
  by_cases hlow : m < d.m1min
  · have : d.m1Unnorm (fin m) = ninf := by
      simp [TwoPeak.m1Unnorm, hlow]
    rw [this]
    refine ⟨isLog_ninf, ?_⟩
    rw [TwoPeak.smooth, planck_zero h.d1 hlow.le]
    simp
  · have h0 := not_lt.1 hlow
    have hmm : d.m1min < d.mmax := h.brk.trans h.max
    have a := (broken_spec h h0 hm1).1
    have b := (truncGauss_spec (loc := d.loc1) h.s1 h0 hm1 hmm).1
    have c := (truncGauss_spec (loc := d.loc2) h.s2 h0 hm1 hmm).1
    have hp := C25_log_window ((m - d.m1min) / d.delta1)
    have hpos := TwoPeak.mixture_pos h h0 hm1
    have e : d.m1Unnorm (fin m) = logPlanck (fin ((m - d.m1min) / d.delta1)) + fin (Real.log (d.mixture m)) := by
      have hlt : decide (lt (fin m) (fin d.m1min)) = false := by simp [hlow]
      simp only [TwoPeak.m1Unnorm, decide_eq_false (not_le.2 h.d1), hlt, Bool.or_false, select_false, planck_frac _ _ _ h.d1, a, b, c, mul_fin_fin, add_fin_fin]
      rw [← log_fin_pos hpos]
      rfl
    rw [e]
    refine ⟨hp.2.1.add (isLog_fin _), ?_⟩
    rw [expR_add hp.2.1 (isLog_fin _), hp.2.2, expR_fin, Real.exp_log hpos, TwoPeak.smooth, mul_comm]

theorem TwoPeak.logZ_eq {d : TwoPeak} (h : d.Proper) :
    0 < trapz d.smooth d.m1min d.mmax 1000 ∧ d.logZ = fin (Real.log (trapz d.smooth d.m1min d.mmax 1000)) := by
  have hmm : d.m1min < d.mmax := h.brk.trans h.max
  have hZ0 : 0 < trapz d.smooth d.m1min d.mmax 1000 := by
    apply trapz_pos hmm (by norm_num)
    · intro x a b
      exact mul_nonneg (TwoPeak.mixture_pos h a b).le (planck_nonneg _)
    · have e : node d.m1min d.mmax 1000 1 = d.m1min + (d.mmax - d.m1min) / 999 := by
        norm_num [node]
        ring
      apply mul_pos (TwoPeak.mixture_pos h _ _)
      · apply planck_pos
        apply div_pos _ h.d1
        rw [e]
        linarith
      · rw [e]
        linarith
      · rw [e]
        linarith
  have hZ : d.logZ = fin (Real.log (trapz d.smooth d.m1min d.mmax 1000)) := by
    simp only [TwoPeak.logZ]
    rw [trap_linspace (f := d.m1Unnorm) (g := d.smooth) hmm.le (by norm_num) fun x _ b => TwoPeak.m1Unnorm_spec h b, log_fin_pos hZ0]
  exact ⟨hZ0, hZ⟩

theorem TwoPeak.qUnnorm_spec {d : TwoPeak} (h : d.Proper) (hv : d.validate = true) : ∀ m, d.m2min ≤ m → m ≤ d.mmax → ∀ q, 0 < q → q ≤ 1 →
    IsLog (d.qUnnorm (fin m) (fin q)) ∧ expR (d.qUnnorm (fin m) (fin q)) = d.ratio m q := by
  intro m b1 b2 q hq hq1
  have hm : 0 < m := h.m2.trans_le b1
  by_cases hsup : d.support (fin m) (fin q) = true
  · have := qpart (beta := d.beta) (lo := d.m2min) (m := m) h.d2 hq
    have hge : ¬ m * q < d.m2min := by
      have := ((C19_ratio_iff _ _ _ _).1 ((accepts_iff _ _).1 hsup)).2.2.2.1
      rw [div_le_iff₀ hm] at this
      linarith
    have hlt : decide (lt (fin m * fin q) (fin d.m2min)) = false := by
      rw [mul_fin_fin]
      simp [hge]
    simp only [TwoPeak.qUnnorm, validated, hsup, select_true, ite_self, decide_eq_false (not_le.2 h.d2), hlt, Bool.or_false, select_false]
    exact this
  · rw [Bool.not_eq_true] at hsup
    simp only [TwoPeak.qUnnorm, validated, hv, hsup, select_false, if_true]
    refine ⟨isLog_ninf, ?_⟩
    rw [TwoPeak.ratio, planck_zero h.d2 (light_of_not h.m2 b1 b2 hq1 hsup)]
    simp

/-- **C25.**  `BrokenPowerlawTwoPeak` with the documented parameters and argument validation: the log density is a number or `-inf` for every pair of floats, `-inf` outside the support and for primaries up to
`m1min`, and on the support the documented density, with both normalisations computed by the trapezoid rule on the documented grids. -/
theorem C25_two_peak (d : TwoPeak) (h : d.Proper) (hv : d.validate = true) :
    (∀ m q : XR, IsLog (d.logProb m q)) ∧
    (∀ m q : XR, ¬ (Leaf.massRatioSandwich d.m2min d.mmax).check [m, q] = .ok true → d.logProb m q = ninf) ∧
    (∀ (m : ℝ) (q : XR), m ≤ d.m1min → d.logProb (fin m) q = ninf) ∧
    0 < trapz d.smooth d.m1min d.mmax 1000 ∧
    ∃ Zq : ℝ → ℝ, (∀ m, d.m2min ≤ m → m ≤ d.mmax → ∃ v, 0 ≤ v ∧ Interpolates (fun m => trapz (d.ratio m) 0.005 1 500) d.m2min d.mmax 1000 m v ∧ Zq m = if v ≤ 0 then 1 else v) ∧
      ∀ m q : ℝ, (Leaf.massRatioSandwich d.m2min d.mmax).check [fin m, fin q] = .ok true →
        expR (d.logProb (fin m) (fin q)) = d.smooth m / trapz d.smooth d.m1min d.mmax 1000 * (d.ratio m q / Zq m) := by
  have hmm : d.m1min < d.mmax := h.brk.trans h.max
  obtain ⟨hZ0, hZ⟩ := TwoPeak.logZ_eq h
  have hQ := TwoPeak.qUnnorm_spec h hv
  have := assemble (w := Real.log (trapz d.smooth d.m1min d.mmax 1000)) h.m2 h.m2max (fun m _ b => TwoPeak.m1Unnorm_spec h b) hQ (F := d.logProb) (by
      intro m q
      simp only [TwoPeak.logProb, hZ, hv]
      rfl)
  rw [Real.exp_log hZ0] at this
  refine ⟨this.1, this.2.1, ?_, hZ0, this.2.2⟩
  intro m q hm
  by_cases hsup : (Leaf.massRatioSandwich d.m2min d.mmax).check [fin m, q] = .ok true
  · obtain ⟨_, b, e, hb⟩ := C19_finite_only _ _ _ _ (show (Leaf.massSandwich d.m2min d.mmax).check [fin m, fin m * q] = .ok true by rwa [← C19_same_set])
    have hsm : sandwichMask d.m2min d.mmax (fin m) (fin m * q) = true := by
      simpa [Leaf.check] using hsup
    rw [hb, sandwichMask_fin] at hsm
    have hq : ∃ q', q = fin q' := by
      have hmm : 0 < m := by linarith [hsm.1, hsm.2.1, hsm.2.2.1]
      cases q with
      | fin a => exact ⟨a, rfl⟩
      | nan => simp at hb
      | pinf =>
        have : fin m * pinf = mulInf m := rfl
        rw [this, mulInf, if_pos hmm] at hb
        simp at hb
      | ninf =>
        have : fin m * ninf = neg (mulInf m) := rfl
        rw [this, mulInf, if_pos hmm] at hb
        simp [neg] at hb
    obtain ⟨q', rfl⟩ := hq
    obtain ⟨Zq, -, he⟩ := this.2.2
    have h0 : expR (d.logProb (fin m) (fin q')) = 0 := by
      rw [he m q' hsup, TwoPeak.smooth, planck_zero h.d1 hm]
      simp
    rcases (this.1 (fin m) (fin q')).cases with k | ⟨a, k⟩
    · exact k
    · rw [k, expR_fin] at h0
      exact absurd h0 (Real.exp_pos a).ne'
  · exact this.2.1 _ _ hsup

/-- The GWTC-4 default parameters. -/
noncomputable def gwtc4 : TwoPeak := ⟨1.7, 4.5, 1.2, 9.8, 32.8, 0.65, 3.9, 4.3, 4.8, 0.36, 0.59, 5.1, 3.6, 300, 35.6, true⟩

example : gwtc4.Proper := by constructor <;> norm_num [gwtc4]

example : IsLog (gwtc4.logProb (fin 40) (fin 0.9)) ∧ gwtc4.logProb (fin 4) (fin 0.95) = ninf ∧ gwtc4.logProb nan pinf = ninf := by
  have h := C25_two_peak gwtc4 (by constructor <;> norm_num [gwtc4]) rfl
  refine ⟨h.1 _ _, h.2.2.1 _ _ (by norm_num [gwtc4]), h.2.1 _ _ ?_⟩
  intro hc
  obtain ⟨_, _, e, _⟩ := C19_finite_only _ _ _ _ (show (Leaf.massSandwich gwtc4.m2min gwtc4.mmax).check [nan, nan * pinf] = .ok true by rwa [← C19_same_set])
  simp at e

/-- **C25, violated.**  A non-positive primary smoothing width makes `BrokenPowerlawTwoPeak` NaN, not `-inf`, at every point of its support: the normalisation is the log of zero. -/
theorem C25_two_peak_width_violated (d : TwoPeak) (hd : d.delta1 ≤ 0) (m q : XR) (hsup : (Leaf.massRatioSandwich d.m2min d.mmax).check [m, q] = .ok true) : d.logProb m q = nan := by
  have em : ∀ m, d.m1Unnorm m = ninf := by
    intro m
    simp only [TwoPeak.m1Unnorm, decide_eq_true hd, Bool.true_or, select_true]
  have hz : d.logZ = ninf := by
    simp only [TwoPeak.logZ]
    rw [linspace_eq, trap_exp (f := d.m1Unnorm) (fun x _ => by rw [em]; exact isLog_ninf), trapR_linR (fun x => expR (d.m1Unnorm (fin x))) _ _ (by norm_num)]
    simp [em, trapz]
  have hs : d.support m q = true := (accepts_iff _ _).2 hsup
  simp only [TwoPeak.logProb, hz, em, validated, hs, select_true, ite_self]
  have : (ninf : XR) - ninf = nan := rfl
  rw [this]
  simp

/-! ## Smoothed mass ratio on top of any primary-mass model (hybrids) -/

/-- The unnormalised mass-ratio density given the primary mass. -/
noncomputable def AndRest.ratio (d : AndRest) (m q : ℝ) : ℝ := q ^ d.beta * planckTaper ((m * q - d.m2min) / d.delta2)

/-- Proper parameters: positive ordered masses, positive widths, a positive finite normalisation `Z`, and a wrapped density that is never NaN on its support, which starts with a finite primary mass. -/
structure AndRest.Proper (d : AndRest) (Z : ℝ) : Prop where
  m1 : 0 < d.m1min
  max : d.m1min < d.m1max
  m2 : 0 < d.m2min
  d1 : 0 < d.delta1
  Z0 : 0 < Z
  Z1 : d.logZ = log (fin Z)
  rest : ∀ r, d.restSupport r = true → IsLog (d.restLogProb r) ∧ ∃ m tl, r = fin m :: tl

theorem interp_left {x : XR} {lo hi : ℝ} {n : ℕ} (hn : 2 ≤ n) (hlh : lo < hi) {fp : List XR} {l r : XR} (h : lt x (fin lo)) : interp x (linspace lo hi n) fp l r = l := by
  have hl : (linspace lo hi n).length = n := by simp [linspace_eq]
  have e0 : (linspace lo hi n).getD 0 nan = fin lo := by
    rw [List.getD_eq_getElem?_getD, List.getElem?_eq_getElem (by rw [hl]; omega), Option.getD_some]
    simp only [linspace_eq, List.getElem_map]
    rw [linR_zero lo hi hn]
  have e1 : (linspace lo hi n).getD (n - 1) nan = fin hi := by
    rw [List.getD_eq_getElem?_getD, List.getElem?_eq_getElem (by rw [hl]; omega), Option.getD_some]
    simp only [linspace_eq, List.getElem_map]
    rw [linR_last lo hi hn]
  have h1 : ¬ lt (fin hi) x := by
    cases x with
    | fin a =>
      simp only [lt_fin_fin] at h ⊢
      linarith
    | pinf => exact absurd h id
    | ninf => exact id
    | nan => exact id
  simp only [interp, hl, e0, e1, decide_eq_true h, decide_eq_false h1, select_true, select_false]

theorem interp_right {x : XR} {lo hi : ℝ} {n : ℕ} (hn : 2 ≤ n) {fp : List XR} {l r : XR} (h : lt (fin hi) x) : interp x (linspace lo hi n) fp l r = r := by
  have hl : (linspace lo hi n).length = n := by simp [linspace_eq]
  have e1 : (linspace lo hi n).getD (n - 1) nan = fin hi := by
    rw [List.getD_eq_getElem?_getD, List.getElem?_eq_getElem (by rw [hl]; omega), Option.getD_some]
    simp only [linspace_eq, List.getElem_map]
    rw [linR_last lo hi hn]
  simp only [interp, hl, e1, decide_eq_true h, select_true]

theorem logZq_zero : logZq (fin 0) = fin 0 := by simp [logZq]

/-- The mass-ratio part on the unit interval. -/
theorem AndRest.q_spec (d : AndRest) (h2 : 0 < d.m2min) (hd : 0 < d.delta2) {m q : ℝ} (hq0 : 0 ≤ q) (hq1 : q ≤ 1) :
    IsLog (d.qUnnorm (fin m) (fin q)) ∧ expR (d.qUnnorm (fin m) (fin q)) = if m ≤ d.m1max then d.ratio m q else 0 := by
  by_cases hlow : m * q ≤ d.m2min
  · have hp := C25_log_window ((m * q - d.m2min) / d.delta2)
    have hz := planck_zero hd hlow
    have e : d.qUnnorm (fin m) (fin q) = ninf := by
      have hn : (logPlanck ((fin m * fin q - fin d.m2min) / fin (safeWidth d.delta2))).isNegInf = true := by
        rw [mul_fin_fin, planck_frac _ _ _ hd, hp.1, hz]
        simp
      simp only [AndRest.qUnnorm, hn, Bool.or_true, select_true]
    rw [e]
    refine ⟨isLog_ninf, ?_⟩
    rw [AndRest.ratio, hz]
    simp
  · push Not at hlow
    have hq : 0 < q := by
      rcases hq0.eq_or_lt with k | k
      · rw [← k] at hlow
        linarith
      · exact k
    have hm : 0 < m := by
      by_contra hc
      push Not at hc
      nlinarith
    have hp := C25_log_window ((m * q - d.m2min) / d.delta2)
    have hpos : 0 < planckTaper ((m * q - d.m2min) / d.delta2) := planck_pos (div_pos (by linarith) hd)
    have hn : (logPlanck ((fin m * fin q - fin d.m2min) / fin (safeWidth d.delta2))).isNegInf = false := by
      rw [mul_fin_fin, planck_frac _ _ _ hd, hp.1, log_fin_pos hpos]
      rfl
    have c1 : decide (lt (fin m * fin q) (fin d.m2min)) = false := by
      rw [mul_fin_fin]
      simp [hlow.le]
    have c2 : decide (lt (fin m) (fin m * fin q)) = false := by
      rw [mul_fin_fin]
      simp only [lt_fin_fin, decide_eq_false_iff_not, not_lt]
      nlinarith
    by_cases hmax : m ≤ d.m1max
    · have c3 : decide (lt (fin d.m1max) (fin m)) = false := by simp [hmax]
      have := qpart (beta := d.beta) (lo := d.m2min) (m := m) hd hq
      rw [if_pos hmax]
      simp only [AndRest.qUnnorm, decide_eq_false (not_le.2 hd), c1, c2, c3, hn, Bool.or_false, select_false]
      exact this
    · have c3 : decide (lt (fin d.m1max) (fin m)) = true := by simpa using hmax
      rw [if_neg hmax]
      simp only [AndRest.qUnnorm, c3, Bool.or_true, Bool.true_or, select_true]
      exact ⟨isLog_ninf, rfl⟩

/-- **C25.**  `_SmoothedPowerlawMassRatioAndRest` with proper parameters and argument validation: the log density is a number or `-inf` at *every* point; it is `-inf` outside the support, for primaries up to `m1min` or above
`m1max`, and for secondaries up to `m2min`; elsewhere the density is `rate · p_rest · S(m1)/Z · q^beta S(m1 q)/Z_q(m1)`. -/
theorem C25_and_rest (d : AndRest) (Z : ℝ) (h : d.Proper Z) (hd2 : 0 < d.delta2) (hv : d.validate = true) :
    (∀ r q, IsLog (d.logProb r q)) ∧
    (∀ r q, d.restSupport r = false → d.logProb r q = ninf) ∧ (∀ r q, ¬ (le (fin 0) q ∧ le q (fin 1)) → d.logProb r q = ninf) ∧
    (∀ (m : ℝ) tl q, m ≤ d.m1min ∨ d.m1max < m → d.logProb (fin m :: tl) q = ninf) ∧ (∀ (m q : ℝ) tl, m * q ≤ d.m2min → d.logProb (fin m :: tl) (fin q) = ninf) ∧
    ∃ Zq : ℝ → ℝ, (∀ m, d.m1min ≤ m → m ≤ d.m1max → ∃ v, 0 ≤ v ∧ Interpolates (fun m => trapz (d.ratio m) 0.005 1 500) d.m1min d.m1max 1000 m v ∧ Zq m = if v ≤ 0 then 1 else v) ∧
      ∀ (m q : ℝ) tl, d.restSupport (fin m :: tl) = true → 0 ≤ q → q ≤ 1 → d.m1min ≤ m → m ≤ d.m1max →
        expR (d.logProb (fin m :: tl) (fin q)) = Real.exp d.logRate * (expR (d.restLogProb (fin m :: tl)) * planckTaper ((m - d.m1min) / d.delta1) / Z) * (d.ratio m q / Zq m) := by
  have hQ : ∀ m, d.m1min ≤ m → m ≤ d.m1max → ∀ q, 0 < q → q ≤ 1 → IsLog (d.qUnnorm (fin m) (fin q)) ∧ expR (d.qUnnorm (fin m) (fin q)) = d.ratio m q := by
    intro m _ b q hq hq1
    have := d.q_spec h.m2 hd2 (m := m) hq.le hq1
    rwa [if_pos b] at this
  have hZ : ∀ m, ∃ z : ℝ, 0 < z ∧ (d.m1min ≤ m → m ≤ d.m1max → (∃ v, 0 ≤ v ∧ Interpolates (fun m => trapz (d.ratio m) 0.005 1 500) d.m1min d.m1max 1000 m v ∧ z = if v ≤ 0 then 1 else v)) ∧
      logZq (interp (fin m) d.m1s d.zq (fin 0) (fin 0)) = fin (Real.log z) := by
    intro m
    by_cases h1 : m < d.m1min
    · refine ⟨1, one_pos, fun a => absurd a (not_le.2 h1), ?_⟩
      rw [AndRest.m1s, interp_left (by norm_num) h.max (show lt (fin m) (fin d.m1min) from h1), logZq_zero, Real.log_one]
    · by_cases h2 : d.m1max < m
      · refine ⟨1, one_pos, fun _ a => absurd a (not_le.2 h2), ?_⟩
        rw [AndRest.m1s, interp_right (by norm_num) (show lt (fin d.m1max) (fin m) from h2), logZq_zero, Real.log_one]
      · push Not at h1 h2
        obtain ⟨v, a, b, c⟩ := logZq_interp h.max hQ h1 h2 (fin 0) (fin 0)
        refine ⟨if v ≤ 0 then 1 else v, ?_, fun _ _ => ⟨v, a, b, rfl⟩, c⟩
        split_ifs with h
        · exact one_pos
        · exact not_le.1 h
  choose Zq hZ0 hZq hZe using hZ
  have sel : ∀ v : XR, select v.isNegInf ninf v = v := by
    intro v
    cases v <;> rfl
  have key : ∀ (m q : ℝ) tl, d.restSupport (fin m :: tl) = true → 0 ≤ q → q ≤ 1 → IsLog (d.logProb (fin m :: tl) (fin q)) ∧
      expR (d.logProb (fin m :: tl) (fin q)) = Real.exp d.logRate * (expR (d.restLogProb (fin m :: tl)) * planckTaper ((m - d.m1min) / d.delta1) / Z)
        * ((if m ≤ d.m1max then d.ratio m q else 0) / Zq m) := by
    intro m q tl hs hq0 hq1
    have a1 := (h.rest _ hs).1
    have a2 := C25_log_window ((m - d.m1min) / d.delta1)
    have a3 := d.q_spec h.m2 hd2 (m := m) hq0 hq1
    have hsup : d.support (fin m :: tl) (fin q) = true := by simp [AndRest.support, hs, hq0, hq1]
    have e : d.logProb (fin m :: tl) (fin q) =
        fin d.logRate + (d.restLogProb (fin m :: tl) + logPlanck (fin ((m - d.m1min) / d.delta1)) - fin (Real.log Z)) + d.qUnnorm (fin m) (fin q) - fin (Real.log (Zq m)) := by
      have hz := h.Z1
      rw [log_fin_pos h.Z0] at hz
      simp only [AndRest.logProb, validated, hv, hsup, if_true, select_true, List.cons_append, List.headD_cons, hz, hZe, planck_frac _ _ _ h.d1, decide_eq_false (not_le.2 h.d1), Bool.false_or]
      exact sel _
    have b1 := a1.add a2.2.1
    have b2 := IsLog.sub_fin b1 (Real.log Z)
    have b3 := (isLog_fin d.logRate).add b2
    have b4 := b3.add a3.1
    rw [e]
    refine ⟨IsLog.sub_fin b4 _, ?_⟩
    rw [expR_sub_fin b4, expR_add b3 a3.1, expR_add (isLog_fin _) b2, expR_sub_fin b1, expR_add a1 a2.2.1, a2.2.2, a3.2, expR_fin, Real.exp_log h.Z0, Real.exp_log (hZ0 m), mul_div_assoc]
  have hout : ∀ r q, d.support r q = false → d.logProb r q = ninf := by
    intro r q hs
    simp only [AndRest.logProb, validated, hv, hs, if_true, select_false]
  have hfin : ∀ q : XR, le (fin 0) q → le q (fin 1) → ∃ q' : ℝ, q = fin q' ∧ 0 ≤ q' ∧ q' ≤ 1 := by
    intro q a b
    cases q with
    | fin x => exact ⟨x, rfl, by simpa using a, by simpa using b⟩
    | pinf => exact absurd b id
    | ninf => exact absurd a id
    | nan => exact absurd a id
  have hall : ∀ r q, IsLog (d.logProb r q) := by
    intro r q
    cases hs : d.support r q with
    | false =>
      rw [hout r q hs]
      exact isLog_ninf
    | true =>
      simp only [AndRest.support, Bool.and_eq_true, decide_eq_true_eq] at hs
      obtain ⟨q', rfl, c0, c1⟩ := hfin q hs.2.1 hs.2.2
      obtain ⟨m, tl, rfl⟩ := (h.rest r hs.1).2
      exact (key m q' tl hs.1 c0 c1).1
  have hzero : ∀ (m : ℝ) tl (q : XR), (∀ q' : ℝ, q = fin q' → 0 ≤ q' → q' ≤ 1 → planckTaper ((m - d.m1min) / d.delta1) * (if m ≤ d.m1max then d.ratio m q' else 0) = 0) → d.logProb (fin m :: tl) q = ninf := by
    intro m tl q hz
    cases hs : d.support (fin m :: tl) q with
    | false => exact hout _ _ hs
    | true =>
      simp only [AndRest.support, Bool.and_eq_true, decide_eq_true_eq] at hs
      obtain ⟨q', rfl, c0, c1⟩ := hfin q hs.2.1 hs.2.2
      have e := key m q' tl hs.1 c0 c1
      have h0 : expR (d.logProb (fin m :: tl) (fin q')) = 0 := by
        rw [e.2]
        have := hz q' rfl c0 c1
        rw [mul_assoc, show ∀ a b c z y w : ℝ, a * (b * c / z * (y / w)) = a * b / z / w * (c * y) by intros; ring, this, mul_zero]
      rcases e.1.cases with k | ⟨a, k⟩
      · exact k
      · rw [k, expR_fin] at h0
        exact absurd h0 (Real.exp_pos a).ne'
  refine ⟨hall, ?_, ?_, ?_, ?_, Zq, fun m a b => hZq m a b, ?_⟩
  · intro r q hr
    exact hout r q (by simp [AndRest.support, hr])
  · intro r q hq
    apply hout
    simp only [AndRest.support]
    rw [Bool.and_eq_false_iff]
    right
    rw [Bool.and_eq_false_iff, decide_eq_false_iff_not, decide_eq_false_iff_not]
    by_contra hc
    push Not at hc
    exact hq hc
  · intro m tl q hm
    apply hzero
    intro q' _ _ _
    rcases hm with hm | hm
    · rw [planck_zero h.d1 hm, zero_mul]
    · rw [if_neg (not_le.2 hm), mul_zero]
  · intro m q tl hmq
    apply hzero
    intro q' e _ _
    cases e
    rw [AndRest.ratio, planck_zero hd2 hmq]
    simp
  · intro m q tl hs c0 c1 _ c3
    have := (key m q tl hs c0 c1).2
    rwa [if_pos c3] at this

/-- **C25.**  A non-positive primary smoothing width gives `-inf` everywhere, whatever the rest does; a non-positive secondary width gives `-inf` everywhere for proper primaries. -/
theorem C25_and_rest_width (d : AndRest) (hv : d.validate = true) :
    (d.delta1 ≤ 0 → ∀ r q, d.logProb r q = ninf) ∧ (∀ Z, d.Proper Z → d.delta2 ≤ 0 → ∀ r q, d.logProb r q = ninf) := by
  have hout : ∀ r q, d.support r q = false → d.logProb r q = ninf := by
    intro r q hs
    simp only [AndRest.logProb, validated, hv, hs, if_true, select_false]
  refine ⟨?_, ?_⟩
  · intro hd r q
    cases hs : d.support r q with
    | false => exact hout r q hs
    | true => simp only [AndRest.logProb, validated, hs, select_true, decide_eq_true hd, Bool.true_or, ite_self]
  · intro Z h hd r q
    cases hs : d.support r q with
    | false => exact hout r q hs
    | true =>
      have hs' := hs
      simp only [AndRest.support, Bool.and_eq_true, decide_eq_true_eq] at hs'
      obtain ⟨m, tl, rfl⟩ := (h.rest r hs'.1).2
      have a1 := (h.rest _ hs'.1).1
      have a2 := C25_log_window ((m - d.m1min) / d.delta1)
      have eq : ∀ m q, d.qUnnorm m q = ninf := by
        intro m q
        simp only [AndRest.qUnnorm, decide_eq_true hd, Bool.true_or, select_true]
      have hz := h.Z1
      rw [log_fin_pos h.Z0] at hz
      obtain ⟨w, hw⟩ : ∃ w, logZq (interp (fin m) d.m1s d.zq (fin 0) (fin 0)) = fin w := by
        by_cases h1 : m < d.m1min
        · exact ⟨0, by rw [AndRest.m1s, interp_left (by norm_num) h.max (show lt (fin m) (fin d.m1min) from h1), logZq_zero]⟩
        · by_cases h2 : d.m1max < m
          · exact ⟨0, by rw [AndRest.m1s, interp_right (by norm_num) (show lt (fin d.m1max) (fin m) from h2), logZq_zero]⟩
          · push Not at h1 h2
            obtain ⟨v, -, -, c⟩ := logZq_interp (lq := d.qUnnorm) (R := fun _ _ => 0) h.max (fun m _ _ q _ _ => by rw [eq]; exact ⟨isLog_ninf, rfl⟩) h1 h2 (fin 0) (fin 0)
            exact ⟨_, c⟩
      have b3 := (isLog_fin d.logRate).add (IsLog.sub_fin (a1.add a2.2.1) (Real.log Z))
      have e : fin d.logRate + (d.restLogProb (fin m :: tl) + logPlanck (fin ((m - d.m1min) / d.delta1)) - fin (Real.log Z)) + ninf - fin w = ninf := by
        rcases b3.cases with k | ⟨a, k⟩ <;> rw [k] <;> rfl
      simp only [AndRest.logProb, validated, hs, select_true, ite_self, List.cons_append, List.headD_cons, hz, hw, eq, planck_frac _ _ _ h.d1, e, isNegInf_ninf, Bool.or_true]

/-- **C25.**  With or without argument validation, a secondary heavier than the primary has density zero. -/
theorem C25_and_rest_ordered (d : AndRest) (Z : ℝ) (h : d.Proper Z) (m q : ℝ) (tl : List XR) (hr : d.restSupport (fin m :: tl) = true) (hm : 0 < m) (hq : 1 < q) :
    d.logProb (fin m :: tl) (fin q) = ninf := by
  have hs : d.support (fin m :: tl) (fin q) = false := by simp [AndRest.support, hq]
  have hlq : d.qUnnorm (fin m) (fin q) = ninf := by
    have : decide (lt (fin m) (fin m * fin q)) = true := by
      rw [mul_fin_fin]
      simp only [lt_fin_fin, decide_eq_true_eq]
      nlinarith
    simp only [AndRest.qUnnorm, this, Bool.or_true, Bool.true_or, select_true]
  cases hv : d.validate with
  | true => simp only [AndRest.logProb, validated, hv, hs, if_true, select_false]
  | false =>
    have a1 := (h.rest _ hr).1
    have a2 := C25_log_window ((m - d.m1min) / d.delta1)
    have hz := h.Z1
    rw [log_fin_pos h.Z0] at hz
    obtain ⟨w, hw⟩ : ∃ w, logZq (interp (fin m) d.m1s d.zq (fin 0) (fin 0)) = fin w := by
      by_cases h1 : m < d.m1min
      · exact ⟨0, by rw [AndRest.m1s, interp_left (by norm_num) h.max (show lt (fin m) (fin d.m1min) from h1), logZq_zero]⟩
      · by_cases h2 : d.m1max < m
        · exact ⟨0, by rw [AndRest.m1s, interp_right (by norm_num) (show lt (fin d.m1max) (fin m) from h2), logZq_zero]⟩
        · push Not at h1 h2
          by_cases hd2 : 0 < d.delta2
          · obtain ⟨v, -, -, c⟩ := logZq_interp (lq := d.qUnnorm) (R := d.ratio) h.max (fun m _ b q hq hq1 => by
              have := d.q_spec h.m2 hd2 (m := m) hq.le hq1
              rwa [if_pos b] at this) h1 h2 (fin 0) (fin 0)
            exact ⟨_, c⟩
          · have eq : ∀ m q, d.qUnnorm m q = ninf := by
              intro m q
              simp only [AndRest.qUnnorm, decide_eq_true (not_lt.1 hd2), Bool.true_or, select_true]
            obtain ⟨v, -, -, c⟩ := logZq_interp (lq := d.qUnnorm) (R := fun _ _ => 0) h.max (fun m _ _ q _ _ => by rw [eq]; exact ⟨isLog_ninf, rfl⟩) h1 h2 (fin 0) (fin 0)
            exact ⟨_, c⟩
    have b3 := (isLog_fin d.logRate).add (IsLog.sub_fin (a1.add a2.2.1) (Real.log Z))
    have e : fin d.logRate + (d.restLogProb (fin m :: tl) + logPlanck (fin ((m - d.m1min) / d.delta1)) - fin (Real.log Z)) + ninf - fin w = ninf := by
      rcases b3.cases with k | ⟨a, k⟩ <;> rw [k] <;> rfl
    simp only [AndRest.logProb, validated, hv, Bool.false_eq_true, if_false, List.cons_append, List.headD_cons, hz, hw, hlq, planck_frac _ _ _ h.d1, e, isNegInf_ninf, Bool.or_true, select_true]

/-- **C25.**  Without a positive smoothing width the normalisation is `-inf`. -/
theorem C25_mixture_norm_width (f : XR → XR) (delta lo hi : ℝ) (hd : delta ≤ 0) (hlh : lo < hi) : mixtureLogZ f delta lo hi = ninf := by
  simp only [mixtureLogZ, decide_eq_true hd, select_true]
  have := trap_linspace (f := fun _ => ninf) (g := fun _ => 0) (n := 1000) hlh.le (by norm_num) (fun x _ _ => ⟨isLog_ninf, rfl⟩)
  simp only [exp_ninf] at this
  rw [this]
  simp [trapz]

/-- **C25.**  The normalisation of the hybrid factories is a finite positive number as soon as the primary-mass mixture is never NaN on the mass range and positive at the second grid point. -/
theorem C25_mixture_norm (f : XR → XR) (delta lo hi : ℝ) (hd : 0 < delta) (hlh : lo < hi) (hf : ∀ m, lo ≤ m → m ≤ hi → IsLog (f (fin m))) (h1 : 0 < expR (f (fin (node lo hi 1000 1)))) :
    0 < trapz (fun m => expR (f (fin m)) * planckTaper ((m - lo) / delta)) lo hi 1000 ∧
    mixtureLogZ f delta lo hi = log (fin (trapz (fun m => expR (f (fin m)) * planckTaper ((m - lo) / delta)) lo hi 1000)) := by
  constructor
  · apply trapz_pos hlh (by norm_num)
    · intro x _ _
      exact mul_nonneg (expR_nonneg _) (planck_nonneg _)
    · apply mul_pos h1
      apply planck_pos
      apply div_pos _ hd
      have e : node lo hi 1000 1 = lo + (hi - lo) / 999 := by
        norm_num [node]
        ring
      rw [e]
      linarith
  · simp only [mixtureLogZ, decide_eq_false (not_le.2 hd), select_false]
    rw [trap_linspace (f := fun m => f m + logPlanck ((m - fin lo) / fin (safeWidth delta))) hlh.le (by norm_num)]
    intro x a b
    have hp := C25_log_window ((x - lo) / delta)
    have hx := hf x a b
    rw [planck_frac _ _ _ hd]
    exact ⟨hx.add hp.2.1, by rw [expR_add hx hp.2.1, hp.2.2]⟩

/-- A primary uniform on `[5, 50]`, one other coordinate, unit rate. -/
noncomputable def restExample : AndRest where
  restSupport r := match r with
    | [fin m, fin _] => decide (5 ≤ m ∧ m ≤ 50)
    | _ => false
  restLogProb _ := log (fin (1 / 45))
  beta := 1
  delta1 := 3
  delta2 := 2
  logRate := 0
  logZ := log (fin (trapz (fun m => 1 / 45 * planckTaper ((m - 5) / 3)) 5 50 1000))
  m1max := 50
  m1min := 5
  m2min := 4
  validate := true

theorem restExample_proper : ∃ Z, restExample.Proper Z := by
  have hp := C25_mixture_norm (fun _ => log (fin (1 / 45))) 3 5 50 (by norm_num) (by norm_num) (fun _ _ _ => by rw [log_fin_pos (by norm_num)]; exact isLog_fin _)
    (by rw [log_fin_pos (by norm_num), expR_fin]; exact Real.exp_pos _)
  have e : expR (log (fin (1 / 45))) = 1 / 45 := by
    rw [log_fin_pos (by norm_num), expR_fin, Real.exp_log (by norm_num)]
  simp only [e] at hp
  refine ⟨_, by norm_num [restExample], by norm_num [restExample], by norm_num [restExample], by norm_num [restExample], hp.1, rfl, ?_⟩
  intro r hr
  refine ⟨by simp only [restExample]; rw [log_fin_pos (by norm_num)]; exact isLog_fin _, ?_⟩
  simp only [restExample] at hr
  split at hr
  · exact ⟨_, _, rfl⟩
  · exact absurd hr (by simp)

/-- A secondary twice as heavy as the primary. -/
example (chi : ℝ) : restExample.logProb [fin 10, fin chi] (fin 2) = ninf := by
  obtain ⟨Z, h⟩ := restExample_proper
  exact C25_and_rest_ordered _ Z h 10 2 [fin chi] (by norm_num [restExample]) (by norm_num) (by norm_num)

end GW.Mass
