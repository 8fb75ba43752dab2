import Verif.Lemmas.Numeric
import Mathlib.Analysis.SpecialFunctions.Integrals.Basic

/-!
# C27: numerical helpers are exact where they claim
-/

namespace GW.Num
open GW XR MeasureTheory ProbabilityTheory
open scoped Classical

/-! ## logsubexp -/

/-- **C27.**  `logsubexp(a, b)` is `log(exp a - exp b)` for `a > b`, `-inf` for `a = b`, NaN for `a < b`, and `a` for `b = -inf`. -/
theorem C27_logsubexp (a b : ℝ) :
    (b < a → logsubexp (fin a) (fin b) = fin (Real.log (Real.exp a - Real.exp b))) ∧
    (a = b → logsubexp (fin a) (fin b) = ninf) ∧
    (a < b → logsubexp (fin a) (fin b) = nan) ∧
    logsubexp (fin a) ninf = fin a := by
  refine ⟨fun h => ?_, fun h => ?_, fun h => ?_, ?_⟩
  · have := logsubexp_log (P := Real.exp a) (Q := Real.exp b) (Real.exp_pos _).le (Real.exp_lt_exp.2 h)
    rwa [log_fin_pos (Real.exp_pos _), log_fin_pos (Real.exp_pos _), Real.log_exp, Real.log_exp] at this
  · subst h
    simp [logsubexp, log1p]
  · have : 1 + -(Real.exp (b - a)) < 0 := by
      have := Real.add_one_lt_exp (sub_pos.2 h).ne'
      linarith
    simp only [logsubexp, sub_fin_fin, exp_fin, neg_fin, log1p, add_fin_fin, log_fin_neg this, add_nan]
  · have : ninf - fin a = ninf := rfl
    simp [logsubexp, log1p, this]

example : logsubexp (fin 1) (fin 0) = fin (Real.log (Real.exp 1 - Real.exp 0)) := (C27_logsubexp 1 0).1 one_pos

/-! ## truncnorm_logpdf -/

/-- The reals between two float bounds. -/
def between (low high : XR) : Set ℝ := {y | le low (fin y) ∧ le (fin y) high}

theorem std_bound {s loc : ℝ} (hs : 0 < s) {b : XR} (hb : b ≠ nan) : (b - fin loc) / fin s ≠ nan ∧
    (∀ z : ℝ, le ((b - fin loc) / fin s) (fin z) ↔ le b (fin (s * z + loc))) ∧ (∀ z : ℝ, le (fin z) ((b - fin loc) / fin s) ↔ le (fin (s * z + loc)) b) := by
  cases b with
  | nan => exact absurd rfl hb
  | fin a =>
    simp only [sub_fin_fin, div_fin_of_ne _ hs.ne', le_fin_fin, ne_eq, reduceCtorEq, not_false_eq_true, true_and]
    constructor
    · intro z
      rw [div_le_iff₀ hs, sub_le_iff_le_add, mul_comm]
    · intro z
      rw [le_div_iff₀ hs, le_sub_iff_add_le, mul_comm]
  | pinf =>
    have e : (pinf - fin loc) / fin s = pinf := by
      show div pinf (fin s) = pinf
      simp [div, hs.le]
    rw [e]
    simp [le]
  | ninf =>
    have e : (ninf - fin loc) / fin s = ninf := by
      show div ninf (fin s) = ninf
      simp [div, hs.le]
    rw [e]
    simp [le]

theorem std_lt {s loc : ℝ} (hs : 0 < s) {a b : XR} (h : lt a b) : lt ((a - fin loc) / fin s) ((b - fin loc) / fin s) := by
  have e1 : (pinf - fin loc) / fin s = pinf := by
    show div pinf (fin s) = pinf
    simp [div, hs.le]
  have e2 : (ninf - fin loc) / fin s = ninf := by
    show div ninf (fin s) = ninf
    simp [div, hs.le]
  have e3 : ∀ r : ℝ, (fin r - fin loc) / fin s = fin ((r - loc) / s) := fun r => by rw [sub_fin_fin, div_fin_of_ne _ hs.ne']
  cases a <;> cases b <;> (try simp only [e1, e2, e3]) <;> first | exact h | exact trivial | exact absurd h id | exact div_lt_div_of_pos_right (sub_lt_sub_right h loc) hs

theorem gauss_between {loc s : ℝ} (hs : 0 < s) {low high : XR} (h : lt low high) :
    (∫ y in between low high, gaussianPDFReal loc (s ^ 2).toNNReal y) = PhiX ((high - fin loc) / fin s) - PhiX ((low - fin loc) / fin s) := by
  have hlow : low ≠ nan := by
    rintro rfl
    exact h
  have hhigh : high ≠ nan := by
    rintro rfl
    cases low <;> exact h
  have hv : (s ^ 2).toNNReal ≠ 0 := by
    simp only [ne_eq, Real.toNNReal_eq_zero, not_le]
    positivity
  have hm : (gaussianReal 0 1).map (fun z => s * z + loc) = gaussianReal loc (s ^ 2).toNNReal := by
    have : (fun z : ℝ => s * z + loc) = (fun z => z + loc) ∘ (fun z => s * z) := rfl
    rw [this, ← Measure.map_map (by fun_prop) (by fun_prop), gaussianReal_map_const_mul, gaussianReal_map_add_const]
    congr 1
    · simp
    · ext
      simp [Real.toNNReal_of_nonneg (sq_nonneg s)]
  have hmeas : MeasurableSet (between low high) := by
    have : between low high = {y | le low (fin y)} ∩ down high := rfl
    rw [this]
    refine MeasurableSet.inter ?_ (measurableSet_down _)
    cases low with
    | nan => exact absurd rfl hlow
    | fin a => exact measurableSet_Ici (a := a)
    | pinf => simp [le]
    | ninf => simp [le]
  have h1 : (gaussianReal loc (s ^ 2).toNNReal).real (between low high) = ∫ y in between low high, gaussianPDFReal loc (s ^ 2).toNNReal y := by
    rw [measureReal_def, gaussianReal_apply_eq_integral _ hv, ENNReal.toReal_ofReal]
    exact integral_nonneg fun y => gaussianPDFReal_nonneg _ _ _
  rw [← h1, ← hm, measureReal_def, Measure.map_apply (by fun_prop) hmeas]
  set aa := (low - fin loc) / fin s
  set bb := (high - fin loc) / fin s
  obtain ⟨ha0, ha1, ha2⟩ := std_bound (loc := loc) hs hlow
  obtain ⟨hb0, hb1, hb2⟩ := std_bound (loc := loc) hs hhigh
  have hpre : (fun z => s * z + loc) ⁻¹' between low high = {z | le aa (fin z) ∧ le (fin z) bb} := by
    ext z
    simp only [between, Set.mem_preimage, Set.mem_ofPred_eq, ← ha1, ← hb2]
    rfl
  have hab : lt aa bb := std_lt hs h
  rw [hpre, ← measureReal_def]
  have hsplit := measureReal_sdiff_add_inter (μ := gaussianReal 0 1) (s := down bb) (measurableSet_down aa)
  rw [Set.inter_eq_right.2 (down_mono hab)] at hsplit
  have hae : ({z : ℝ | le aa (fin z) ∧ le (fin z) bb} : Set ℝ) =ᵐ[gaussianReal 0 1] (down bb \ down aa : Set ℝ) := by
    have := nullSingletonClass_gaussianReal (μ := 0) (v := 1) one_ne_zero
    have hn : ∀ᵐ z ∂(gaussianReal 0 1), fin z ≠ aa := by
      rcases haa : aa with a | _ | _ | _
      · have : ∀ᵐ z ∂(gaussianReal 0 1), z ≠ a := by
          rw [ae_iff]
          simp
        filter_upwards [this] with z hz
        simpa using hz
      · simp
      · simp
      · simp
    rw [Filter.eventuallyEq_set]
    filter_upwards [hn] with z hz
    simp only [down, Set.mem_sdiff, Set.mem_ofPred_eq]
    rw [and_comm]
    apply and_congr_right
    intro _
    have ha0' : aa ≠ nan := ha0
    clear_value aa
    revert ha0' hz
    rcases aa with a | _ | _ | _
    · simp only [ne_eq, le_fin_fin, not_le]
      intro hz _
      have : z ≠ a := fun e => hz (by rw [e])
      exact ⟨fun h => lt_of_le_of_ne h (Ne.symm this), le_of_lt⟩
    · simp [le]
    · simp [le]
    · simp
  rw [measureReal_congr hae]
  show _ = (gaussianReal 0 1).real (down bb) - (gaussianReal 0 1).real (down aa)
  linarith

/-- **C27.**  `truncnorm_logpdf` with a positive scale and float bounds `low < high` (either may be infinite): on `[low, high]` it is the log of the normal density divided by the
normal mass of `[low, high]`, in all three branches of the code; it integrates to one; outside the bounds it is `-inf`. -/
theorem C27_truncnorm (loc scale : ℝ) (low high : XR) (hs : 0 < scale) (h : lt low high) :
    0 < ∫ y in between low high, gaussianPDFReal loc (scale ^ 2).toNNReal y ∧
    (∀ x : ℝ, x ∈ between low high → truncnormLogpdf (fin x) loc scale low high =
      fin (Real.log (gaussianPDFReal loc (scale ^ 2).toNNReal x / ∫ y in between low high, gaussianPDFReal loc (scale ^ 2).toNNReal y))) ∧
    (∀ x : XR, lt x low ∨ lt high x → truncnormLogpdf x loc scale low high = ninf) ∧
    (∫⁻ x : ℝ, ENNReal.ofReal (expR (truncnormLogpdf (fin x) loc scale low high)) = 1) := by
  have hlow : low ≠ nan := by
    rintro rfl
    exact h
  have hhigh : high ≠ nan := by
    rintro rfl
    cases low <;> exact h
  have hI := gauss_between (loc := loc) hs h
  have hab : lt ((low - fin loc) / fin scale) ((high - fin loc) / fin scale) := std_lt hs h
  have hlt := PhiX_lt hab
  obtain ⟨ha0, -, -⟩ := std_bound (loc := loc) hs hlow
  obtain ⟨hb0, -, -⟩ := std_bound (loc := loc) hs hhigh
  have hpos : 0 < ∫ y in between low high, gaussianPDFReal loc (scale ^ 2).toNNReal y := by
    rw [hI]
    linarith
  have hin : ∀ x : ℝ, x ∈ between low high → truncnormLogpdf (fin x) loc scale low high =
      fin (Real.log (gaussianPDFReal loc (scale ^ 2).toNNReal x / ∫ y in between low high, gaussianPDFReal loc (scale ^ 2).toNNReal y)) := by
    intro x hx
    rw [hI]
    have hnot : (decide (lt (fin x) low) || decide (lt high (fin x)) || decide (scale ≤ 0)) = false := by
      simp only [Bool.or_eq_false_iff, decide_eq_false_iff_not, not_le]
      obtain ⟨h1, h2⟩ := hx
      refine ⟨⟨?_, ?_⟩, hs⟩
      · cases low <;> simp_all [le, lt]
      · cases high <;> simp_all [le, lt]
    simp only [truncnormLogpdf, hnot, select_false, if_neg (not_le.2 hs)]
    generalize (low - fin loc) / fin scale = aa at *
    generalize (high - fin loc) / fin scale = bb at *
    have hn : ∀ v : XR, v = fin (Real.log (PhiX bb - PhiX aa)) →
        fin (-1 / 2) * (square ((fin x - fin loc) / fin scale) + fin (Real.log (2 * Real.pi))) - log (fin scale) - v =
          fin (Real.log (gaussianPDFReal loc (scale ^ 2).toNNReal x / (PhiX bb - PhiX aa))) := by
      rintro v rfl
      have hv0 : (scale ^ 2).toNNReal ≠ 0 := by
        simp only [ne_eq, Real.toNNReal_eq_zero, not_le]
        positivity
      simp only [sub_fin_fin, div_fin_of_ne _ hs.ne', square_fin, add_fin_fin, mul_fin_fin, log_fin_pos hs]
      rw [Real.log_div (gaussianPDFReal_pos _ _ _ hv0).ne' (sub_pos.2 hlt).ne']
      congr 2
      rw [gaussianPDFReal, Real.coe_toNNReal _ (sq_nonneg scale), Real.log_mul (by positivity) (Real.exp_pos _).ne', Real.log_exp, Real.log_inv, Real.log_sqrt (by positivity),
        Real.log_mul (x := 2 * Real.pi) (by positivity) (by positivity), Real.log_pow]
      field_simp
      push_cast
      ring
    apply hn
    have nna : -aa ≠ nan := by
      cases aa <;> simp_all
    have nnb : -bb ≠ nan := by
      cases bb <;> simp_all
    split_ifs with c1 c2 c3
    · rw [logNdtr, logNdtr, ndtr_eq ha0, ndtr_eq hb0, logsubexp_log (PhiX_nonneg _) hlt]
    · rw [logNdtr, logNdtr, ndtr_eq nna, ndtr_eq nnb, PhiX_neg ha0, PhiX_neg hb0, logsubexp_log (sub_nonneg.2 (PhiX_le_one _)) (by linarith)]
      congr 2
      ring
    · rw [ndtr_eq ha0, ndtr_eq nnb, PhiX_neg hb0, neg_fin, sub_fin_fin, log1p_fin (by linarith)]
      congr 2
      ring
    · exfalso
      cases bb <;> simp_all [le, lt]
  have hout : ∀ x : XR, lt x low ∨ lt high x → truncnormLogpdf x loc scale low high = ninf := by
    intro x hx
    have hd : (decide (lt x low) || decide (lt high x) || decide (scale ≤ 0)) = true := by
      rcases hx with hx | hx <;> simp [hx]
    simp only [truncnormLogpdf, hd, select_true]
  refine ⟨hpos, hin, hout, ?_⟩
  have hv0 : (scale ^ 2).toNNReal ≠ 0 := by
    simp only [ne_eq, Real.toNNReal_eq_zero, not_le]
    positivity
  have hmeas : MeasurableSet (between low high) := by
    have : between low high = {y | le low (fin y)} ∩ down high := rfl
    rw [this]
    refine MeasurableSet.inter ?_ (measurableSet_down _)
    cases low with
    | nan => exact absurd rfl hlow
    | fin a => exact measurableSet_Ici (a := a)
    | pinf => simp [le]
    | ninf => simp [le]
  set I := ∫ y in between low high, gaussianPDFReal loc (scale ^ 2).toNNReal y with hIdef
  have e : (fun x : ℝ => ENNReal.ofReal (expR (truncnormLogpdf (fin x) loc scale low high))) =
      (between low high).indicator (fun x => ENNReal.ofReal (gaussianPDFReal loc (scale ^ 2).toNNReal x / I)) := by
    funext x
    by_cases hx : x ∈ between low high
    · have hp := gaussianPDFReal_pos loc (scale ^ 2).toNNReal x hv0
      rw [Set.indicator_of_mem hx, hin x hx, expR_fin, Real.exp_log (by positivity)]
    · rw [Set.indicator_of_notMem hx, hout]
      · simp
      · simp only [between, Set.mem_ofPred_eq, not_and_or] at hx
        rcases hx with hx | hx
        · left
          cases low <;> simp_all [le, lt]
        · right
          cases high <;> simp_all [le, lt]
  rw [e, lintegral_indicator hmeas, ← ofReal_integral_eq_lintegral_ofReal, integral_div, ← hIdef, div_self hpos.ne', ENNReal.ofReal_one]
  · exact ((integrable_gaussianPDFReal loc _).integrableOn).div_const _
  · exact Filter.Eventually.of_forall fun x => div_nonneg (gaussianPDFReal_nonneg _ _ _) hpos.le

/-- **C27.**  A non-positive scale is rejected: `-inf` for every input. -/
theorem C27_truncnorm_bad_scale (x low high : XR) (loc scale : ℝ) (hs : scale ≤ 0) : truncnormLogpdf x loc scale low high = ninf := by
  simp only [truncnormLogpdf, hs, decide_true, Bool.or_true, select_true]

/-- A unit normal restricted to the positive half line, one to `[-3, -1]`. -/
example : lt (fin 0) pinf := trivial
example : ∫⁻ x : ℝ, ENNReal.ofReal (expR (truncnormLogpdf (fin x) 0 1 (fin (-3)) (fin (-1)))) = 1 :=
  (C27_truncnorm 0 1 (fin (-3)) (fin (-1)) one_pos (show (-3 : ℝ) < -1 by norm_num)).2.2.2

/-! ## Cumulative trapezoids -/

/-- The trapezoid estimate up to node `i`. -/
noncomputable def trapSum (y x : ℕ → ℝ) (i : ℕ) : ℝ := ∑ j ∈ Finset.range i, (x (j + 1) - x j) * (y (j + 1) + y j) / 2

theorem length_trapTerms : ∀ ys xs : List XR, ys.length = xs.length → (trapTerms ys xs).length = xs.length - 1
  | [], [], _ => rfl
  | [_], [_], _ => rfl
  | _ :: y1 :: ys, _ :: x1 :: xs, h => by
    have := length_trapTerms (y1 :: ys) (x1 :: xs) (by simpa using h)
    simp [trapTerms, this]

theorem length_cumsumFrom (a : XR) (l : List XR) : (cumsumFrom a l).length = l.length := by
  induction l generalizing a with
  | nil => rfl
  | cons x xs ih => simp [cumsumFrom, ih]

theorem cumsumFrom_getElem (a : XR) (l : List XR) (i : ℕ) (h : i < (cumsumFrom a l).length) : (cumsumFrom a l)[i] = a + sum (l.take (i + 1)) := by
  induction l generalizing a i with
  | nil => simp [cumsumFrom] at h
  | cons x xs ih =>
    cases i with
    | zero =>
      have := add_zero' x
      simp only [zero_def] at this
      simp [cumsumFrom, this]
    | succ i =>
      simp only [cumsumFrom, List.getElem_cons_succ, List.take_succ_cons, sum_cons]
      rw [ih, add_assoc']

theorem trapTerms_getElem : ∀ (ys xs : List XR) (_ : ys.length = xs.length) (i : ℕ) (h : i < (trapTerms ys xs).length) (hi : i + 1 < xs.length),
    (trapTerms ys xs)[i] = (xs[i + 1] - xs[i]) * (ys[i + 1] + ys[i])
  | [], [], _, _, _, hi => absurd hi (by simp)
  | [_], [_], _, _, _, hi => absurd hi (by simp)
  | y0 :: y1 :: ys, x0 :: x1 :: xs, h, 0, _, _ => by simp [trapTerms]
  | y0 :: y1 :: ys, x0 :: x1 :: xs, h, i + 1, hh, hi => by
    have := trapTerms_getElem (y1 :: ys) (x1 :: xs) (by simpa using h) i (by simpa [trapTerms] using hh) (by simpa using hi)
    simpa [trapTerms] using this

/-- **C27.**  The one-dimensional cumulative trapezoid of `n ≥ 1` finite samples has `n` entries, the first is `0` and entry `i` is the trapezoid sum up to node `i`; the last one is `jnp.trapezoid`. -/
theorem C27_cumtrapz (n : ℕ) (hn : 1 ≤ n) (y x : ℕ → ℝ) :
    let c := cumTrapezoid ((List.range n).map fun i => fin (y i)) ((List.range n).map fun i => fin (x i))
    c.length = n ∧ (∀ (i : ℕ) (h : i < c.length), c[i] = fin (trapSum y x i)) ∧
    trapezoid ((List.range n).map fun i => fin (y i)) ((List.range n).map fun i => fin (x i)) = fin (trapSum y x (n - 1)) := by
  intro c
  set Y := (List.range n).map fun i => fin (y i) with hY
  set X := (List.range n).map fun i => fin (x i) with hX
  have hlen : Y.length = X.length := by simp [hY, hX]
  have hXl : X.length = n := by simp [hX]
  have hT : trapTerms Y X = (List.range (n - 1)).map fun i => fin ((x (i + 1) - x i) * (y (i + 1) + y i)) := by
    apply List.ext_getElem
    · rw [length_trapTerms _ _ hlen]
      simp [hXl]
    · intro i h1 h2
      have hi : i + 1 < n := by
        have : i < n - 1 := by simpa using h2
        omega
      rw [trapTerms_getElem _ _ hlen i h1 (by omega)]
      simp [hX, hY]
  have hsum : ∀ (k : ℕ) (f : ℕ → ℝ), sum ((List.range k).map fun i => fin (f i)) = fin (∑ i ∈ Finset.range k, f i) := by
    intro k f
    have := sum_map_fin ((List.range k).map f)
    rw [List.map_map] at this
    rw [Function.comp_def] at this
    rw [this]
    congr 1
  have hc : c = fin 0 :: cumsumFrom (fin 0) ((List.range (n - 1)).map fun i => fin ((x (i + 1) - x i) * (y (i + 1) + y i) / 2)) := by
    show fin 0 :: cumsumFrom (fin 0) ((trapTerms Y X).map fun t => t / fin 2) = _
    rw [hT, List.map_map]
    congr 3
    funext i
    simp only [Function.comp, div_fin_of_ne _ two_ne_zero]
  refine ⟨?_, ?_, ?_⟩
  · rw [hc, List.length_cons, length_cumsumFrom]
    simp
    omega
  · intro i h
    have h' : i < n := by
      have : c.length = n := by
        rw [hc, List.length_cons, length_cumsumFrom]
        simp
        omega
      omega
    cases i with
    | zero =>
      simp only [hc]
      simp [trapSum]
    | succ i =>
      simp only [hc, List.getElem_cons_succ]
      rw [cumsumFrom_getElem, ← List.map_take, List.take_range, Nat.min_eq_left (by omega), hsum, add_fin_fin, zero_add]
      rfl
  · rw [trapezoid, hT, hsum, mul_fin_fin]
    congr 1
    rw [trapSum, Finset.mul_sum]
    apply Finset.sum_congr rfl
    intro i _
    ring

/-- **C27.**  Trapezoid sums are exact integrals for affine integrands (any nodes), additive over adjacent ranges, linear in the integrand, and non-decreasing for non-negative integrands on
non-decreasing nodes. -/
theorem C27_trapezoid_sum (y x : ℕ → ℝ) :
    trapSum y x 0 = 0 ∧
    (∀ i k, trapSum y x (i + k) = trapSum y x i + trapSum (fun j => y (i + j)) (fun j => x (i + j)) k) ∧
    (∀ (a b : ℝ) i, trapSum (fun j => a + b * x j) x i = ∫ t in x 0..x i, (a + b * t)) ∧
    (∀ (z : ℕ → ℝ) (a b : ℝ) i, trapSum (fun j => a * y j + b * z j) x i = a * trapSum y x i + b * trapSum z x i) ∧
    (Monotone x → (∀ j, 0 ≤ y j) → Monotone (trapSum y x)) ∧
    (StrictMono x → (∀ j, 0 < y j) → StrictMono (trapSum y x)) := by
  refine ⟨by simp [trapSum], ?_, ?_, ?_, ?_, ?_⟩
  · intro i k
    rw [trapSum, trapSum, trapSum, Finset.sum_range_add]
    rfl
  · intro a b i
    have h : ∫ t in x 0..x i, (a + b * t) = a * (x i - x 0) + b * ((x i) ^ 2 - (x 0) ^ 2) / 2 := by
      rw [intervalIntegral.integral_add (by simp) (Continuous.intervalIntegrable (by fun_prop) _ _)]
      have e : ∫ t in x 0..x i, b * t = b * ∫ t in x 0..x i, t := intervalIntegral.integral_const_mul b _
      rw [e, intervalIntegral.integral_const, smul_eq_mul, integral_id]
      ring
    rw [h, trapSum]
    have e : ∀ j, (x (j + 1) - x j) * (a + b * x (j + 1) + (a + b * x j)) / 2 = (a * x (j + 1) + b * x (j + 1) ^ 2 / 2) - (a * x j + b * x j ^ 2 / 2) := by
      intro j
      ring
    simp only [e]
    rw [Finset.sum_range_sub (fun j => a * x j + b * x j ^ 2 / 2)]
    ring
  · intro z a b i
    simp only [trapSum]
    rw [Finset.mul_sum, Finset.mul_sum, ← Finset.sum_add_distrib]
    apply Finset.sum_congr rfl
    intro j _
    ring
  · intro hx hy
    apply monotone_nat_of_le_succ
    intro i
    rw [trapSum, trapSum, Finset.sum_range_succ]
    have h1 := hx (Nat.le_succ i)
    have h2 := hy i
    have h3 := hy (i + 1)
    have : 0 ≤ (x (i + 1) - x i) * (y (i + 1) + y i) := mul_nonneg (by simpa using h1) (by linarith)
    linarith
  · intro hx hy
    apply strictMono_nat_of_lt_succ
    intro i
    rw [trapSum, trapSum, Finset.sum_range_succ]
    have h1 := hx (Nat.lt_succ_self i)
    have h2 := hy i
    have h3 := hy (i + 1)
    have : 0 < (x (i + 1) - x i) * (y (i + 1) + y i) := mul_pos (by simpa using h1) (by linarith)
    linarith

/-- The integral of `t` from 0 to 2 on three nodes. -/
example : trapSum (fun j => 0 + 1 * (j : ℝ)) (fun j => j) 2 = 2 := by
  rw [(C27_trapezoid_sum (fun _ => 0) (fun j => (j : ℝ))).2.2.1 0 1 2]
  simp
  norm_num

/-! ## `cumtrapz` in several dimensions -/

theorem cumAxis_prod {D : ℕ} (k : Fin D) (g f : Fin D → ℕ → ℝ) (idx : Fin D → ℕ) :
    cumAxis k (fun i => g k (i k)) (fun i => ∏ m, f m (i m)) idx = ∏ m, (Function.update f k (trapSum (f k) (g k))) m (idx m) := by
  have hp : ∀ (F : Fin D → ℕ → ℝ) (i : Fin D → ℕ), ∏ m, F m (i m) = F k (i k) * ∏ m ∈ Finset.univ.erase k, F m (i m) := by
    intro F i
    exact (Finset.mul_prod_erase Finset.univ (fun m => F m (i m)) (Finset.mem_univ k)).symm
  have hu : ∀ j, ∏ m, f m (Function.update idx k j m) = f k j * ∏ m ∈ Finset.univ.erase k, f m (idx m) := by
    intro j
    rw [hp, Function.update_self]
    congr 1
    apply Finset.prod_congr rfl
    intro m hm
    rw [Function.update_of_ne (Finset.ne_of_mem_erase hm)]
  rw [hp, Function.update_self]
  have hr : ∏ m ∈ Finset.univ.erase k, Function.update f k (trapSum (f k) (g k)) m (idx m) = ∏ m ∈ Finset.univ.erase k, f m (idx m) := by
    apply Finset.prod_congr rfl
    intro m hm
    rw [Function.update_of_ne (Finset.ne_of_mem_erase hm)]
  rw [hr]
  simp only [cumAxis, hu, Function.update_self]
  have : ∀ (n : ℕ) (h : ℕ → ℝ), ((List.range n).map h).sum = ∑ j ∈ Finset.range n, h j := fun n h => rfl
  rw [this, trapSum, Finset.sum_mul]
  apply Finset.sum_congr rfl
  intro j _
  ring

/-- **C27.**  On a tensor grid in any number `D` of dimensions, `cumtrapz` of a product integrand is the product of the one-dimensional cumulative trapezoids, so it is the exact iterated integral
for products of affine functions. -/
theorem C27_cumtrapz_product {D : ℕ} (g f : Fin D → ℕ → ℝ) :
    cumtrapz (fun i => ∏ m, f m (i m)) (fun i k => g k (i k)) = fun idx => ∏ m, trapSum (f m) (g m) (idx m) := by
  have gen : ∀ (L : List (Fin D)) (_ : L.Nodup) (F : Fin D → ℕ → ℝ) (_ : ∀ m ∈ L, F m = f m),
      L.foldl (fun acc k => cumAxis k (fun i => g k (i k)) acc) (fun i => ∏ m, F m (i m)) = fun idx => ∏ m, (if m ∈ L then trapSum (f m) (g m) else F m) (idx m) := by
    intro L
    induction L with
    | nil =>
      intro _ F _
      simp
    | cons k L ih =>
      intro hnd F hF
      rw [List.nodup_cons] at hnd
      have e : cumAxis k (fun i => g k (i k)) (fun i => ∏ m, F m (i m)) = fun idx => ∏ m, (Function.update F k (trapSum (F k) (g k))) m (idx m) := by
        funext idx
        exact cumAxis_prod k g F idx
      rw [List.foldl_cons, e, ih hnd.2 _ (fun m hm => ?_)]
      · funext idx
        apply Finset.prod_congr rfl
        intro m _
        by_cases hm : m = k
        · subst hm
          simp [hnd.1, hF m]
        · simp [hm]
      · have hmk : m ≠ k := fun e => hnd.1 (e ▸ hm)
        rw [Function.update_of_ne hmk, hF m (List.mem_cons_of_mem _ hm)]
  rw [cumtrapz, gen _ (List.nodup_finRange D) f (fun _ _ => rfl)]
  funext idx
  simp

/-- **C27.**  `cumtrapz` vanishes on every face `idx k = 0`, whatever the integrand and the coordinates, and is non-negative for non-negative integrands when each coordinate array is non-decreasing along its axis. -/
theorem C27_cumtrapz_boundary {D : ℕ} (y : (Fin D → ℕ) → ℝ) (x : (Fin D → ℕ) → Fin D → ℝ) :
    (∀ idx : Fin D → ℕ, (∃ k, idx k = 0) → cumtrapz y x idx = 0) ∧
    ((∀ i, 0 ≤ y i) → (∀ (k : Fin D) i j, x (Function.update i k j) k ≤ x (Function.update i k (j + 1)) k) → ∀ i, 0 ≤ cumtrapz y x i) := by
  constructor
  · have gen : ∀ (k : Fin D) (L : List (Fin D)) (F : (Fin D → ℕ) → ℝ), (k ∈ L ∨ ∀ i, i k = 0 → F i = 0) → ∀ i, i k = 0 →
        L.foldl (fun acc k => cumAxis k (fun i => x i k) acc) F i = 0 := by
      intro k L
      induction L with
      | nil =>
        intro F hF i hi
        rcases hF with h | h
        · simp at h
        · exact h i hi
      | cons m L ih =>
        intro F hF i hi
        rw [List.foldl_cons]
        apply ih _ _ i hi
        by_cases hmk : m = k
        · right
          intro i hi
          simp [cumAxis, hmk, hi]
        · rcases hF with h | h
          · left
            rcases List.mem_cons.1 h with h | h
            · exact absurd h.symm hmk
            · exact h
          · right
            intro i hi
            apply List.sum_eq_zero
            intro v hv
            obtain ⟨j, -, rfl⟩ := List.mem_map.1 hv
            rw [h _ (by rw [Function.update_of_ne (Ne.symm hmk), hi]), h _ (by rw [Function.update_of_ne (Ne.symm hmk), hi])]
            simp
    rintro idx ⟨k, hk⟩
    exact gen k _ y (Or.inl (List.mem_finRange k)) idx hk
  · intro hy hx
    have gen : ∀ (L : List (Fin D)) (F : (Fin D → ℕ) → ℝ), (∀ i, 0 ≤ F i) → ∀ i, 0 ≤ L.foldl (fun acc k => cumAxis k (fun i => x i k) acc) F i := by
      intro L
      induction L with
      | nil => exact fun F hF i => hF i
      | cons m L ih =>
        intro F hF i
        rw [List.foldl_cons]
        apply ih
        intro i
        apply List.sum_nonneg
        intro v hv
        obtain ⟨j, -, rfl⟩ := List.mem_map.1 hv
        have h1 := hx m i j
        have h2 := hF (Function.update i m (j + 1))
        have h3 := hF (Function.update i m j)
        have : 0 ≤ (x (Function.update i m (j + 1)) m - x (Function.update i m j) m) * (F (Function.update i m (j + 1)) + F (Function.update i m j)) :=
          mul_nonneg (by linarith) (by linarith)
        linarith
    exact gen _ y hy

/-- A two-dimensional instance: the integral of `s * t` over `[0, 2] × [0, 2]` on the unit grid. -/
example : cumtrapz (D := 2) (fun i => ∏ m, (i m : ℝ)) (fun i k => (i k : ℝ)) (fun _ => 2) = 4 := by
  have := congrFun (C27_cumtrapz_product (D := 2) (fun _ n => (n : ℝ)) (fun _ n => (n : ℝ))) (fun _ => 2)
  rw [this]
  simp [trapSum, Finset.sum_range_succ]
  norm_num

end GW.Num
