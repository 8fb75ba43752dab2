import Verif.Model.Numeric
import Verif.Spec.XR
import Verif.Lemmas.XRMath
import Mathlib.Probability.Distributions.Gaussian.Real

/-! Facts about the numerical helpers. -/

namespace GW.Num
open GW XR MeasureTheory ProbabilityTheory
open scoped Classical

/-! ## The normal distribution function -/

/-- The reals below a float. -/
def down (x : XR) : Set ℝ := {z | le (fin z) x}

@[simp] theorem down_fin (a : ℝ) : down (fin a) = Set.Iic a := by
  ext z
  simp [down]
@[simp] theorem down_pinf : down pinf = Set.univ := by
  ext z
  simp [down, le]
@[simp] theorem down_ninf : down ninf = ∅ := by
  ext z
  simp [down, le]

/-- Standard normal mass below a float. -/
noncomputable def PhiX (x : XR) : ℝ := (gaussianReal 0 1).real (down x)

theorem ndtr_eq {x : XR} (h : x ≠ nan) : ndtr x = fin (PhiX x) := by
  cases x with
  | fin a => simp [ndtr, PhiX]
  | pinf => simp [ndtr, PhiX]
  | ninf => simp [ndtr, PhiX]
  | nan => exact absurd rfl h

theorem PhiX_nonneg (x : XR) : 0 ≤ PhiX x := measureReal_nonneg
theorem PhiX_le_one (x : XR) : PhiX x ≤ 1 := measureReal_le_one

theorem gauss_Ioo_pos {a b : ℝ} (h : a < b) : 0 < (gaussianReal 0 1) (Set.Ioo a b) := by
  rw [pos_iff_ne_zero]
  intro h0
  have := gaussianReal_absolutelyContinuous' 0 (v := 1) one_ne_zero h0
  simp only [Real.volume_Ioo, ENNReal.ofReal_eq_zero] at this
  linarith

theorem measurableSet_down (x : XR) : MeasurableSet (down x) := by
  cases x with
  | fin a => simp
  | pinf => simp
  | ninf => simp
  | nan =>
    have : down nan = ∅ := by
      ext z
      simp [down, le]
    simp [this]

theorem down_mono {a b : XR} (h : lt a b) : down a ⊆ down b := by
  intro z hz
  simp only [down, Set.mem_ofPred_eq] at *
  cases a <;> cases b <;> simp_all [le, lt]
  linarith

theorem PhiX_lt {a b : XR} (h : lt a b) : PhiX a < PhiX b := by
  have hsub := down_mono h
  obtain ⟨l, u, hlu, hin⟩ : ∃ l u : ℝ, l < u ∧ Set.Ioo l u ⊆ down b \ down a := by
    cases a with
    | nan => exact absurd h id
    | pinf => cases b <;> exact absurd h id
    | fin x =>
      cases b with
      | nan => exact absurd h id
      | ninf => exact absurd h id
      | fin y =>
        refine ⟨x, y, h, ?_⟩
        rintro z ⟨h1, h2⟩
        simp [h1, h2.le]
      | pinf =>
        refine ⟨x, x + 1, by linarith, ?_⟩
        rintro z ⟨h1, h2⟩
        simp [h1]
    | ninf =>
      cases b with
      | nan => exact absurd h id
      | ninf => exact absurd h id
      | fin y =>
        refine ⟨y - 1, y, by linarith, ?_⟩
        rintro z ⟨h1, h2⟩
        simp [h2.le]
      | pinf => exact ⟨0, 1, one_pos, by simp⟩
  have h1 := measureReal_sdiff_add_inter (μ := gaussianReal 0 1) (s := down b) (measurableSet_down a)
  rw [Set.inter_eq_right.2 hsub] at h1
  have h2 : 0 < (gaussianReal 0 1).real (down b \ down a) := by
    have := gauss_Ioo_pos hlu
    have h3 : 0 < (gaussianReal 0 1) (down b \ down a) := this.trans_le (measure_mono hin)
    exact ENNReal.toReal_pos h3.ne' (measure_ne_top _ _)
  show (gaussianReal 0 1).real (down a) < (gaussianReal 0 1).real (down b)
  linarith

theorem PhiX_neg {x : XR} (h : x ≠ nan) : PhiX (-x) = 1 - PhiX x := by
  cases x with
  | nan => exact absurd rfl h
  | pinf => simp [PhiX]
  | ninf => simp [PhiX]
  | fin a =>
    have e : (gaussianReal 0 1).real (Set.Iic (-a)) = (gaussianReal 0 1).real (Set.Ici a) := by
      have hm : (gaussianReal 0 1).map (fun x => -x) = gaussianReal 0 1 := by
        rw [gaussianReal_map_neg, neg_zero]
      rw [measureReal_def, measureReal_def]
      conv_lhs => rw [← hm]
      rw [Measure.map_apply (by fun_prop) measurableSet_Iic]
      congr 2
      ext z
      simp
    have := nullSingletonClass_gaussianReal (μ := 0) (v := 1) one_ne_zero
    have e2 : (gaussianReal 0 1).real (Set.Ici a) = (gaussianReal 0 1).real (Set.Ioi a) := by
      rw [measureReal_def, measureReal_def, measure_congr Ioi_ae_eq_Ici]
    have e3 := probReal_compl_eq_one_sub (μ := gaussianReal 0 1) (measurableSet_Iic (a := a))
    rw [Set.compl_Iic] at e3
    simp only [PhiX, neg_fin, down_fin]
    rw [e, e2, e3]

theorem logsubexp_log {P Q : ℝ} (hQ : 0 ≤ Q) (h : Q < P) : logsubexp (log (fin P)) (log (fin Q)) = fin (Real.log (P - Q)) := by
  have hP := hQ.trans_lt h
  rcases hQ.eq_or_lt with h0 | h0
  · rw [← h0]
    simp [logsubexp, hP, log1p]
  · have e : Real.exp (Real.log Q - Real.log P) = Q / P := by rw [Real.exp_sub, Real.exp_log h0, Real.exp_log hP]
    have hp : 0 < 1 + -(Q / P) := by
      have := (div_lt_one hP).2 h
      linarith
    simp only [logsubexp, log_fin_pos hP, log_fin_pos h0, sub_fin_fin, exp_fin, e, neg_fin, log1p_fin hp, add_fin_fin]
    rw [← Real.log_mul hP.ne' hp.ne']
    congr 2
    field_simp
    ring

/-! ## Trapezoids and grids -/

/-- The trapezoid rule for real lists. -/
noncomputable def trapR : List ℝ → List ℝ → ℝ
  | y0 :: y1 :: ys, x0 :: x1 :: xs => (x1 - x0) * (y1 + y0) / 2 + trapR (y1 :: ys) (x1 :: xs)
  | _, _ => 0

theorem trapTerms_fin : ∀ ys xs : List ℝ, ∃ ts : List ℝ, trapTerms (ys.map fin) (xs.map fin) = ts.map fin ∧ ts.sum = 2 * trapR ys xs
  | [], _ => ⟨[], by simp [trapTerms, trapR]⟩
  | [_], _ => ⟨[], by simp [trapTerms, trapR]⟩
  | _ :: _ :: _, [] => ⟨[], by simp [trapTerms, trapR]⟩
  | _ :: _ :: _, [_] => ⟨[], by simp [trapTerms, trapR]⟩
  | y0 :: y1 :: ys, x0 :: x1 :: xs => by
    obtain ⟨ts, h1, h2⟩ := trapTerms_fin (y1 :: ys) (x1 :: xs)
    refine ⟨(x1 - x0) * (y1 + y0) :: ts, ?_, ?_⟩
    · simp only [List.map_cons, trapTerms, sub_fin_fin, add_fin_fin, mul_fin_fin]
      simp only [List.map_cons] at h1
      rw [h1]
    · rw [List.sum_cons, h2, trapR]
      ring

theorem trapezoid_fin (ys xs : List ℝ) : trapezoid (ys.map fin) (xs.map fin) = fin (trapR ys xs) := by
  obtain ⟨ts, h1, h2⟩ := trapTerms_fin ys xs
  rw [trapezoid, h1, sum_map_fin, h2, mul_fin_fin]
  congr 1
  ring

theorem trapR_nonneg : ∀ ys xs : List ℝ, (∀ y ∈ ys, 0 ≤ y) → xs.Pairwise (· ≤ ·) → 0 ≤ trapR ys xs
  | [], _, _, _ => by simp [trapR]
  | [_], _, _, _ => by simp [trapR]
  | _ :: _ :: _, [], _, _ => by simp [trapR]
  | _ :: _ :: _, [_], _, _ => by simp [trapR]
  | y0 :: y1 :: ys, x0 :: x1 :: xs, hy, hx => by
    rw [trapR]
    have h1 := trapR_nonneg (y1 :: ys) (x1 :: xs) (fun y h => hy y (List.mem_cons_of_mem _ h)) hx.tail
    have h2 : x0 ≤ x1 := (List.pairwise_cons.1 hx).1 x1 (by simp)
    have h3 := hy y0 (by simp)
    have h4 := hy y1 (by simp)
    have : 0 ≤ (x1 - x0) * (y1 + y0) := mul_nonneg (by linarith) (by linarith)
    linarith

/-- The grid as reals. -/
noncomputable def linR (start stop : ℝ) (n : ℕ) : List ℝ :=
  (List.range n).map fun i => if i + 1 = n then stop else start * (1 - i / (n - 1 : ℕ)) + stop * (i / (n - 1 : ℕ))

theorem linspace_eq (start stop : ℝ) (n : ℕ) : linspace start stop n = (linR start stop n).map fin := by
  rw [linspace, linR, List.map_map]
  apply List.map_congr_left
  intro i _
  simp only [Function.comp]
  split_ifs <;> rfl

@[simp] theorem length_linR (a b : ℝ) (n : ℕ) : (linR a b n).length = n := by simp [linR]

theorem linR_getElem (a b : ℝ) {n i : ℕ} (hn : 2 ≤ n) (h : i < (linR a b n).length) : (linR a b n)[i] = a + (b - a) * (i / (n - 1 : ℕ)) := by
  have hi : i < n := by simpa using h
  simp only [linR, List.getElem_map, List.getElem_range]
  split_ifs with he
  · have : n - 1 = i := by omega
    have hi0 : (i : ℝ) ≠ 0 := by
      have : i ≠ 0 := by omega
      exact_mod_cast this
    rw [this, div_self hi0]
    ring
  · ring

theorem linR_mem_Icc {a b : ℝ} (hab : a ≤ b) {n : ℕ} (hn : 2 ≤ n) {x : ℝ} (h : x ∈ linR a b n) : a ≤ x ∧ x ≤ b := by
  obtain ⟨i, hi, rfl⟩ := List.getElem_of_mem h
  have hi' : i < n := by simpa using hi
  rw [linR_getElem a b hn hi]
  have h0 : (0 : ℝ) < (n - 1 : ℕ) := by exact_mod_cast (by omega : 0 < n - 1)
  have h1 : (0 : ℝ) ≤ i / (n - 1 : ℕ) := by positivity
  have h2 : (i : ℝ) / (n - 1 : ℕ) ≤ 1 := by
    rw [div_le_one h0]
    exact_mod_cast (by omega : i ≤ n - 1)
  constructor <;> nlinarith

theorem linR_pairwise_lt {a b : ℝ} (hab : a < b) {n : ℕ} (hn : 2 ≤ n) : (linR a b n).Pairwise (· < ·) := by
  rw [List.pairwise_iff_getElem]
  intro i j hi hj hij
  rw [linR_getElem a b hn hi, linR_getElem a b hn hj]
  have h0 : (0 : ℝ) < (n - 1 : ℕ) := by exact_mod_cast (by omega : 0 < n - 1)
  have : (i : ℝ) / (n - 1 : ℕ) < j / (n - 1 : ℕ) := by
    apply div_lt_div_of_pos_right _ h0
    exact_mod_cast hij
  nlinarith

theorem linR_pairwise {a b : ℝ} (hab : a ≤ b) {n : ℕ} (hn : 2 ≤ n) : (linR a b n).Pairwise (· ≤ ·) := by
  rcases hab.eq_or_lt with h | h
  · subst h
    rw [List.pairwise_iff_getElem]
    intro i j hi hj hij
    rw [linR_getElem a a hn hi, linR_getElem a a hn hj]
    simp
  · exact (linR_pairwise_lt h hn).imp le_of_lt

theorem linR_zero (a b : ℝ) {n : ℕ} (hn : 2 ≤ n) : (linR a b n)[0]'(by simp; omega) = a := by
  rw [linR_getElem a b hn]
  simp

theorem linR_last (a b : ℝ) {n : ℕ} (hn : 2 ≤ n) : (linR a b n)[n - 1]'(by simp; omega) = b := by
  rw [linR_getElem a b hn]
  have h0 : ((n - 1 : ℕ) : ℝ) ≠ 0 := by exact_mod_cast (by omega : n - 1 ≠ 0)
  rw [div_self h0]
  ring

/-! ## Interpolation -/

theorem searchRight_of {xs : List ℝ} {x : ℝ} {k : ℕ} (hk : k ≤ xs.length) (h1 : ∀ i (h : i < xs.length), i < k → xs[i] ≤ x) (h2 : ∀ i (h : i < xs.length), k ≤ i → x < xs[i]) :
    searchRight (xs.map fin) (fin x) = k := by
  rw [searchRight, List.countP_map]
  have e : xs = xs.take k ++ xs.drop k := (List.take_append_drop k xs).symm
  rw [e, List.countP_append]
  have a : (xs.take k).countP ((fun t => decide (le t (fin x))) ∘ fin) = (xs.take k).length := by
    rw [List.countP_eq_length]
    intro t ht
    obtain ⟨i, hi, rfl⟩ := List.getElem_of_mem ht
    have hi' : i < k ∧ i < xs.length := by simpa using hi
    simp only [Function.comp, le_fin_fin, decide_eq_true_eq, List.getElem_take]
    exact h1 i hi'.2 hi'.1
  have b : (xs.drop k).countP ((fun t => decide (le t (fin x))) ∘ fin) = 0 := by
    rw [List.countP_eq_zero]
    intro t ht
    obtain ⟨i, hi, rfl⟩ := List.getElem_of_mem ht
    have hi' : k + i < xs.length := by
      have : i < xs.length - k := by simpa using hi
      omega
    simp only [Function.comp, le_fin_fin, decide_eq_true_eq, List.getElem_drop, not_le]
    exact h2 (k + i) hi' (by omega)
  rw [a, b, List.length_take]
  omega

/-- On a strictly increasing grid, a point of the range falls into one cell and is interpolated linearly there. -/
theorem interp_cell {xs ys : List ℝ} (hs : xs.Pairwise (· < ·)) (hl : ys.length = xs.length) (hn : 2 ≤ xs.length) {x : ℝ}
    (h0 : xs[0]'(by omega) ≤ x) (h1 : x ≤ xs[xs.length - 1]'(by omega)) (l r : XR) :
    ∃ i, ∃ (h : i + 1 < xs.length), xs[i] ≤ x ∧ x ≤ xs[i + 1] ∧ (x < xs[i + 1] ∨ i + 2 = xs.length) ∧
      interp (fin x) (xs.map fin) (ys.map fin) l r = fin (ys[i] + (x - xs[i]) / (xs[i + 1] - xs[i]) * (ys[i + 1] - ys[i])) := by
  rw [List.pairwise_iff_getElem] at hs
  obtain ⟨k, hk, hk1, hk2, hk3⟩ : ∃ k, k ≤ xs.length ∧ 1 ≤ k ∧ (∀ i (h : i < xs.length), i < k → xs[i] ≤ x) ∧ (∀ i (h : i < xs.length), k ≤ i → x < xs[i]) := by
    have hex : ∃ k, k = xs.length ∨ ∃ h : k < xs.length, x < xs[k] := ⟨xs.length, Or.inl rfl⟩
    refine ⟨Nat.find hex, Nat.find_min' hex (Or.inl rfl), ?_, ?_, ?_⟩
    · rw [Nat.one_le_iff_ne_zero]
      intro h
      have := Nat.find_spec hex
      rw [h] at this
      rcases this with h | ⟨_, h⟩
      · omega
      · linarith
    · intro i hi hlt
      have := Nat.find_min hex hlt
      push Not at this
      exact this.2 hi
    · intro i hi hle
      rcases Nat.find_spec hex with h | ⟨h, hx⟩
      · omega
      · rcases hle.eq_or_lt with e | e
        · simpa only [e] using hx
        · exact hx.trans (hs _ _ h hi e)
  have hsr := searchRight_of hk hk2 hk3
  have key : ∀ i (h : i + 1 < xs.length), Nat.min (Nat.max k 1) (xs.length - 1) = i + 1 →
      interp (fin x) (xs.map fin) (ys.map fin) l r = fin (ys[i] + (x - xs[i]) / (xs[i + 1] - xs[i]) * (ys[i + 1] - ys[i])) := by
    intro i h hi
    have hlt := hs i (i + 1) (by omega) h (by omega)
    have hne : xs[i + 1] - xs[i] ≠ 0 := by linarith
    have g : ∀ (zs : List ℝ) j (hj : j < zs.length), (zs.map fin).getD j nan = fin zs[j] := by
      intro zs j hj
      simp [hj]
    have a : decide (lt (fin x) (fin (xs[0]'(by omega)))) = false := decide_eq_false (not_lt.2 h0)
    have b : decide (lt (fin (xs[xs.length - 1]'(by omega))) (fin x)) = false := decide_eq_false (not_lt.2 h1)
    simp only [interp, List.length_map, hsr, hi, Nat.add_sub_cancel]
    rw [g ys (i + 1) (by omega), g ys i (by omega), g xs (i + 1) h, g xs i (by omega), g xs 0 (by omega), g xs (xs.length - 1) (by omega), a, b]
    simp only [sub_fin_fin, eqc_fin_of_ne hne, select_false, div_fin_of_ne _ hne, mul_fin_fin, add_fin_fin]
  rcases hk.eq_or_lt with h | h
  · refine ⟨xs.length - 2, by omega, hk2 _ _ (by omega), ?_, Or.inr (by omega), key _ (by omega) ?_⟩
    · have : xs.length - 2 + 1 = xs.length - 1 := by omega
      simpa only [this] using h1
    · rw [h]
      have a : Nat.max xs.length 1 = xs.length := max_eq_left (by omega)
      have b : Nat.min xs.length (xs.length - 1) = xs.length - 1 := min_eq_right (by omega)
      rw [a, b]
      omega
  · have hkk : k - 1 + 1 = k := by omega
    have hx : x < xs[k - 1 + 1]'(by omega) := by
      simpa only [hkk] using hk3 k h le_rfl
    refine ⟨k - 1, by omega, hk2 _ _ (by omega), hx.le, Or.inl hx, key _ (by omega) ?_⟩
    have a : Nat.max k 1 = k := max_eq_left hk1
    have b : Nat.min k (xs.length - 1) = k := min_eq_left (by omega)
    rw [a, b]
    omega

/-- Interpolating non-negative values gives a non-negative value. -/
theorem interp_nonneg {xs ys : List ℝ} (hs : xs.Pairwise (· < ·)) (hl : ys.length = xs.length) (hn : 2 ≤ xs.length) (hy : ∀ y ∈ ys, 0 ≤ y) {x : ℝ}
    (h0 : xs[0]'(by omega) ≤ x) (h1 : x ≤ xs[xs.length - 1]'(by omega)) (l r : XR) :
    ∃ v, 0 ≤ v ∧ interp (fin x) (xs.map fin) (ys.map fin) l r = fin v := by
  obtain ⟨i, h, a, b, -, e⟩ := interp_cell hs hl hn h0 h1 l r
  refine ⟨_, ?_, e⟩
  rw [List.pairwise_iff_getElem] at hs
  have hlt := hs i (i + 1) (by omega) h (by omega)
  have y0 := hy (ys[i]'(by omega)) (List.getElem_mem _)
  have y1 := hy (ys[i + 1]'(by omega)) (List.getElem_mem _)
  have t0 : 0 ≤ (x - xs[i]) / (xs[i + 1] - xs[i]) := div_nonneg (by linarith) (by linarith)
  have t1 : (x - xs[i]) / (xs[i + 1] - xs[i]) ≤ 1 := by
    rw [div_le_one (by linarith)]
    linarith
  nlinarith

end GW.Num
