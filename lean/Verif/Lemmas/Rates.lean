import Verif.Lemmas.XR
import Verif.Lemmas.FullModels
import Verif.Model.PoissonMean

/-! # Raising all log rates by a constant: lemmas -/

namespace GW.Rates
open GW XR
open scoped Classical

theorem max_add (a b : XR) (c : ℝ) : XR.max (a + fin c) (b + fin c) = XR.max a b + fin c := by
  cases a <;> cases b <;> simp [XR.max]
  exact max_add_add_right _ _ _

theorem foldr_max_add (l : List XR) (c : ℝ) : (l.map (· + fin c)).foldr XR.max ninf = l.foldr XR.max ninf + fin c := by
  induction l with
  | nil => rfl
  | cons a l ih => rw [List.map_cons, List.foldr_cons, List.foldr_cons, ih, max_add]

theorem isFinite_add (a : XR) (c : ℝ) : (a + fin c).isFinite = a.isFinite := by cases a <;> rfl

theorem add_sub_add (b c : ℝ) (x : XR) : x + fin c - (fin b + fin c) = x - fin b := by cases x <;> simp

/-- A sum of exponentials is of the kind of the largest exponent. -/
theorem sum_exp_kind (l : List XR) : (l.foldr XR.max ninf = nan → sum (l.map exp) = nan) ∧ (l.foldr XR.max ninf = pinf → sum (l.map exp) = pinf) ∧
    (l.foldr XR.max ninf = ninf → sum (l.map exp) = fin 0) ∧ ((l.foldr XR.max ninf).isFinite → (sum (l.map exp)).isFinite) := by
  induction l with
  | nil => simp
  | cons a l ih =>
    obtain ⟨i1, i2, i3, i4⟩ := ih
    simp only [List.foldr_cons, List.map_cons, sum_cons]
    cases hm : l.foldr XR.max ninf with
    | nan => rw [i1 hm]; cases a <;> simp [XR.max]
    | pinf => rw [i2 hm]; cases a <;> simp [XR.max]
    | ninf => rw [i3 hm]; cases a <;> simp [XR.max]
    | fin b =>
      obtain ⟨s, hs⟩ := (isFinite_iff _).1 (i4 (by rw [hm]; rfl))
      rw [hs]
      cases a <;> simp [XR.max]

/-- Raising every entry by `c` raises `logsumexp` by `c`, special values included. -/
theorem logsumexpWhere_add (aw : List (XR × Bool)) (c : ℝ) : logsumexpWhere (aw.map fun p => (p.1 + fin c, p.2)) = logsumexpWhere aw + fin c := by
  have hk : ((aw.map fun p => (p.1 + fin c, p.2)).filter (·.2)).map (·.1) = ((aw.filter (·.2)).map (·.1)).map (· + fin c) := by
    rw [List.filter_map, List.map_map, List.map_map]
    rfl
  unfold logsumexpWhere
  simp only [hk, foldr_max_add, isFinite_add]
  generalize (aw.filter (·.2)).map (·.1) = l
  have e : ∀ l : List XR, (l.map fun a => exp (a - fin 0)) = l.map exp := by
    intro l
    refine List.map_congr_left fun a _ => ?_
    cases a <;> simp
  have k1 := sum_exp_kind l
  have k2 := sum_exp_kind (l.map (· + fin c))
  rw [foldr_max_add] at k2
  cases hm : l.foldr XR.max ninf with
  | fin m =>
    simp only [isFinite_fin, if_true]
    rw [List.map_map, show ((fun a => exp (a - (fin m + fin c))) ∘ (· + fin c)) = fun a => exp (a - fin m) from
      funext fun x => by simp only [Function.comp]; rw [add_sub_add m c x], add_assoc']
  | nan => simp only [isFinite_nan, Bool.false_eq_true, if_false, e]; rw [k1.1 hm, k2.1 (by rw [hm]; rfl)]; rfl
  | pinf => simp only [isFinite_pinf, Bool.false_eq_true, if_false, e]; rw [k1.2.1 hm, k2.2.1 (by rw [hm]; rfl)]; rfl
  | ninf => simp only [isFinite_ninf, Bool.false_eq_true, if_false, e]; rw [k1.2.2.1 hm, k2.2.2.1 (by rw [hm]; rfl)]; simp

theorem isNegInf_add (a : XR) (c : ℝ) : (a + fin c).isNegInf = a.isNegInf := by cases a <;> rfl
theorem isNan_add (a : XR) (c : ℝ) : (a + fin c).isNan = a.isNan := by cases a <;> rfl

theorem add_right (a b : XR) (c : ℝ) : a + fin c + b = a + b + fin c := by
  rw [add_assoc', XR.add_comm' (fin c), ← add_assoc']

theorem add_sub_right (a b : XR) (c : ℝ) : a + fin c - b = a - b + fin c := by
  rw [sub_def, sub_def, add_right]

/-- The log density of a mixture whose log scales are all raised by `c`. -/
theorem mix_add {α : Type} (m : Mixture.Mix α) (c : ℝ) (x : α) :
    (Mixture.Mix.mk (m.logScales.map (· + fin c)) m.comps m.supp).logProb x = m.logProb x + fin c := by
  unfold Mixture.Mix.logProb
  rw [← logsumexpWhere_add]
  have hs : (Mixture.Mix.mk (m.logScales.map (· + fin c)) m.comps m.supp).componentLogProbs x = (m.componentLogProbs x).map (· + fin c) := by
    simp only [Mixture.Mix.componentLogProbs, List.zipWith_map_left, List.map_zipWith]
    congr 1
    funext a b
    exact add_right a b c
  rw [hs]
  generalize m.componentLogProbs x = s
  refine congrArg logsumexpWhere ?_
  induction s with
  | nil => rfl
  | cons a s ih =>
    simp only [List.map_cons, List.zip_cons_cons, isNegInf_add] at ih ⊢
    rw [ih]
    congr 2
    split_ifs <;> rfl

/-- The log terms of the injections. -/
theorem safe_add (c : ℝ) : ∀ modelLp logW : List XR, PoissonMean.safeLogProb (modelLp.map (· + fin c)) logW = (PoissonMean.safeLogProb modelLp logW).map (· + fin c) := by
  intro modelLp logW
  simp only [PoissonMean.safeLogProb, List.zipWith_map_left, List.map_zipWith]
  congr 1
  funext m w
  rw [add_sub_right, isNegInf_add, isNan_add]
  split_ifs <;> rfl

theorem lse1_add (s : List XR) (c : ℝ) : PoissonMean.lse1 (s.map (· + fin c)) = PoissonMean.lse1 s + fin c := by
  unfold PoissonMean.lse1
  rw [← logsumexpWhere_add, List.map_map, List.map_map]
  congr 1
  refine List.map_congr_left fun a _ => ?_
  simp only [Function.comp, isNegInf_add]

theorem exp_add (a : XR) (c : ℝ) : exp (a + fin c) = fin (Real.exp c) * exp a := by
  have hc := Real.exp_pos c
  cases a with
  | fin a => simp only [add_fin_fin, exp_fin, mul_fin_fin]; rw [Real.exp_add, mul_comm]
  | pinf => simp only [pinf_add_fin, exp_pinf]; change pinf = mulInf _; simp [mulInf, hc]
  | ninf => simp
  | nan => simp

/-- A positive factor moves out of a product and a quotient. -/
theorem mul_left_pos {k : ℝ} (hk : 0 < k) (T : ℝ) (x : XR) : fin T * (fin k * x) = fin k * (fin T * x) := by
  cases x with
  | fin a => simp only [mul_fin_fin]; congr 1; ring
  | nan => simp
  | pinf =>
    change fin T * mulInf k = fin k * mulInf T
    simp only [mulInf, if_pos hk]
    change mulInf T = _
    unfold mulInf
    split_ifs
    · change pinf = mulInf k; simp [mulInf, hk]
    · change ninf = neg (mulInf k); simp [mulInf, hk, neg]
    · rfl
  | ninf =>
    change fin T * neg (mulInf k) = fin k * neg (mulInf T)
    simp only [mulInf, if_pos hk]
    change neg (mulInf T) = _
    unfold mulInf
    split_ifs
    · change ninf = neg (mulInf k); simp [mulInf, hk, neg]
    · change pinf = mulInf k; simp [mulInf, hk]
    · rfl

theorem mul_assoc_pos {k : ℝ} (hk : 0 < k) (T : ℝ) (x : XR) : fin k * fin T * x = fin k * (fin T * x) := by
  cases x with
  | fin a => simp only [mul_fin_fin]; congr 1; ring
  | nan => simp
  | pinf =>
    change mulInf (k * T) = fin k * mulInf T
    unfold mulInf
    rcases lt_trichotomy T 0 with h | h | h
    · rw [if_neg (by nlinarith), if_pos (by nlinarith), if_neg (by linarith), if_pos h]
      change ninf = neg (mulInf k); simp [mulInf, hk, neg]
    · subst h; simp
    · rw [if_pos (by positivity), if_pos h]
      change pinf = mulInf k; simp [mulInf, hk]
  | ninf =>
    change neg (mulInf (k * T)) = fin k * neg (mulInf T)
    unfold mulInf
    rcases lt_trichotomy T 0 with h | h | h
    · rw [if_neg (by nlinarith), if_pos (by nlinarith), if_neg (by linarith), if_pos h]
      change pinf = mulInf k; simp [mulInf, hk]
    · subst h; simp [neg]
    · rw [if_pos (by positivity), if_pos h]
      change ninf = neg (mulInf k); simp [mulInf, hk, neg]

theorem div_left_pos {k : ℝ} (hk : 0 < k) {N : ℝ} (hN : 0 < N) (x : XR) : fin k * x / fin N = fin k * (x / fin N) := by
  cases x with
  | fin a => simp only [mul_fin_fin]; rw [div_fin_of_ne _ hN.ne', div_fin_of_ne _ hN.ne', mul_fin_fin, mul_div_assoc]
  | nan => rfl
  | pinf =>
    change mulInf k / fin N = fin k * (if 0 ≤ N then pinf else ninf)
    rw [if_pos hN.le]
    change _ = mulInf k
    simp only [mulInf, if_pos hk]
    change (if 0 ≤ N then pinf else ninf) = pinf
    rw [if_pos hN.le]
  | ninf =>
    change neg (mulInf k) / fin N = fin k * (if 0 ≤ N then ninf else pinf)
    rw [if_pos hN.le]
    change _ = neg (mulInf k)
    simp only [mulInf, if_pos hk, neg]
    change (if 0 ≤ N then ninf else pinf) = ninf
    rw [if_pos hN.le]

/-- A positive factor moves out of a sum. -/
theorem add_left_pos {k : ℝ} (hk : 0 < k) (x y : XR) : fin k * x + fin k * y = fin k * (x + y) := by
  have h1 : fin k * pinf = pinf := by change mulInf k = _; simp [mulInf, hk]
  have h2 : fin k * ninf = ninf := by change neg (mulInf k) = _; simp [mulInf, hk, neg]
  cases x <;> cases y <;> simp [h1, h2]
  ring

theorem sum_left_pos {k : ℝ} (hk : 0 < k) (l : List XR) : sum (l.map (fin k * ·)) = fin k * sum l := by
  induction l with
  | nil => simp
  | cons a l ih => rw [List.map_cons, sum_cons, sum_cons, ih, add_left_pos hk]

end GW.Rates
