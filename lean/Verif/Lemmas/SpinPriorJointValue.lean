import Verif.Lemmas.SpinPriorJointDensity
import Mathlib.MeasureTheory.Group.Integral
import Mathlib.MeasureTheory.Measure.Haar.Unique
import Mathlib.MeasureTheory.Group.LIntegral

namespace GW.SpinPriorJoint
open GW XR MeasureTheory Set Filter Topology SpinPriorSpec

noncomputable section
open Classical

/-- `(4 + 3 q) / (3 + 4 q)`. -/
def kapR (q : ℝ) : ℝ := (4 + 3 * q) / (3 + 4 * q)

theorem kapR_pos {q : ℝ} (hq : 0 < q) : 0 < kapR q := by unfold kapR; positivity

theorem one_le_kapR {q : ℝ} (hq : 0 < q) (hq1 : q ≤ 1) : 1 ≤ kapR q := by
  unfold kapR
  rw [le_div_iff₀ (by linarith)]
  linarith

theorem kap_fin {q : ℝ} (hq : 0 < q) : kap (fin q) = fin (kapR q) := by
  have : (3 : ℝ) + 4 * q ≠ 0 := by positivity
  simp only [kap, mul_fin_fin, add_fin_fin, div_fin_of_ne _ this, kapR]

theorem condQ_fin {q : ℝ} (hq : 0 < q) (p : ℝ) : condQ (fin p) (fin q) = decide (kapR q * p ≤ q) := by
  have : (3 : ℝ) + 4 * q ≠ 0 := by positivity
  have e : (4 + 3 * q) * p / (3 + 4 * q) = kapR q * p := by rw [kapR, div_mul_eq_mul_div]
  simp only [condQ, mul_fin_fin, add_fin_fin, div_fin_of_ne _ this, le_fin_fin, e]

theorem rootQ_fin {q p : ℝ} (hq : 0 < q) (hp : 0 < p) (h : kapR q * p ≤ q) :
    rootQ (fin p) (fin q) = fin √(q ^ 2 - (kapR q * p) ^ 2) := by
  have hk := kapR_pos hq
  have : 0 ≤ q * q - kapR q * kapR q * (p * p) := by nlinarith [mul_pos hk hp]
  rw [rootQ, kap_fin hq]
  simp only [square_fin, mul_fin_fin, sub_fin_fin]
  rw [sqrt_fin this]
  congr 2
  ring

theorem rootOne_fin {p : ℝ} (hp : 0 < p) (h : p ≤ 1) : rootOne (fin p) = fin √(1 ^ 2 - p ^ 2) := by
  have : 0 ≤ 1 - p * p := by nlinarith
  rw [rootOne]
  simp only [square_fin, sub_fin_fin]
  rw [sqrt_fin this]
  congr 2
  ring

theorem F_fin {b d : ℝ} (hb : 0 < b) (hd : 0 < d) (x a c : ℝ) : F (fin x) (fin a) (fin b) (fin c) (fin d) = fin (FReal x a b c d) := by
  simp [F, hb.ne', hd.ne']

theorem cut_lt (a s k b c d : ℝ) : cut a s k b c d =
    if Max.max (-k) (a - s) < Min.min k (a + s) then FReal (Min.min k (a + s)) a b c d - FReal (Max.max (-k) (a - s)) a b c d else 0 := by
  unfold cut
  rcases lt_trichotomy (Max.max (-k) (a - s)) (Min.min k (a + s)) with h | h | h
  · rw [if_pos h.le, if_pos h]
  · rw [h]; simp
  · rw [if_neg (not_le.2 h), if_neg (not_lt.2 h.le)]

theorem I1_fin {q p : ℝ} (hq : 0 < q) (hq1 : q ≤ 1) (hp : 0 < p) (x : ℝ) :
    I1 (fin x) (fin p) (fin q) = fin (if kapR q * p ≤ q then
      (1 + q) / (8 * q) * cut ((1 + q) * x) √(1 ^ 2 - p ^ 2) √(q ^ 2 - (kapR q * p) ^ 2) p (kapR q * p) q else 0) := by
  by_cases h : kapR q * p ≤ q
  · have hp1 : p ≤ 1 := by nlinarith [one_le_kapR hq hq1]
    have h8 : 8 * q ≠ 0 := by positivity
    rw [I1, rootQ_fin hq hp h, rootOne_fin hp hp1, condQ_fin hq, kap_fin hq, if_pos h]
    simp only [add_fin_fin, mul_fin_fin, sub_fin_fin, neg_fin, min_fin_fin, max_fin_fin, F_fin hp hq, lt_fin_fin, le_fin_fin, decide_eq_true hp, decide_eq_true h,
      div_fin_of_ne _ h8, Bool.true_and]
    unfold cut
    split_ifs with h2
    · rw [decide_eq_true h2, select_true]
    · rw [decide_eq_false h2, select_false, mul_zero]
  · rw [if_neg h, I1, condQ_fin hq, decide_eq_false h]
    simp

theorem I2_fin {q p : ℝ} (hq : 0 < q) (hp : 0 < p) (x : ℝ) :
    I2 (fin x) (fin p) (fin q) = fin (if p ≤ 1 then -((1 + q) / (8 * q)) * cut ((1 + q) * x) √(1 ^ 2 - p ^ 2) q p 0 q else 0) := by
  by_cases h : p < 1
  · have h8 : 8 * q ≠ 0 := by positivity
    rw [I2, rootOne_fin hp h.le, if_pos h.le]
    simp only [add_fin_fin, mul_fin_fin, sub_fin_fin, neg_fin, min_fin_fin, max_fin_fin, F_fin hp hq, lt_fin_fin, le_fin_fin, decide_eq_true hp, decide_eq_true h,
      div_fin_of_ne _ h8, Bool.true_and]
    unfold cut
    split_ifs with h2
    · rw [decide_eq_true h2, select_true, neg_div]
    · rw [decide_eq_false h2, select_false, mul_zero]
  · have e : I2 (fin x) (fin p) (fin q) = fin 0 := by
      simp [I2, h]
    rw [e]
    split_ifs with h1
    · obtain rfl : p = 1 := le_antisymm h1 (not_lt.1 h)
      simp [cut_width_zero]
    · rfl

theorem I3_fin {q p : ℝ} (hq : 0 < q) (hq1 : q ≤ 1) (hp : 0 < p) (x : ℝ) :
    I3 (fin x) (fin p) (fin q) = fin (if kapR q * p ≤ q then
      (1 + q) / (8 * q) * kapR q * cut ((1 + q) * x) √(q ^ 2 - (kapR q * p) ^ 2) √(1 ^ 2 - p ^ 2) (kapR q * p) p 1 else 0) := by
  by_cases h : kapR q * p ≤ q
  · have hp1 : p ≤ 1 := by nlinarith [one_le_kapR hq hq1]
    have h8 : 8 * q ≠ 0 := by positivity
    have h3 : 3 + 4 * q ≠ 0 := by positivity
    have hk := mul_pos (kapR_pos hq) hp
    rw [I3, rootQ_fin hq hp h, rootOne_fin hp hp1, condQ_fin hq, kap_fin hq, if_pos h]
    simp only [add_fin_fin, mul_fin_fin, sub_fin_fin, neg_fin, min_fin_fin, max_fin_fin, F_fin hk one_pos, lt_fin_fin, decide_eq_true hp, decide_eq_true h,
      div_fin_of_ne _ h8, div_fin_of_ne _ h3, Bool.true_and]
    rw [cut_lt]
    split_ifs with h2
    · rw [decide_eq_true h2, select_true, mul_div_assoc]
      rfl
    · rw [decide_eq_false h2, select_false, mul_zero]
  · rw [if_neg h, I3, condQ_fin hq, decide_eq_false h]
    simp

theorem I4_fin {q p : ℝ} (hq : 0 < q) (hp : 0 < p) (x : ℝ) :
    I4 (fin x) (fin p) (fin q) = fin (if kapR q * p ≤ q then
      -((1 + q) / (8 * q) * kapR q) * cut ((1 + q) * x) √(q ^ 2 - (kapR q * p) ^ 2) 1 (kapR q * p) 0 1 else 0) := by
  by_cases h : kapR q * p ≤ q
  · have h8 : 8 * q ≠ 0 := by positivity
    have h3 : 3 + 4 * q ≠ 0 := by positivity
    have hk := mul_pos (kapR_pos hq) hp
    rw [I4, rootQ_fin hq hp h, condQ_fin hq, kap_fin hq, if_pos h]
    simp only [add_fin_fin, mul_fin_fin, sub_fin_fin, neg_fin, min_fin_fin, max_fin_fin, F_fin hk one_pos, lt_fin_fin, decide_eq_true hp, decide_eq_true h,
      div_fin_of_ne _ h8, div_fin_of_ne _ h3, Bool.true_and]
    rw [cut_lt]
    split_ifs with h2
    · rw [decide_eq_true h2, select_true, mul_div_assoc, neg_div]
      show fin _ = fin _
      rw [kapR]
      congr 1
      ring
    · rw [decide_eq_false h2, select_false, mul_zero]
  · rw [if_neg h, I4, condQ_fin hq, decide_eq_false h]
    simp

theorem I_nonpos {p : ℝ} (hp : p ≤ 0) (x q : ℝ) : I1 (fin x) (fin p) (fin q) = fin 0 ∧ I2 (fin x) (fin p) (fin q) = fin 0 ∧
    I3 (fin x) (fin p) (fin q) = fin 0 ∧ I4 (fin x) (fin p) (fin q) = fin 0 := by
  have h : decide (lt (fin 0) (fin p)) = false := decide_eq_false (by simpa using hp)
  simp only [I1, I2, I3, I4, h, Bool.false_and, select_false, and_self]

theorem halfPlane_nonpos {r : ℝ} (h : r ≤ 0) (m z : ℝ) : halfPlane m z r = 0 := if_neg fun h' => absurd h'.1 (not_lt.2 h)

theorem jointDensity_nonpos {q amax p : ℝ} (hq : 0 < q) (hp : p ≤ 0) (x : ℝ) : jointDensity q amax x p = 0 := by
  have hk := kapR_pos hq
  have h2 : (4 + 3 * q) / (3 + 4 * q) * p ≤ 0 := mul_nonpos_of_nonneg_of_nonpos hk.le hp
  simp [jointDensity, halfPlane_nonpos hp, halfPlane_nonpos h2]

theorem swap_eq {M b d c : ℝ} (a : ℝ) (hM : 0 < M) (hb : 0 < b) (hd : 0 < d) (hc : 0 < c) :
    Integrable (fun y => below d (a - y) c * halfPlane M y b) ∧
      ∫ y, below d (a - y) c * halfPlane M y b = ∫ y, halfPlane M (a - y) b * below d y c := by
  have h := (conv_eq hM hb hd hc a).1
  have e : (fun y => below d (a - y) c * halfPlane M y b) = fun y => (fun y => halfPlane M (a - y) b * below d y c) (a - y) := by
    funext y
    show _ = halfPlane M (a - (a - y)) b * below d (a - y) c
    rw [sub_sub_cancel, mul_comm]
  rw [e]
  exact ⟨h.comp_sub_left a, integral_sub_left_eq_self (fun y => halfPlane M (a - y) b * below d y c) volume a⟩

/-- The density for unit magnitudes. -/
theorem jointDensity_one {q p : ℝ} (hq : 0 < q) (hq1 : q ≤ 1) (hp : 0 < p) (x : ℝ) :
    I1 (fin x) (fin p) (fin q) + I2 (fin x) (fin p) (fin q) + I3 (fin x) (fin p) (fin q) + I4 (fin x) (fin p) (fin q)
      = fin (jointDensity q 1 x p) := by
  have hk := kapR_pos hq
  have hkp := mul_pos hk hp
  have hkp1 : kapR q * p ≤ q → p ≤ 1 := fun h => by nlinarith [one_le_kapR hq hq1]
  rw [I1_fin hq hq1 hp, I2_fin hq hp, I3_fin hq hq1 hp, I4_fin hq hp]
  simp only [add_fin_fin]
  congr 1
  obtain ⟨iA, vA⟩ := conv_eq one_pos hp hq hkp ((1 + q) * x)
  obtain ⟨iB, vB⟩ := swap_eq ((1 + q) * x) hq hkp one_pos hp
  rw [(conv_eq hq hkp one_pos hp ((1 + q) * x)).2] at vB
  unfold jointDensity
  simp only
  have e : (4 + 3 * q) / (3 + 4 * q) = kapR q := rfl
  rw [e, mul_one, integral_add iA (iB.const_mul _), integral_const_mul, vA, vB]
  by_cases h1 : kapR q * p ≤ q
  · have h2 := hkp1 h1
    simp only [if_pos h1, if_pos h2, if_pos (And.intro h1 h2), if_pos (And.intro h2 h1)]
    field_simp
    ring
  · simp only [if_neg h1, if_neg fun h : kapR q * p ≤ q ∧ p ≤ 1 => h1 h.1, if_neg fun h : p ≤ 1 ∧ kapR q * p ≤ q => h1 h.2]
    by_cases h2 : p ≤ 1
    · simp only [if_pos h2]
      field_simp
      ring
    · simp only [if_neg h2]
      ring

theorem jointPrior_value {q amax : ℝ} (hq : 0 < q) (hq1 : q ≤ 1) (ha : 0 < amax) (x p : ℝ) :
    jointPrior (fin x) (fin p) (fin q) (fin amax) = fin (jointDensity q amax x p) := by
  have ha2 : amax * amax ≠ 0 := by positivity
  simp only [jointPrior, div_fin_of_ne _ ha.ne', square_fin]
  rw [jointDensity_scale ha]
  by_cases hp : 0 < p
  · rw [jointDensity_one hq hq1 (div_pos hp ha), div_fin_of_ne _ ha2, pow_two]
  · push Not at hp
    have hpa : p / amax ≤ 0 := div_nonpos_of_nonpos_of_nonneg hp ha.le
    obtain ⟨h1, h2, h3, h4⟩ := I_nonpos hpa (x / amax) q
    rw [h1, h2, h3, h4, jointDensity_nonpos hq hpa]
    simp only [add_fin_fin, div_fin_of_ne _ ha2]
    simp

end

end GW.SpinPriorJoint
