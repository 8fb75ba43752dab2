import Verif.Model.Transforms
import Verif.Props.Constraints
import Mathlib.Tactic.Positivity

/-!
# C21: the unconstrained-to-constrained maps land in the constraint
-/

namespace GW.Transforms
open GW XR GW.Constraints

/-! ## Helpers: the ordered real vector -/

/-- Running sums of positive increments. -/
noncomputable def sumsFrom : ℝ → List ℝ → List ℝ
  | _, [] => []
  | acc, a :: rest => (acc + Real.exp |a|) :: sumsFrom (acc + Real.exp |a|) rest

noncomputable def ordered : List ℝ → List ℝ
  | [] => []
  | a :: rest => |a| :: sumsFrom |a| rest

theorem cumsum_fin : ∀ (rest : List ℝ) (acc : ℝ), cumsumFrom (fin acc) ((absT (rest.map fin)).map exp) = (sumsFrom acc rest).map fin
  | [], _ => rfl
  | a :: rest, acc => by
    have := cumsum_fin rest (acc + Real.exp |a|)
    simp only [absT, List.map_cons, XR.abs_fin, exp_fin, cumsumFrom, add_fin_fin, sumsFrom] at this ⊢
    rw [this]

theorem toIncreasing_fin : ∀ xs : List ℝ, toIncreasing (xs.map fin) = (ordered xs).map fin
  | [] => rfl
  | a :: rest => by
    have := cumsum_fin rest |a|
    simp only [toIncreasing, absT, List.map_cons, XR.abs_fin, orderedT, ordered] at this ⊢
    rw [this]

theorem sumsFrom_gt : ∀ (rest : List ℝ) (acc : ℝ), (∀ b ∈ sumsFrom acc rest, acc < b) ∧ (sumsFrom acc rest).Pairwise (· < ·)
  | [], _ => by simp [sumsFrom]
  | a :: rest, acc => by
    have h := sumsFrom_gt rest (acc + Real.exp |a|)
    have he := Real.exp_pos |a|
    refine ⟨?_, ?_⟩
    · intro b hb
      rcases List.mem_cons.1 hb with rfl | hb
      · linarith
      · linarith [h.1 b hb]
    · rw [sumsFrom, List.pairwise_cons]
      exact ⟨fun b hb => h.1 b hb, h.2⟩

theorem sumsFrom_length : ∀ (rest : List ℝ) (acc : ℝ), (sumsFrom acc rest).length = rest.length
  | [], _ => rfl
  | _ :: rest, _ => by simp [sumsFrom, sumsFrom_length rest]

theorem ordered_length (xs : List ℝ) : (ordered xs).length = xs.length := by
  cases xs with
  | nil => rfl
  | cons a rest => simp [ordered, sumsFrom_length]

theorem ordered_pairwise (xs : List ℝ) : (ordered xs).Pairwise (· < ·) := by
  cases xs with
  | nil => exact List.Pairwise.nil
  | cons a rest =>
    rw [ordered, List.pairwise_cons]
    exact sumsFrom_gt rest |a|

theorem ordered_nonneg (xs : List ℝ) : ∀ b ∈ ordered xs, 0 ≤ b := by
  cases xs with
  | nil => simp [ordered]
  | cons a rest =>
    intro b hb
    rcases List.mem_cons.1 hb with rfl | hb
    · exact abs_nonneg a
    · exact (abs_nonneg a).trans ((sumsFrom_gt rest |a|).1 b hb).le

theorem lt_le {a b : XR} (h : lt a b) : le a b := by
  cases a <;> cases b <;> simp_all [lt, le]
  exact h.le

/-! ## C21 -/

/-- **C21.**  For every real vector, of any length, the map registered for the increasing constraints keeps the length and lands in `increasing` and
`strictly_increasing`; it lands in `positive_increasing` when the first coordinate is not zero. -/
theorem C21_increasing (xs : List ℝ) :
    (toIncreasing (xs.map fin)).length = xs.length ∧
    Leaf.increasing.check (toIncreasing (xs.map fin)) = .ok true ∧
    Leaf.strictlyIncreasing.check (toIncreasing (xs.map fin)) = .ok true ∧
    (xs.head? ≠ some 0 → Leaf.positiveIncreasing.check (toIncreasing (xs.map fin)) = .ok true) := by
  rw [toIncreasing_fin]
  have hlt : ((ordered xs).map fin).Pairwise lt := by
    rw [List.pairwise_map]
    exact ordered_pairwise xs
  have hle : ((ordered xs).map fin).Pairwise le := hlt.imp lt_le
  refine ⟨by simp [ordered_length], (C18_accepts_iff _).1.2 ((pairwise_iff_allPairs _ _).1 hle),
    (C18_accepts_iff _).2.2.1.2 ((pairwise_iff_allPairs _ _).1 hlt), fun h0 => ?_⟩
  refine (C18_accepts_iff _).2.2.2.2.1.2 ⟨(pairwise_iff_allPairs _ _).1 hle, ?_⟩
  intro a ha
  obtain ⟨b, hb, rfl⟩ := List.mem_map.1 ha
  show (0 : ℝ) < b
  cases xs with
  | nil => simp [ordered] at hb
  | cons c rest =>
    have hc : c ≠ 0 := by simpa using h0
    rcases List.mem_cons.1 hb with rfl | hb
    · exact abs_pos.2 hc
    · exact (abs_nonneg c).trans_lt ((sumsFrom_gt rest |c|).1 b hb)

/-- **C21 (zero first coordinate).**  `biject_to(positive_increasing_vector)` maps `(0, 0)` to `(0, 1)`, which the constraint rejects. -/
theorem C21_positive_increasing_violated : Leaf.positiveIncreasing.check (toIncreasing [fin 0, fin 0]) = .ok false := by
  have : toIncreasing [fin 0, fin 0] = [fin 0, fin 1] := by
    simp [toIncreasing, absT, orderedT, cumsumFrom]
  rw [this]
  simp [Leaf.check, allPositive]

theorem inv_lt {a b : ℝ} (ha : 0 ≤ a) (hab : a < b) : lt (pow (fin b) (-1)) (pow (fin a) (-1)) := by
  have hb : 0 < b := by linarith
  rw [pow_fin_pos hb]
  rcases ha.eq_or_lt with h | h
  · rw [← h, pow_fin_zero_neg (by norm_num)]
    trivial
  · rw [pow_fin_pos h, Real.rpow_neg_one, Real.rpow_neg_one]
    exact (inv_lt_inv₀ hb h).2 hab

theorem inv_pos' {a : ℝ} (ha : 0 ≤ a) : lt 0 (pow (fin a) (-1)) := by
  rcases ha.eq_or_lt with h | h
  · rw [← h, pow_fin_zero_neg (by norm_num)]
    trivial
  · rw [pow_fin_pos h, Real.rpow_neg_one]
    exact inv_pos.2 h

/-- **C21.**  For every real vector the map registered for the decreasing constraints keeps the length and lands in all three of them. -/
theorem C21_decreasing (xs : List ℝ) :
    (toDecreasing (xs.map fin)).length = xs.length ∧
    Leaf.decreasing.check (toDecreasing (xs.map fin)) = .ok true ∧
    Leaf.strictlyDecreasing.check (toDecreasing (xs.map fin)) = .ok true ∧
    Leaf.positiveDecreasing.check (toDecreasing (xs.map fin)) = .ok true := by
  have e : toDecreasing (xs.map fin) = (ordered xs).map fun a => pow (fin a) (-1) := by
    have := toIncreasing_fin xs
    simp only [toIncreasing] at this
    simp only [toDecreasing, this, powerT, List.map_map]
    rfl
  rw [e]
  have hnn := ordered_nonneg xs
  have hlt : ((ordered xs).map fun a => pow (fin a) (-1)).Pairwise (fun a b => lt b a) := by
    rw [List.pairwise_map]
    exact List.Pairwise.imp_of_mem (fun ha _ hab => inv_lt (hnn _ ha) hab) (ordered_pairwise xs)
  have hle : ((ordered xs).map fun a => pow (fin a) (-1)).Pairwise (fun a b => le b a) := hlt.imp lt_le
  refine ⟨by simp [ordered_length], (C18_accepts_iff _).2.1.2 ((pairwise_iff_allPairs _ _).1 hle),
    (C18_accepts_iff _).2.2.2.1.2 ((pairwise_iff_allPairs _ _).1 hlt),
    (C18_accepts_iff _).2.2.2.2.2.2 ⟨(pairwise_iff_allPairs _ _).1 hle, ?_⟩⟩
  intro a ha
  obtain ⟨b, hb, rfl⟩ := List.mem_map.1 ha
  exact inv_pos' (hnn b hb)

/-- The sigmoid of a reciprocal of a non-negative number: above one half, at most one. -/
theorem sigmoid_recip {a : ℝ} (ha : 0 ≤ a) : ∃ s : ℝ, fin 1 / (fin 1 + exp (-(pow (fin a) (-1)))) = fin s ∧ 1 / 2 < s ∧ s ≤ 1 ∧
    (s = if a = 0 then 1 else 1 / (1 + Real.exp (-a⁻¹))) := by
  rcases ha.eq_or_lt with h | h
  · refine ⟨1, ?_, by norm_num, le_refl _, by simp [← h]⟩
    rw [← h, pow_fin_zero_neg (by norm_num)]
    have e1 : (-pinf : XR) = ninf := rfl
    have e2 : XR.exp ninf = fin 0 := rfl
    rw [e1, e2]
    simp
  · have he := Real.exp_pos (-a⁻¹)
    have hlt : Real.exp (-a⁻¹) < 1 := by
      rw [Real.exp_lt_one_iff]
      simp [h]
    have hden : 1 + Real.exp (-a⁻¹) ≠ 0 := by positivity
    refine ⟨1 / (1 + Real.exp (-a⁻¹)), ?_, ?_, ?_, by simp [h.ne']⟩
    · rw [pow_fin_pos h, Real.rpow_neg_one]
      simp [hden]
    · rw [div_lt_div_iff₀ (by norm_num) (by positivity)]
      linarith
    · rw [div_le_one (by positivity)]
      linarith

theorem sigmoid_recip_mono {a b s t : ℝ} (ha : 0 ≤ a) (hab : a < b) (hs : s = if a = 0 then 1 else 1 / (1 + Real.exp (-a⁻¹)))
    (ht : t = if b = 0 then 1 else 1 / (1 + Real.exp (-b⁻¹))) (ht1 : t ≤ 1) : t ≤ s := by
  have hb : 0 < b := by linarith
  rcases ha.eq_or_lt with h | h
  · rw [hs, ← h]
    simpa using ht1
  · rw [hs, ht, if_neg hb.ne', if_neg h.ne']
    have : Real.exp (-a⁻¹) ≤ Real.exp (-b⁻¹) := by
      rw [Real.exp_le_exp]
      have := (inv_lt_inv₀ hb h).2 hab
      linarith
    apply div_le_div_of_nonneg_left (by norm_num) (by positivity)
    linarith

/-- The two sigmoid values that the mass maps are built from. -/
theorem sandwich_core (a b : ℝ) : ∃ s t : ℝ, sigmoidT (powerT (orderedT (absT [fin a, fin b]))) = [fin s, fin t] ∧
    1 / 2 < t ∧ t ≤ s ∧ s ≤ 1 := by
  have h0 : 0 ≤ |a| := abs_nonneg a
  have hlt : |a| < |a| + Real.exp |b| := by linarith [Real.exp_pos |b|]
  obtain ⟨s, e1, p1, p2, p3⟩ := sigmoid_recip h0
  obtain ⟨t, e2, q1, q2, q3⟩ := sigmoid_recip (h0.trans hlt.le)
  refine ⟨s, t, ?_, q1, sigmoid_recip_mono h0 hlt p3 q3 q2, p2⟩
  simp only [absT, List.map_cons, List.map_nil, XR.abs_fin, orderedT, cumsumFrom, exp_fin, add_fin_fin, powerT, sigmoidT, e1, e2]

/-- **C21.**  `biject_to(mass_sandwich(mmin, mmax))` lands in the sandwich for every real pair and `0 < mmin ≤ mmax`. -/
theorem C21_sandwich (mmin mmax a b : ℝ) (h0 : 0 < mmin) (h : mmin ≤ mmax) :
    (Leaf.massSandwich mmin mmax).check (toSandwich mmin mmax [fin a, fin b]) = .ok true := by
  obtain ⟨s, t, e, h1, h2, h3⟩ := sandwich_core a b
  simp only [toSandwich, e, List.map_cons, List.map_nil, mul_fin_fin, add_fin_fin]
  rw [C19_sandwich_iff]
  refine ⟨h0, by nlinarith, by nlinarith, by nlinarith⟩

/-- **C21 (partial).**  `biject_to(mass_ratio_mass_sandwich(mmin, mmax))` lands in the constraint for every real pair *if* `mmax ≥ 3 mmin`.  Without that it can leave
it: next theorem. -/
theorem C21_ratio_sandwich_partial (mmin mmax a b : ℝ) (h0 : 0 < mmin) (h : 3 * mmin ≤ mmax) :
    (Leaf.massRatioSandwich mmin mmax).check (toRatioSandwich mmin mmax [fin a, fin b]) = .ok true := by
  obtain ⟨s, t, e, h1, h2, h3⟩ := sandwich_core a b
  simp only [toRatioSandwich, e, List.zip_cons_cons, List.zip_nil_right, List.map_cons, List.map_nil, mul_fin_fin, add_fin_fin, zero_add, one_mul]
  rw [C19_ratio_iff]
  have hm : 0 < mmin + (mmax - mmin) * s := by nlinarith
  refine ⟨h0, by nlinarith, by nlinarith, ?_, by linarith⟩
  rw [div_le_iff₀ hm]
  nlinarith [mul_nonneg (by linarith : 0 ≤ mmax - 3 * mmin) (by linarith : 0 ≤ s), mul_nonneg (by linarith : (0 : ℝ) ≤ t - 1 / 2) (by linarith : (0 : ℝ) ≤ s)]

/-- **C21 (violated for narrow mass ranges).**  For `mmin = 5`, `mmax = 6` the image of `(0, 2)` leaves the constraint: it has
`m1 = 6` and a mass ratio below `5/6`, so `m2 < mmin`. -/
theorem C21_ratio_sandwich_violated : ∃ a b : ℝ, (Leaf.massRatioSandwich 5 6).check (toRatioSandwich 5 6 [fin a, fin b]) ≠ .ok true := by
  refine ⟨0, 2, ?_⟩
  have h0 : 0 ≤ |(0 : ℝ)| := abs_nonneg 0
  have hlt : |(0 : ℝ)| < |(0 : ℝ)| + Real.exp |2| := by linarith [Real.exp_pos |(2 : ℝ)|]
  obtain ⟨s, e1, p1, p2, p3⟩ := sigmoid_recip h0
  obtain ⟨t, e2, q1, q2, q3⟩ := sigmoid_recip (h0.trans hlt.le)
  have e : toRatioSandwich 5 6 [fin 0, fin 2] = [fin (5 + (6 - 5) * s), fin (0 + 1 * t)] := by
    simp only [toRatioSandwich, absT, List.map_cons, List.map_nil, XR.abs_fin, orderedT, cumsumFrom, exp_fin, add_fin_fin, powerT, sigmoidT, e1, e2,
      List.zip_cons_cons, List.zip_nil_right, mul_fin_fin]
  rw [e, Ne, C19_ratio_iff]
  rintro ⟨_, _, _, h4, _⟩
  have hs : 0 < 5 + (6 - 5) * s := by linarith
  rw [div_le_iff₀ hs] at h4
  -- t < 5/6
  have hexp2 : (1 : ℝ) + 2 ≤ Real.exp 2 := by linarith [Real.add_one_le_exp (2 : ℝ)]
  have ht : t = 1 / (1 + Real.exp (-(Real.exp 2)⁻¹)) := by
    rw [q3]
    simp [(Real.exp_pos 2).ne']
  have hinv : (Real.exp 2)⁻¹ ≤ 1 / 3 := by
    rw [inv_eq_one_div]
    exact one_div_le_one_div_of_le (by norm_num) (by linarith)
  have he : 2 / 3 ≤ Real.exp (-(Real.exp 2)⁻¹) := by
    have := Real.add_one_le_exp (-(Real.exp 2)⁻¹)
    linarith
  have ht2 : t ≤ 3 / 5 := by
    rw [ht, div_le_div_iff₀ (by positivity) (by norm_num)]
    linarith
  nlinarith

/-- A vector of three reals. -/
example : Leaf.positiveDecreasing.check (toDecreasing ([1, -2, 3].map fin)) = .ok true := (C21_decreasing [1, -2, 3]).2.2.2

end GW.Transforms
