import Verif.Spec.Thinning
import Verif.Lemmas.XR
import Mathlib.Algebra.BigOperators.Fin
import Mathlib.Tactic.Linarith

/-! # Lemmas on the selection of detected events -/

namespace GW.Population
open GW XR MeasureTheory

noncomputable section
open Classical

theorem weight_nonneg (x : XR) : 0 ≤ weight x := by
  cases x <;> simp [weight, Real.exp_nonneg]

theorem weight_pos_iff (x : XR) : 0 < weight x ↔ ∃ a, x = fin a := by
  cases x <;> simp [weight, Real.exp_pos]

theorem weight_clean (x : XR) : weight (cleanSelection x) = weight x := by
  cases x <;> rfl

theorem clean_cases (x : XR) : cleanSelection x = ninf ∨ ∃ a, cleanSelection x = fin a := by
  cases x <;> simp [cleanSelection, nanToNum]

theorem top_cases {l : List XR} (hl : ∀ x ∈ l, x = ninf ∨ ∃ a, x = fin a) : (top l = ninf ∧ ∀ x ∈ l, x = ninf) ∨ ∃ M, top l = fin M := by
  induction l with
  | nil => exact Or.inl ⟨rfl, by simp⟩
  | cons x l ih =>
    have e : top (x :: l) = XR.max x (top l) := rfl
    rcases ih fun y hy => hl y (by simp [hy]) with ⟨h1, h2⟩ | ⟨M, hM⟩
    · rcases hl x (by simp) with rfl | ⟨a, rfl⟩
      · exact Or.inl ⟨by rw [e, h1]; rfl, by simpa using h2⟩
      · exact Or.inr ⟨a, by rw [e, h1]; rfl⟩
    · rcases hl x (by simp) with rfl | ⟨a, rfl⟩
      · exact Or.inr ⟨M, by rw [e, hM]; rfl⟩
      · exact Or.inr ⟨Max.max a M, by rw [e, hM]; rfl⟩

/-- With one detectable row the weights are the shares of the detection probabilities. -/
theorem softmaxWeights_eq {l : List XR} (hl : ∀ x ∈ l, x = ninf ∨ ∃ a, x = fin a) (hpos : 0 < (l.map weight).sum) :
    softmaxWeights l = l.map fun x => fin (weight x / (l.map weight).sum) := by
  rcases top_cases hl with ⟨_, h⟩ | ⟨M, hM⟩
  · have : l.map weight = l.map fun _ => 0 := List.map_congr_left fun x hx => by rw [h x hx]; rfl
    rw [this] at hpos
    simp at hpos
  · have he : l.map (fun x => XR.exp (x - top l)) = (l.map fun x => weight x * Real.exp (-M)).map fin := by
      rw [List.map_map]
      refine List.map_congr_left fun x hx => ?_
      rw [hM]
      rcases hl x hx with rfl | ⟨a, rfl⟩
      · simp [weight]
      · simp [weight, sub_eq_add_neg, Real.exp_add]
    have hsum : (l.map fun x => weight x * Real.exp (-M)).sum = (l.map weight).sum * Real.exp (-M) := by
      rw [List.sum_map_mul_right]
    unfold softmaxWeights
    simp only [he, sum_map_fin, hsum]
    rw [List.map_map, List.map_map]
    refine List.map_congr_left fun x _ => ?_
    have hne : (l.map weight).sum * Real.exp (-M) ≠ 0 := (mul_pos hpos (Real.exp_pos _)).ne'
    simp only [Function.comp_apply]
    rw [div_fin_of_ne _ hne, mul_div_mul_right _ _ (Real.exp_pos _).ne']

theorem cumsumFrom_fin (a : ℝ) (ps : List ℝ) :
    cumsumFrom (fin a) (ps.map fin) = (List.range ps.length).map fun i => fin (a + (ps.take (i + 1)).sum) := by
  induction ps generalizing a with
  | nil => rfl
  | cons p ps ih =>
    rw [List.map_cons, cumsumFrom, add_fin_fin, ih, List.length_cons, List.range_succ_eq_map, List.map_cons, List.map_map]
    congr 1
    · simp
    · refine List.map_congr_left fun i _ => ?_
      simp [add_assoc]

/-- The partial sums of a list. -/
def partialSum (ps : List ℝ) (i : Nat) : ℝ := (ps.take i).sum

theorem partialSum_mono {ps : List ℝ} (hp : ∀ p ∈ ps, 0 ≤ p) : Monotone (partialSum ps) := by
  refine monotone_nat_of_le_succ fun i => ?_
  unfold partialSum
  rw [List.take_add_one, List.sum_append]
  cases h : ps[i]? with
  | none => simp
  | some p => simpa using hp p (List.mem_of_getElem? h)

theorem partialSum_succ {ps : List ℝ} {i : Nat} (hi : i < ps.length) : partialSum ps (i + 1) = partialSum ps i + ps[i] := by
  unfold partialSum
  rw [List.take_add_one, List.sum_append, List.getElem?_eq_getElem hi]
  simp

/-- The index drawn is `i` exactly if the number falls in the `i`-th step. -/
theorem choose_iff {ps : List ℝ} (hp : ∀ p ∈ ps, 0 ≤ p) (hs : ps.sum = 1) {u : ℝ} (h0 : 0 ≤ u) (h1 : u < 1) :
    choose (ps.map fin) u < ps.length ∧
    ∀ i, i < ps.length → (choose (ps.map fin) u = i ↔ partialSum ps i < 1 - u ∧ 1 - u ≤ partialSum ps (i + 1)) := by
  have hc : cumsumFrom 0 (ps.map fin) = (List.range ps.length).map fun i => fin (partialSum ps (i + 1)) := by
    rw [zero_def, cumsumFrom_fin]; simp [partialSum]
  have hne : ps ≠ [] := by rintro rfl; simp at hs
  have hlen : 0 < ps.length := List.length_pos_iff.2 hne
  have hlast : ((List.range ps.length).map fun i => fin (partialSum ps (i + 1))).getLastD nan = fin 1 := by
    obtain ⟨n, hn⟩ : ∃ n, ps.length = n + 1 := ⟨ps.length - 1, by omega⟩
    rw [hn, List.range_succ, List.map_append, List.getLastD_eq_getLast?]
    simp only [List.map_cons, List.map_nil, List.getLast?_concat, Option.getD_some]
    rw [← hn, partialSum, List.take_length, hs]
  have hch : choose (ps.map fin) u = ((List.range ps.length).map fun i => fin (partialSum ps (i + 1))).findIdx
      fun a => decide (sortsUpTo (fin (1 - u)) a) := by
    unfold choose searchsorted
    simp only [hc, hlast, mul_fin_fin, one_mul]
  have hle : ∀ x : ℝ, sortsUpTo (fin (1 - u)) (fin x) ↔ 1 - u ≤ x := fun x => by simp [sortsUpTo]
  constructor
  · rw [hch]
    have : (((List.range ps.length).map fun i => fin (partialSum ps (i + 1))).findIdx fun a => decide (sortsUpTo (fin (1 - u)) a)) <
        ((List.range ps.length).map fun i => fin (partialSum ps (i + 1))).length := by
      rw [List.findIdx_lt_length]
      refine ⟨fin 1, ?_, by rw [decide_eq_true_eq, hle]; linarith⟩
      refine List.mem_map.2 ⟨ps.length - 1, by simp; omega, ?_⟩
      rw [show ps.length - 1 + 1 = ps.length by omega, partialSum, List.take_length, hs]
    simpa using this
  · intro i hi
    rw [hch, List.findIdx_eq (by simpa using hi)]
    simp only [List.getElem_map, List.getElem_range, decide_eq_true_eq, decide_eq_false_iff_not, hle, not_le]
    constructor
    · rintro ⟨h2, h3⟩
      refine ⟨?_, h2⟩
      cases i with
      | zero => simp only [partialSum, List.take_zero, List.sum_nil]; linarith
      | succ j => exact h3 j (by omega)
    · rintro ⟨h2, h3⟩
      exact ⟨h3, fun j hj => lt_of_le_of_lt (partialSum_mono hp (by omega)) h2⟩

theorem partialSum_bounds {ps : List ℝ} (hp : ∀ p ∈ ps, 0 ≤ p) (hs : ps.sum = 1) {i : Nat} (hi : i ≤ ps.length) :
    0 ≤ partialSum ps i ∧ partialSum ps i ≤ 1 := by
  constructor
  · have := partialSum_mono hp (Nat.zero_le i)
    simpa [partialSum] using this
  · have := partialSum_mono hp hi
    rw [show partialSum ps ps.length = 1 by rw [partialSum, List.take_length, hs]] at this
    exact this

theorem steps_disjoint {ps : List ℝ} (hp : ∀ p ∈ ps, 0 ≤ p) {i j : Fin ps.length} (hij : i ≠ j) :
    Disjoint (Set.Ico (1 - partialSum ps (i + 1)) (1 - partialSum ps i)) (Set.Ico (1 - partialSum ps (j + 1)) (1 - partialSum ps j)) := by
  rw [Set.disjoint_left]
  rintro u ⟨h1, h2⟩ ⟨h3, h4⟩
  rcases lt_or_gt_of_ne (fun h => hij (Fin.ext h)) with h | h
  · have := partialSum_mono hp (show i.val + 1 ≤ j.val by omega)
    linarith
  · have := partialSum_mono hp (show j.val + 1 ≤ i.val by omega)
    linarith

theorem mem_step_iff {ps : List ℝ} (hp : ∀ p ∈ ps, 0 ≤ p) (hs : ps.sum = 1) {u : ℝ} (i : Fin ps.length) :
    u ∈ Set.Ico (1 - partialSum ps (i + 1)) (1 - partialSum ps i) ↔ u ∈ Set.Ico 0 1 ∧ choose (ps.map fin) u = i := by
  constructor
  · rintro ⟨h4, h5⟩
    have b1 := partialSum_bounds hp hs (i := i + 1) i.isLt
    have b2 := partialSum_bounds hp hs (i := i) i.isLt.le
    have h0 : 0 ≤ u := by linarith
    have h1 : u < 1 := by linarith
    exact ⟨⟨h0, h1⟩, ((choose_iff hp hs h0 h1).2 i i.isLt).2 ⟨by linarith, by linarith⟩⟩
  · rintro ⟨⟨h0, h1⟩, h⟩
    obtain ⟨h4, h5⟩ := ((choose_iff hp hs h0 h1).2 i i.isLt).1 h
    exact ⟨by linarith, by linarith⟩

/-- Two independent draws give the same index with probability the sum of the squared weights. -/
theorem choose_twice {ps : List ℝ} (hp : ∀ p ∈ ps, 0 ≤ p) (hs : ps.sum = 1) :
    (unif.prod unif) {u | choose (ps.map fin) u.1 = choose (ps.map fin) u.2} = ENNReal.ofReal (∑ i : Fin ps.length, ps[i] ^ 2) := by
  have hset : {u : ℝ × ℝ | choose (ps.map fin) u.1 = choose (ps.map fin) u.2} ∩ Set.Ico 0 1 ×ˢ Set.Ico 0 1 =
      ⋃ i ∈ (Finset.univ : Finset (Fin ps.length)), Set.Ico (1 - partialSum ps (i + 1)) (1 - partialSum ps i) ×ˢ
        Set.Ico (1 - partialSum ps (i + 1)) (1 - partialSum ps i) := by
    ext ⟨u, v⟩
    simp only [Set.mem_inter_iff, Set.mem_ofPred_eq, Set.mem_prod, Finset.mem_univ, Set.mem_iUnion, exists_prop, true_and, mem_step_iff hp hs]
    constructor
    · rintro ⟨h, hu, hv⟩
      exact ⟨⟨_, (choose_iff hp hs hu.1 hu.2).1⟩, ⟨hu, rfl⟩, hv, h.symm⟩
    · rintro ⟨i, ⟨hu, h1⟩, hv, h2⟩
      exact ⟨h1.trans h2.symm, hu, hv⟩
  unfold unif
  rw [Measure.prod_restrict, Measure.restrict_apply' (measurableSet_Ico.prod measurableSet_Ico), hset, measure_biUnion_finset]
  · rw [ENNReal.ofReal_sum_of_nonneg fun i _ => sq_nonneg _]
    refine Finset.sum_congr rfl fun i _ => ?_
    rw [Measure.prod_prod, Real.volume_Ico, partialSum_succ i.isLt, pow_two, ENNReal.ofReal_mul (hp (ps[i]) (List.getElem_mem _))]
    simp
  · intro i _ j _ hij
    exact Set.disjoint_prod.2 (Or.inl (steps_disjoint hp hij))
  · intro i _
    exact measurableSet_Ico.prod measurableSet_Ico

/-- The probability that the index drawn has a property is the sum of the weights of the indices with that property. -/
theorem choose_law {ps : List ℝ} (hp : ∀ p ∈ ps, 0 ≤ p) (hs : ps.sum = 1) (Q : Nat → Prop) :
    unif {u | Q (choose (ps.map fin) u)} = ENNReal.ofReal (∑ i : Fin ps.length, if Q i then ps[i] else 0) := by
  have hset : {u | Q (choose (ps.map fin) u)} ∩ Set.Ico 0 1 =
      ⋃ i ∈ Finset.univ.filter (fun i : Fin ps.length => Q i), Set.Ico (1 - partialSum ps (i + 1)) (1 - partialSum ps i) := by
    ext u
    simp only [Set.mem_inter_iff, Set.mem_ofPred_eq, Set.mem_Ico, Finset.mem_filter, Finset.mem_univ, true_and, Set.mem_iUnion, exists_prop]
    constructor
    · rintro ⟨hQ, h0, h1⟩
      obtain ⟨h2, h3⟩ := choose_iff hp hs h0 h1
      obtain ⟨h4, h5⟩ := (h3 _ h2).1 rfl
      exact ⟨⟨_, h2⟩, hQ, by simp only; linarith, by simp only; linarith⟩
    · rintro ⟨i, hQ, h4, h5⟩
      have b1 := partialSum_bounds hp hs (i := i + 1) i.isLt
      have b2 := partialSum_bounds hp hs (i := i) i.isLt.le
      have h0 : 0 ≤ u := by linarith
      have h1 : u < 1 := by linarith
      have := ((choose_iff hp hs h0 h1).2 i i.isLt).2 ⟨by linarith, by linarith⟩
      exact ⟨by rw [this]; exact hQ, h0, h1⟩
  unfold unif
  rw [Measure.restrict_apply' measurableSet_Ico, hset, measure_biUnion_finset]
  · rw [Finset.sum_filter, ENNReal.ofReal_sum_of_nonneg]
    · refine Finset.sum_congr rfl fun i _ => ?_
      split_ifs
      · rw [Real.volume_Ico, partialSum_succ i.isLt]
        congr 1
        simp
      · simp
    · intro i _
      split_ifs
      · exact hp _ (List.getElem_mem _)
      · exact le_rfl
  · intro i _ j _ hij
    rw [Function.onFun, Set.disjoint_left]
    rintro u ⟨h1, h2⟩ ⟨h3, h4⟩
    rcases lt_or_gt_of_ne (fun h => hij (Fin.ext h)) with h | h
    · have := partialSum_mono hp (show i.val + 1 ≤ j.val by omega)
      linarith
    · have := partialSum_mono hp (show j.val + 1 ≤ i.val by omega)
      linarith
  · intro i _
    exact measurableSet_Ico

end
end GW.Population
