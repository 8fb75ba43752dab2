import Verif.Lemmas.Tools
import Mathlib.Data.List.Perm.Basic
import Mathlib.Tactic.Linarith

/-!
# C30, C31: batching and the train/test split
-/

namespace GW.Tools

/-- **C30.** For every array and every positive batch size: batches of exactly that size and a shorter remainder that
concatenate to the array, and as many batches as fit. -/
theorem C30_batches_and_remainder_cover {α : Type} (x : List α) (b : Nat) (hb : 0 < b) :
    ∃ bs r, batchAndRemainder x b = .ok (bs, r) ∧ bs.flatten ++ r = x ∧ (∀ c ∈ bs, c.length = b) ∧
      r.length < b ∧ bs.length = x.length / b ∧ r.length = x.length % b := by
  obtain ⟨bs, r, h, h1, h2, h3, h4⟩ := batchAndRemainder_ok x b hb
  exact ⟨bs, r, h, h1, h3, by rw [h4]; exact Nat.mod_lt _ hb, h2, h4⟩

/-- **C30.** Mapping a function over the batches and the remainder equals mapping it over the array. -/
theorem C30_batched_map_eq_map {α β : Type} (f : α → β) (x : List α) (b : Nat) (bs : List (List α)) (r : List α)
    (h : batchAndRemainder x b = .ok (bs, r)) : (bs.map (List.map f)).flatten ++ r.map f = x.map f := by
  by_cases hb : 0 < b
  · obtain ⟨bs', r', h', h1, _⟩ := batchAndRemainder_ok x b hb
    rw [h] at h'
    simp only [Except.ok.injEq, Prod.mk.injEq] at h'
    obtain ⟨rfl, rfl⟩ := h'
    rw [← h1, List.map_append, List.map_flatten]
  · have : b = 0 := by omega
    subst this
    simp [batchAndRemainder] at h

/-- **C30.** A zero batch size raises. -/
theorem C30_zero_batch_rejected {α : Type} (x : List α) : batchAndRemainder x 0 = .error .zeroDivision := rfl

/-- Non-vacuity of C30. -/
example : (batchAndRemainder [1, 2, 3, 4, 5] 2).toOption = some ([[1, 2], [3, 4]], [5]) := by decide

/-- **C31.** Train and test parts together are exactly the data (each row once), features and targets stay paired,
for every permutation drawn. -/
theorem C31_split_is_partition {α β : Type} [Inhabited α] [Inhabited β] (X : List α) (Y : List β)
    (hXY : Y.length = X.length) (idx : List Nat) (hidx : idx.Perm (List.range X.length)) (b : Nat) (hb : 0 < b) (t : ℚ) :
    ∃ xtr xte ytr yte, trainTestSplit X Y idx b t = .ok (xtr, xte, ytr, yte) ∧
      (xtr.zip ytr ++ xte.zip yte).Perm (X.zip Y) ∧ xtr.length = ytr.length ∧ xte.length = yte.length := by
  unfold trainTestSplit
  rw [if_neg (by omega)]
  refine ⟨_, _, _, _, rfl, ?_, by simp, by simp⟩
  have key : ∀ l : List Nat, (l.map (X.getD · default)).zip (l.map (Y.getD · default)) =
      l.map fun i => (X.getD i default, Y.getD i default) := by
    intro l; induction l with
    | nil => rfl
    | cons a l ih => simp at ih ⊢; exact ih
  rw [key, key, ← List.map_append, List.take_append_drop]
  refine (hidx.map _).trans (List.Perm.of_eq ?_)
  apply List.ext_getElem
  · simp [hXY]
  · intro i h1 h2
    simp at h1 h2
    simp [List.getD_eq_getElem?_getD, h2.1, h2.2]

theorem splitIndex_le (n b : Nat) (hb : 0 < b) (t : ℚ) (ht : 0 ≤ t) (hn : b ≤ n) :
    b ≤ splitIndex n b t ∧ splitIndex n b t ≤ n := by
  unfold splitIndex
  simp only
  set s := ⌊(n : ℚ) * (1 - t)⌋.toNat with hs
  have hsn : s ≤ n := by
    rw [hs]
    have h0 : (0 : ℚ) ≤ (n : ℚ) := by positivity
    have h1 : (n : ℚ) * (1 - t) ≤ n := by nlinarith
    have h2 : ⌊(n : ℚ) * (1 - t)⌋ ≤ (n : ℤ) := by
      have := Int.floor_le_floor h1
      simpa using this
    omega
  have h1 : max s b / b * b ≤ max s b := Nat.div_mul_le_self _ _
  have h2 : b ≤ max s b / b * b := by
    have : 1 ≤ max s b / b := by rw [Nat.one_le_div_iff hb]; exact le_max_right _ _
    nlinarith
  have h3 : max s b ≤ n := by omega
  generalize max s b / b * b = q at *
  split_ifs with h
  · omega
  · omega

theorem splitIndex_between (n b : Nat) (hb : 0 < b) (t : ℚ) (ht : 0 ≤ t) (hn : b < n) :
    b ≤ splitIndex n b t ∧ splitIndex n b t < n := by
  refine ⟨(splitIndex_le n b hb t ht hn.le).1, ?_⟩
  unfold splitIndex
  simp only
  set s := ⌊(n : ℚ) * (1 - t)⌋.toNat with hs
  have hsn : s ≤ n := by
    rw [hs]
    have h0 : (0 : ℚ) ≤ (n : ℚ) := by positivity
    have h1 : (n : ℚ) * (1 - t) ≤ n := by nlinarith
    have h2 : ⌊(n : ℚ) * (1 - t)⌋ ≤ (n : ℤ) := by
      have := Int.floor_le_floor h1
      simpa using this
    omega
  split_ifs with h
  · have := Nat.min_le_right (max s b / b * b) (n - b)
    omega
  · have hq : max s b / b < 2 := by
      rw [Nat.div_lt_iff_lt_mul hb]; omega
    have : max s b / b * b ≤ 1 * b := Nat.mul_le_mul_right b (by omega)
    omega

theorem split_lengths {α β : Type} [Inhabited α] [Inhabited β] {X : List α} {Y : List β} {idx : List Nat} (hidx : idx.length = X.length) {b : Nat} {t : ℚ}
    {xtr xte : List α} {ytr yte : List β} (h : trainTestSplit X Y idx b t = .ok (xtr, xte, ytr, yte)) :
    xtr.length = min (splitIndex X.length b t) X.length ∧ xte.length = X.length - splitIndex X.length b t := by
  unfold trainTestSplit at h
  split_ifs at h
  simp only [Except.ok.injEq, Prod.mk.injEq] at h
  obtain ⟨rfl, rfl, -, -⟩ := h
  simp [hidx]

/-- **C31.** With more data than one batch and a test fraction `≥ 0`, the training part has at least one whole batch and
the test part is not empty. -/
theorem C31_both_parts_nonempty {α β : Type} [Inhabited α] [Inhabited β] {X : List α} {Y : List β} {idx : List Nat} (hidx : idx.length = X.length) {b : Nat} (hb : 0 < b)
    {t : ℚ} (ht : 0 ≤ t) (hn : b < X.length) {xtr xte : List α} {ytr yte : List β} (h : trainTestSplit X Y idx b t = .ok (xtr, xte, ytr, yte)) :
    b ≤ xtr.length ∧ xte ≠ [] := by
  obtain ⟨h1, h2⟩ := split_lengths hidx h
  obtain ⟨h3, h4⟩ := splitIndex_between X.length b hb t ht hn
  refine ⟨by omega, fun e => ?_⟩
  rw [e] at h2
  simp at h2
  omega

/-- **C31 (partial).** With at least one batch of data, the training part is a whole number of batches exactly when the data length is a multiple of the
batch size, or when fewer than two batches of data exist, or when the rounded split leaves at least a batch for testing.
The claim without these conditions fails, see `C31_whole_batches_violated`. -/
theorem C31_whole_batches_partial {α β : Type} [Inhabited α] [Inhabited β] {X : List α} {Y : List β} {idx : List Nat} (hidx : idx.length = X.length) {b : Nat} (hb : 0 < b)
    {t : ℚ} (ht : 0 ≤ t) (hn : b ≤ X.length) {xtr xte : List α} {ytr yte : List β} (h : trainTestSplit X Y idx b t = .ok (xtr, xte, ytr, yte)) :
    b ∣ xtr.length ↔ b ∣ X.length ∨ X.length < 2 * b ∨ max ⌊(X.length : ℚ) * (1 - t)⌋.toNat b / b * b ≤ X.length - b := by
  rw [(split_lengths hidx h).1, min_eq_left (splitIndex_le X.length b hb t ht hn).2]
  generalize X.length = n at *
  unfold splitIndex
  simp only
  generalize hs : max ⌊(n : ℚ) * (1 - t)⌋.toNat b = s at *
  have hd : b ∣ s / b * b := Dvd.intro_left _ rfl
  split_ifs with h2
  · rcases Nat.le_total (s / b * b) (n - b) with h3 | h3
    · rw [min_eq_left h3]
      exact ⟨fun _ => .inr (.inr h3), fun _ => hd⟩
    · rw [min_eq_right h3]
      constructor
      · intro k
        left
        have := Nat.dvd_add k (dvd_refl b)
        rwa [Nat.sub_add_cancel hn] at this
      · rintro (k | k | k)
        · exact Nat.dvd_sub k (dvd_refl b)
        · omega
        · rw [show n - b = s / b * b by omega]; exact hd
  · have : b ≤ s / b * b := by
      have h1 : b ≤ s := by rw [← hs]; exact le_max_right _ _
      have : 1 ≤ s / b := by rw [Nat.one_le_div_iff hb]; exact h1
      nlinarith
    rw [max_eq_right this]
    exact ⟨fun _ => .inr (.inl (by omega)), fun _ => hd⟩

/-- **C31 (violated).** With the default test fraction 0.2, 25 rows and batches of 10 the training part has 15 rows, whatever the rows and the permutation: not a
multiple of the batch size. -/
theorem C31_whole_batches_violated {α β : Type} [Inhabited α] [Inhabited β] {X : List α} {Y : List β} {idx : List Nat} (hX : X.length = 25) (hidx : idx.length = 25)
    {xtr xte : List α} {ytr yte : List β} (h : trainTestSplit X Y idx 10 (1 / 5) = .ok (xtr, xte, ytr, yte)) : xtr.length = 15 ∧ ¬ 10 ∣ xtr.length := by
  have := (split_lengths (hidx.trans hX.symm) h).1
  rw [hX, show splitIndex 25 10 (1 / 5) = 15 by decide +kernel] at this
  rw [this]
  decide

/-- Such splits exist. -/
example : ∃ xtr xte ytr yte, trainTestSplit (List.range 25) (List.range 25) (List.range 25).reverse 10 (1 / 5) = .ok (xtr, xte, ytr, yte) ∧ xtr.length = 15 ∧ xte.length = 10 := by
  obtain ⟨xtr, xte, ytr, yte, h, -⟩ := C31_split_is_partition (List.range 25) (List.range 25) rfl (List.range 25).reverse (by simpa using List.reverse_perm _) 10 (by norm_num) (1 / 5)
  have := split_lengths (by simp) h
  rw [List.length_range, show splitIndex 25 10 (1 / 5) = 15 by decide +kernel] at this
  exact ⟨xtr, xte, ytr, yte, h, this.1, this.2⟩

/-- **C31.** The mini-batches of an epoch cover the training part in order, none is empty or longer than the batch size,
and their number is `⌈len / b⌉`. -/
theorem C31_epoch_batches_cover {α : Type} (b : Nat) (hb : 0 < b) (l : List α) :
    (epochBatches b l.length l).flatten = l ∧
    (∀ c ∈ epochBatches b l.length l, 0 < c.length ∧ c.length ≤ b) ∧
    (epochBatches b l.length l).length = (l.length + b - 1) / b := by
  have key : ∀ (fuel : Nat) (l : List α), l.length ≤ fuel →
      (epochBatches b fuel l).flatten = l ∧ (∀ c ∈ epochBatches b fuel l, 0 < c.length ∧ c.length ≤ b) ∧
      (epochBatches b fuel l).length = (l.length + b - 1) / b := by
    intro fuel
    induction fuel with
    | zero =>
      intro l hl
      have : l = [] := List.eq_nil_of_length_eq_zero (by omega)
      subst this
      refine ⟨rfl, by simp [epochBatches], ?_⟩
      simp [epochBatches]
      symm; rw [Nat.div_eq_zero_iff]; omega
    | succ fuel ih =>
      intro l hl
      cases l with
      | nil =>
        refine ⟨rfl, by simp [epochBatches], ?_⟩
        simp [epochBatches]
        symm; rw [Nat.div_eq_zero_iff]; omega
      | cons a l =>
        obtain ⟨h1, h2, h3⟩ := ih ((a :: l).drop b) (by simp at hl ⊢; omega)
        refine ⟨?_, ?_, ?_⟩
        · simp only [epochBatches, List.flatten_cons, h1, List.take_append_drop]
        · intro c hc
          simp only [epochBatches, List.mem_cons] at hc
          rcases hc with rfl | hc
          · simp; omega
          · exact h2 c hc
        · simp only [epochBatches, List.length_cons] at h3 ⊢
          rw [h3, List.length_drop, List.length_cons]
          rcases Nat.lt_or_ge (l.length + 1) b with hlt | hge
          · rw [show l.length + 1 - b = 0 by omega, Nat.zero_add, Nat.div_eq_of_lt (by omega), Nat.zero_add]
            symm
            rw [Nat.div_eq_iff hb]
            constructor <;> omega
          · rw [show l.length + 1 + b - 1 = (l.length + 1 - b + b - 1) + b by omega, Nat.add_div_right _ hb]
  exact key l.length l (Nat.le_refl _)

/-- **C31.** The divisor of the reported epoch loss equals the number of mini-batches when the training part is a
positive multiple of the batch size. -/
theorem C31_epoch_loss_divisor {α : Type} (b k : Nat) (hb : 0 < b) (hk : 0 < k) (l : List α) (hl : l.length = k * b) :
    epochDivisor l.length b = (epochBatches b l.length l).length := by
  rw [(C31_epoch_batches_cover b hb l).2.2, hl, epochDivisor, Nat.mul_div_cancel _ hb,
    show k * b + b - 1 = (b - 1) + b * k by rw [Nat.mul_comm b k]; omega, Nat.add_mul_div_left _ _ hb,
    Nat.div_eq_of_lt (by omega)]
  omega

/-- **C31 (violated consequence).** For the 15 training rows above the reported loss sums two mini-batches and divides by
one. -/
theorem C31_epoch_loss_divisor_violated :
    epochDivisor 15 10 = 1 ∧ (epochBatches 10 15 (List.range 15)).length = 2 := by decide +kernel

/-- Non-vacuity of C31. -/
example : (trainTestSplit [10, 11, 12, 13] [0, 1, 2, 3] [2, 0, 3, 1] 1 (1 / 4)).toOption =
    some ([12, 10, 13], [11], [2, 0, 3], [1]) := by decide +kernel

end GW.Tools
