import Verif.Spec.RoundedLikelihood
import Verif.Lemmas.Rounding
import Verif.Lemmas.XR
import Mathlib.Analysis.SpecialFunctions.Exponential
import Mathlib.Analysis.Complex.Exponential

/-!
# Sums in rounded arithmetic, in any order
-/

namespace GW.RoundedLikelihood
open GW XR Rounding

variable {f : Format} {fl : ℝ → XR}

theorem mem_nat (hf : f.Usable) {n : ℕ} (h : n < 2 ^ f.p) : f.Mem n :=
  ⟨n, 0, by rw [abs_of_nonneg (by positivity)]; exact_mod_cast h, by linarith [hf.2.1], hf.2.2, by simp⟩

/-- Small sums are exact. -/
theorem mem_add_small (hf : f.Usable) {a b : ℝ} (ha : f.Mem a) (hb : f.Mem b) (h : |a + b| < (2 : ℝ) ^ (f.emin + f.p)) : f.Mem (a + b) := by
  obtain ⟨n, k, -, hk, -, rfl⟩ := ha
  obtain ⟨m, j, -, hj, -, rfl⟩ := hb
  have key : ∀ (n k : ℤ), f.emin ≤ k → (n : ℝ) * 2 ^ k = ((n * 2 ^ (k - f.emin).toNat : ℤ) : ℝ) * 2 ^ f.emin := by
    intro n k hk
    push_cast
    rw [mul_assoc, ← zpow_natCast, ← zpow_add₀ (by norm_num)]
    congr 2
    omega
  rw [key n k hk, key m j hj, ← add_mul] at h ⊢
  rw [← Int.cast_add] at h ⊢
  refine ⟨_, f.emin, ?_, le_rfl, by linarith [hf.2.1, hf.2.2], rfl⟩
  have h0 : (0 : ℝ) < 2 ^ f.emin := by positivity
  rw [abs_mul, abs_of_pos h0, zpow_add₀ (by norm_num), mul_comm ((2 : ℝ) ^ f.emin)] at h
  have h1 := lt_of_mul_lt_mul_right h h0.le
  rw [zpow_natCast] at h1
  exact_mod_cast h1

theorem Nearest.rel_abs (h : Nearest f fl) (hp : 2 ≤ f.p) {x : ℝ} (h1 : (2 : ℝ) ^ (f.emin + f.p - 1) ≤ |x|) (h2 : |x| ≤ (2 : ℝ) ^ f.emax) :
    ∃ y, fl x = fin y ∧ f.Mem y ∧ |y - x| ≤ |x| / 2 ^ f.p := by
  rcases le_total 0 x with hx | hx
  · rw [abs_of_nonneg hx] at h1 h2 ⊢
    exact h.rel hp h1 h2
  · rw [abs_of_nonpos hx] at h1 h2 ⊢
    obtain ⟨y, hy, hm, he⟩ := h.rel hp h1 h2
    have := h.odd x
    rw [hy] at this
    refine ⟨-y, ?_, hm.neg, ?_⟩
    · revert this; cases fl x <;> simp
      intro e; rw [e]; ring
    · rw [show -y - x = -(y - -x) by ring, abs_neg]; exact he

/-- Sums of floats are off by `2^-p` relatively: small ones are exact. -/
theorem Nearest.err_add (hf : f.Usable) (h : Nearest f fl) {a b : ℝ} (ha : f.Mem a) (hb : f.Mem b) (h2 : |a + b| ≤ (2 : ℝ) ^ f.emax) :
    ∃ y, fl (a + b) = fin y ∧ f.Mem y ∧ |y - (a + b)| ≤ |a + b| / 2 ^ f.p := by
  rcases lt_or_ge |a + b| ((2 : ℝ) ^ (f.emin + f.p)) with h1 | h1
  · have := mem_add_small hf ha hb h1
    exact ⟨a + b, h.exact this, this, by simp; positivity⟩
  · refine Nearest.rel_abs h (by have := hf.1; omega) (le_trans ?_ h1) h2
    exact zpow_le_zpow_right₀ (by norm_num) (by omega)

theorem two_pow_mem (hf : f.Usable) {k : ℤ} (h1 : f.emin ≤ k) (h2 : k ≤ f.emax) : f.Mem ((2 : ℝ) ^ k) := by
  refine ⟨1, k, ?_, h1, h2, by simp⟩
  have : (2 : ℤ) ^ 3 ≤ 2 ^ f.p := pow_le_pow_right₀ (by norm_num) hf.1
  norm_num; linarith

/-- Nonnegative results are off by `2^-p` relatively, or by half of `2^-p`. -/
theorem Nearest.err_nonneg (hw : Wide f) (h : Nearest f fl) {x : ℝ} (h0 : 0 ≤ x) (h2 : x ≤ (2 : ℝ) ^ f.emax) :
    ∃ y, fl x = fin y ∧ f.Mem y ∧ 0 ≤ y ∧ |y - x| ≤ Max.max x (1 / 2) / 2 ^ f.p := by
  obtain ⟨hf, hw1, hw2⟩ := hw
  have hpp : (0 : ℝ) < 2 ^ f.p := by positivity
  have hp := hf.1
  have hfe := hf.2.1
  obtain ⟨y, hy, hm, hy0, -⟩ := h.between (mem_zero hf) (two_pow_mem hf (k := f.emax) (by omega) le_rfl) h0 h2
  rcases lt_or_ge x ((2 : ℝ) ^ (f.emin + f.p - 1)) with h1 | h1
  · obtain ⟨y', hy', -, a1, a2⟩ := h.between (mem_zero hf) (two_pow_mem hf (k := f.emin + f.p - 1) (by omega) (by omega)) h0 h1.le
    rw [hy] at hy'
    injection hy' with e
    subst e
    refine ⟨y, hy, hm, hy0, ?_⟩
    have h3 : (2 : ℝ) ^ (f.emin + f.p - 1) ≤ (1 / 2) / 2 ^ f.p := by
      rw [le_div_iff₀ hpp, ← zpow_natCast, ← zpow_add₀ (by norm_num), show (1 / 2 : ℝ) = 2 ^ (-1 : ℤ) by norm_num]
      exact zpow_le_zpow_right₀ (by norm_num) (by omega)
    have h4 : |y - x| ≤ (2 : ℝ) ^ (f.emin + f.p - 1) := abs_le.2 ⟨by linarith, by linarith⟩
    refine h4.trans (h3.trans ?_)
    gcongr
    exact le_max_right _ _
  · obtain ⟨y', hy', -, he⟩ := h.rel (by omega) h1 h2
    rw [hy] at hy'
    injection hy' with e
    subst e
    refine ⟨y, hy, hm, hy0, he.trans ?_⟩
    gcongr
    exact le_max_left _ _

/-! ## Trees -/

/-- The finite value of an entry. -/
noncomputable def val : XR → ℝ
  | fin a => a
  | _ => 0

open Classical in
/-- The number of entries that are not zero. -/
noncomputable def nz (l : List XR) : ℕ := (l.filter fun x => decide (x ≠ fin 0)).length
noncomputable def vals (l : List XR) : ℝ := (l.map val).sum
noncomputable def mags (l : List XR) : ℝ := (l.map fun x => |val x|).sum

theorem nz_append (a b : List XR) : nz (a ++ b) = nz a + nz b := by simp [nz]
theorem vals_append (a b : List XR) : vals (a ++ b) = vals a + vals b := by simp [vals]
theorem mags_append (a b : List XR) : mags (a ++ b) = mags a + mags b := by simp [mags]
theorem nz_perm {a b : List XR} (h : a.Perm b) : nz a = nz b := (h.filter _).length_eq
theorem vals_perm {a b : List XR} (h : a.Perm b) : vals a = vals b := (h.map _).sum_eq
theorem mags_perm {a b : List XR} (h : a.Perm b) : mags a = mags b := (h.map _).sum_eq
theorem nz_zeros (k : ℕ) : nz (List.replicate k (fin 0)) = 0 := by simp [nz]
theorem vals_zeros (k : ℕ) : vals (List.replicate k (fin 0)) = 0 := by simp [vals, val]
theorem mags_zeros (k : ℕ) : mags (List.replicate k (fin 0)) = 0 := by simp [mags, val]
theorem mags_nonneg (l : List XR) : 0 ≤ mags l := List.sum_nonneg (by simp)

theorem vals_le_mags (l : List XR) : |vals l| ≤ mags l := by
  induction l with
  | nil => simp [vals, mags]
  | cons x xs ih =>
    have : |vals (x :: xs)| ≤ |val x| + |vals xs| := by simp only [vals, List.map_cons, List.sum_cons]; exact abs_add_le _ _
    simp only [mags, List.map_cons, List.sum_cons] at *
    linarith

open Classical in
theorem mags_eq_zero {l : List XR} (h : nz l = 0) : mags l = 0 := by
  have : ∀ x ∈ l, x = fin 0 := by
    intro x hx
    by_contra hc
    have : x ∈ l.filter fun x => decide (x ≠ fin 0) := by simp [hx, hc]
    rw [List.eq_nil_of_length_eq_zero h] at this
    simp at this
  have : l = List.replicate l.length (fin 0) := List.eq_replicate_iff.2 ⟨rfl, this⟩
  rw [this]; exact mags_zeros _

/-- Every entry of the array is a finite float. -/
def AllMem (f : Format) (l : List XR) : Prop := ∀ x ∈ l, ∃ a, x = fin a ∧ f.Mem a

theorem tree_sum (hf : f.Usable) (h : Nearest f fl) (t : Tree) (hl : AllMem f t.leaves)
    (hb : (1 + 1 / (2 : ℝ) ^ f.p) ^ nz t.leaves * mags t.leaves ≤ (2 : ℝ) ^ f.emax) :
    ∃ s, t.sum fl = fin s ∧ f.Mem s ∧ |s - vals t.leaves| ≤ ((1 + 1 / (2 : ℝ) ^ f.p) ^ (nz t.leaves - 1) - 1) * mags t.leaves ∧
      (nz t.leaves = 0 → s = 0) := by
  set u : ℝ := 1 / (2 : ℝ) ^ f.p with hu
  have hu0 : 0 < u := by positivity
  induction t with
  | leaf x =>
    obtain ⟨a, rfl, ha⟩ := hl x (by simp [Tree.leaves])
    refine ⟨a, rfl, ha, ?_, ?_⟩
    · have e : nz [fin a] ≤ 1 := by simpa [nz] using List.length_filter_le _ [fin a]
      have : nz [fin a] - 1 = 0 := by omega
      simp [Tree.leaves, this, vals, val]
    · intro h0
      by_contra hc
      simp [Tree.leaves, nz, hc] at h0
  | node l r ihl ihr =>
    simp only [Tree.leaves, nz_append, vals_append, mags_append] at hb ⊢
    have hL := mags_nonneg l.leaves
    have hR := mags_nonneg r.leaves
    have one : ∀ n : ℕ, 1 ≤ (1 + u) ^ n := fun n => one_le_pow₀ (by linarith)
    have mono : ∀ {m n : ℕ}, m ≤ n → (1 + u) ^ m ≤ (1 + u) ^ n := fun hmn => pow_le_pow_right₀ (by linarith) hmn
    have hbl : (1 + u) ^ nz l.leaves * mags l.leaves ≤ (2 : ℝ) ^ f.emax := by
      refine le_trans ?_ hb
      exact mul_le_mul (mono (by omega)) (by linarith) hL (by positivity)
    have hbr : (1 + u) ^ nz r.leaves * mags r.leaves ≤ (2 : ℝ) ^ f.emax := by
      refine le_trans ?_ hb
      exact mul_le_mul (mono (by omega)) (by linarith) hR (by positivity)
    obtain ⟨a, ea, ma, da, za⟩ := ihl (fun x hx => hl x (by simp [Tree.leaves, hx])) hbl
    obtain ⟨b, eb, mb, db, zb⟩ := ihr (fun x hx => hl x (by simp [Tree.leaves, hx])) hbr
    simp only [Tree.sum, ea, eb, add_def]
    rcases Nat.eq_zero_or_pos (nz r.leaves) with hr | hr
    · have eb0 := zb hr
      have m0 := mags_eq_zero hr
      have v0 : vals r.leaves = 0 := by
        have := vals_le_mags r.leaves
        rw [m0] at this
        exact abs_nonpos_iff.1 this
      refine ⟨a, by rw [eb0, add_zero]; exact h.exact ma, ma, ?_, ?_⟩
      · rw [hr, m0, v0]; simpa using da
      · rw [hr]; simpa using za
    rcases Nat.eq_zero_or_pos (nz l.leaves) with hl' | hl'
    · have ea0 := za hl'
      have m0 := mags_eq_zero hl'
      have v0 : vals l.leaves = 0 := by
        have := vals_le_mags l.leaves
        rw [m0] at this
        exact abs_nonpos_iff.1 this
      refine ⟨b, by rw [ea0, zero_add]; exact h.exact mb, mb, ?_, ?_⟩
      · rw [hl', m0, v0]; simpa using db
      · rw [hl']; simpa using zb
    obtain ⟨i, hi⟩ : ∃ i, nz l.leaves = i + 1 := ⟨nz l.leaves - 1, by omega⟩
    obtain ⟨j, hj⟩ : ∃ j, nz r.leaves = j + 1 := ⟨nz r.leaves - 1, by omega⟩
    rw [hi] at da hb ⊢
    rw [hj] at db hb ⊢
    simp only [Nat.add_sub_cancel] at da db
    set A := mags l.leaves
    set B := mags r.leaves
    have vl := vals_le_mags l.leaves
    have vr := vals_le_mags r.leaves
    have absa : |a| ≤ (1 + u) ^ i * A := by
      have : |a| ≤ |a - vals l.leaves| + |vals l.leaves| := by
        have := abs_add_le (a - vals l.leaves) (vals l.leaves); simpa using this
      linarith
    have absb : |b| ≤ (1 + u) ^ j * B := by
      have : |b| ≤ |b - vals r.leaves| + |vals r.leaves| := by
        have := abs_add_le (b - vals r.leaves) (vals r.leaves); simpa using this
      linarith
    have hab : |a + b| ≤ (1 + u) ^ i * A + (1 + u) ^ j * B := (abs_add_le a b).trans (by linarith)
    have h2 : |a + b| ≤ (2 : ℝ) ^ f.emax := by
      refine hab.trans (le_trans ?_ hb)
      rw [mul_add]
      exact add_le_add (mul_le_mul_of_nonneg_right (mono (by omega)) hL) (mul_le_mul_of_nonneg_right (mono (by omega)) hR)
    obtain ⟨s, es, ms, ds⟩ := Nearest.err_add hf h ma mb h2
    refine ⟨s, es, ms, ?_, by omega⟩
    have e1 : |a + b| / 2 ^ f.p = u * |a + b| := by rw [hu]; ring
    rw [e1] at ds
    have t1 : |s - (vals l.leaves + vals r.leaves)| ≤ |s - (a + b)| + |a - vals l.leaves| + |b - vals r.leaves| := by
      have e : s - (vals l.leaves + vals r.leaves) = (s - (a + b)) + (a - vals l.leaves) + (b - vals r.leaves) := by ring
      rw [e]; exact abs_add_three _ _ _
    have t2 : u * |a + b| ≤ u * ((1 + u) ^ i * A + (1 + u) ^ j * B) := mul_le_mul_of_nonneg_left hab hu0.le
    have t3 : (1 + u) ^ (i + 1) * A ≤ (1 + u) ^ (i + j + 1) * A := mul_le_mul_of_nonneg_right (mono (by omega)) hL
    have t4 : (1 + u) ^ (j + 1) * B ≤ (1 + u) ^ (i + j + 1) * B := mul_le_mul_of_nonneg_right (mono (by omega)) hR
    rw [show i + 1 + (j + 1) - 1 = i + j + 1 by omega]
    rw [pow_succ] at t3 t4
    nlinarith

/-- Sums of numbers between 0 and 1. -/
theorem tree_unit (hf : f.Usable) (h : Nearest f fl) (t : Tree) (hl : ∀ x ∈ t.leaves, ∃ a, x = fin a ∧ f.Mem a ∧ 0 ≤ a ∧ a ≤ 1)
    (hb : nz t.leaves < 2 ^ f.p) :
    ∃ s, t.sum fl = fin s ∧ f.Mem s ∧ 0 ≤ s ∧ s ≤ nz t.leaves ∧ ∀ a, fin a ∈ t.leaves → a ≤ s := by
  induction t with
  | leaf x =>
    obtain ⟨a, rfl, ha, h0, h1⟩ := hl x (by simp [Tree.leaves])
    refine ⟨a, rfl, ha, h0, ?_, ?_⟩
    · by_cases hc : a = 0
      · subst hc; positivity
      · simpa [Tree.leaves, nz, hc] using h1
    · intro b hb
      simp [Tree.leaves] at hb
      exact hb.le
  | node l r ihl ihr =>
    simp only [Tree.leaves, nz_append] at hb ⊢
    obtain ⟨a, ea, ma, a0, a1, a2⟩ := ihl (fun x hx => hl x (by simp [Tree.leaves, hx])) (by omega)
    obtain ⟨b, eb, mb, b0, b1, b2⟩ := ihr (fun x hx => hl x (by simp [Tree.leaves, hx])) (by omega)
    simp only [Tree.sum, ea, eb, add_def]
    obtain ⟨s, es, ms, s0, s1⟩ := h.between (mem_zero hf) (mem_nat hf hb) (add_nonneg a0 b0) (by push_cast; linarith)
    have ga : a ≤ s := by
      have := h.mono (show a ≤ a + b by linarith)
      rwa [h.exact ma, es] at this
    have gb : b ≤ s := by
      have := h.mono (show b ≤ a + b by linarith)
      rwa [h.exact mb, es] at this
    refine ⟨s, es, ms, s0, s1, ?_⟩
    intro c hc
    rcases List.mem_append.1 hc with hc | hc
    · exact (a2 c hc).trans ga
    · exact (b2 c hc).trans gb

/-- The growth of the error of a sum of `m + 1` numbers. -/
theorem growth {u : ℝ} (hu : 0 ≤ u) (m : ℕ) (h : m * u ≤ 1 / 8) : (1 + u) ^ m - 1 ≤ 9 / 8 * (m * u) := by
  have h0 : 0 ≤ m * u := by positivity
  have h1 : (1 + u) ^ m ≤ Real.exp (m * u) := by
    rw [mul_comm, Real.exp_mul, Real.rpow_natCast]
    have := Real.add_one_le_exp u
    gcongr
    linarith
  have h2 := Real.abs_exp_sub_one_sub_id_le (x := m * u) (by rw [abs_of_nonneg h0]; linarith)
  have h3 := (abs_le.1 h2).2
  nlinarith

end GW.RoundedLikelihood
