import Verif.Spec.XR
import Mathlib.Algebra.BigOperators.Group.List.Basic
import Mathlib.Algebra.Order.BigOperators.Group.List
import Mathlib.Tactic.Linarith
import Mathlib.Tactic.Ring
import Mathlib.Tactic.FieldSimp

/-! Algebra of `XR` and the closed form of the masked log-sum-exp. -/

namespace GW
namespace XR
open Classical

@[simp] theorem zero_def : (0 : XR) = fin 0 := rfl
@[simp] theorem one_def : (1 : XR) = fin 1 := rfl
@[simp] theorem add_fin_fin (a b : ℝ) : fin a + fin b = fin (a + b) := rfl
@[simp] theorem nan_add (x : XR) : nan + x = nan := by cases x <;> rfl
@[simp] theorem add_nan (x : XR) : x + nan = nan := by cases x <;> rfl
@[simp] theorem fin_add_pinf (a : ℝ) : fin a + pinf = pinf := rfl
@[simp] theorem fin_add_ninf (a : ℝ) : fin a + ninf = ninf := rfl
@[simp] theorem pinf_add_fin (a : ℝ) : pinf + fin a = pinf := rfl
@[simp] theorem ninf_add_fin (a : ℝ) : ninf + fin a = ninf := rfl
@[simp] theorem pinf_add_pinf : pinf + pinf = pinf := rfl
@[simp] theorem ninf_add_ninf : ninf + ninf = ninf := rfl
@[simp] theorem pinf_add_ninf : pinf + ninf = nan := rfl
@[simp] theorem ninf_add_pinf : ninf + pinf = nan := rfl
@[simp] theorem neg_fin (a : ℝ) : -(fin a) = fin (-a) := rfl
@[simp] theorem neg_pinf : -pinf = ninf := rfl
@[simp] theorem neg_ninf : -ninf = pinf := rfl
@[simp] theorem neg_nan : -nan = nan := rfl
theorem sub_def (a b : XR) : a - b = a + -b := rfl
@[simp] theorem sub_fin_fin (a b : ℝ) : fin a - fin b = fin (a - b) := by
  simp [sub_def, sub_eq_add_neg]
@[simp] theorem nan_sub (x : XR) : nan - x = nan := by simp [sub_def]
@[simp] theorem sub_nan (x : XR) : x - nan = nan := by simp [sub_def]
@[simp] theorem ninf_sub_fin (a : ℝ) : ninf - fin a = ninf := rfl
@[simp] theorem pinf_sub_fin (a : ℝ) : pinf - fin a = pinf := rfl
@[simp] theorem fin_sub_pinf (a : ℝ) : fin a - pinf = ninf := rfl
@[simp] theorem fin_sub_ninf (a : ℝ) : fin a - ninf = pinf := rfl
@[simp] theorem mul_fin_fin (a b : ℝ) : fin a * fin b = fin (a * b) := rfl
@[simp] theorem nan_mul (x : XR) : nan * x = nan := by cases x <;> rfl
@[simp] theorem mul_nan (x : XR) : x * nan = nan := by cases x <;> rfl
theorem div_fin_fin (a b : ℝ) : fin a / fin b = if b = 0 then mulInf a else fin (a / b) := rfl
@[simp] theorem div_fin_of_ne (a : ℝ) {b : ℝ} (h : b ≠ 0) : fin a / fin b = fin (a / b) := by
  simp [div_fin_fin, h]
@[simp] theorem exp_fin (a : ℝ) : exp (fin a) = fin (Real.exp a) := rfl
@[simp] theorem exp_ninf : exp ninf = fin 0 := rfl
@[simp] theorem exp_pinf : exp pinf = pinf := rfl
@[simp] theorem exp_nan : exp nan = nan := rfl
theorem log_fin (a : ℝ) : log (fin a) = if 0 < a then fin (Real.log a) else if a = 0 then ninf else nan := rfl
@[simp] theorem log_fin_pos {a : ℝ} (h : 0 < a) : log (fin a) = fin (Real.log a) := by simp [log_fin, h]
@[simp] theorem log_fin_zero : log (fin 0) = ninf := by simp [log_fin]
@[simp] theorem log_fin_neg {a : ℝ} (h : a < 0) : log (fin a) = nan := by
  simp [log_fin, not_lt.2 h.le, h.ne]
@[simp] theorem log_nan : log nan = nan := rfl
@[simp] theorem log_pinf : log pinf = pinf := rfl
@[simp] theorem log_ninf : log ninf = nan := rfl
@[simp] theorem isNegInf_fin (a : ℝ) : isNegInf (fin a) = false := rfl
@[simp] theorem isNegInf_ninf : isNegInf ninf = true := rfl
@[simp] theorem isNegInf_pinf : isNegInf pinf = false := rfl
@[simp] theorem isNegInf_nan : isNegInf nan = false := rfl
@[simp] theorem isNan_fin (a : ℝ) : isNan (fin a) = false := rfl
@[simp] theorem isNan_ninf : isNan ninf = false := rfl
@[simp] theorem isNan_pinf : isNan pinf = false := rfl
@[simp] theorem isNan_nan : isNan nan = true := rfl
@[simp] theorem isFinite_fin (a : ℝ) : isFinite (fin a) = true := rfl
@[simp] theorem isFinite_ninf : isFinite ninf = false := rfl
@[simp] theorem isFinite_pinf : isFinite pinf = false := rfl
@[simp] theorem isFinite_nan : isFinite nan = false := rfl
@[simp] theorem lt_fin_fin (a b : ℝ) : lt (fin a) (fin b) ↔ a < b := Iff.rfl
@[simp] theorem le_fin_fin (a b : ℝ) : le (fin a) (fin b) ↔ a ≤ b := Iff.rfl
theorem isNegInf_iff (x : XR) : isNegInf x = true ↔ x = ninf := by cases x <;> simp
theorem isNan_iff (x : XR) : isNan x = true ↔ x = nan := by cases x <;> simp
theorem isFinite_iff (x : XR) : isFinite x = true ↔ ∃ a, x = fin a := by cases x <;> simp

theorem add_comm' (x y : XR) : x + y = y + x := by
  cases x <;> cases y <;> simp [add_comm]
theorem add_assoc' (x y z : XR) : x + y + z = x + (y + z) := by
  cases x <;> cases y <;> cases z <;> simp [add_assoc]
theorem zero_add' (x : XR) : 0 + x = x := by cases x <;> simp
theorem add_zero' (x : XR) : x + 0 = x := by cases x <;> simp

noncomputable instance : AddCommMonoid XR where
  add_assoc := add_assoc'
  zero_add := zero_add'
  add_zero := add_zero'
  add_comm := add_comm'
  nsmul := nsmulRec

theorem mul_comm' (x y : XR) : x * y = y * x := by
  cases x <;> cases y <;> first | rfl | simp [mul_comm]

theorem sum_eq (xs : List XR) : sum xs = xs.sum := by
  induction xs with
  | nil => rfl
  | cons x xs ih => simp only [sum, List.foldr_cons, List.sum_cons] at *; rw [ih]

@[simp] theorem sum_nil : sum [] = fin 0 := rfl
@[simp] theorem sum_cons (x : XR) (xs : List XR) : sum (x :: xs) = x + sum xs := rfl

theorem sum_append (xs ys : List XR) : sum (xs ++ ys) = sum xs + sum ys := by
  simp [sum_eq]

theorem sum_perm {xs ys : List XR} (h : xs.Perm ys) : sum xs = sum ys := by
  rw [sum_eq, sum_eq]; exact h.sum_eq

theorem sum_map_fin (xs : List ℝ) : sum (xs.map fin) = fin xs.sum := by
  induction xs with
  | nil => simp
  | cons x xs ih => simp [ih]

theorem max_comm' (x y : XR) : max x y = max y x := by
  cases x <;> cases y <;> simp [max, _root_.max_comm]

theorem max_assoc' (x y z : XR) : max (max x y) z = max x (max y z) := by
  cases x <;> cases y <;> cases z <;> simp [max, _root_.max_assoc]

@[simp] theorem expR_fin (a : ℝ) : expR (fin a) = Real.exp a := rfl
@[simp] theorem expR_ninf : expR ninf = 0 := rfl
theorem expR_nonneg (x : XR) : 0 ≤ expR x := by
  cases x <;> simp [expR, Real.exp_nonneg]

theorem IsLog.cases {x : XR} (h : IsLog x) : x = ninf ∨ ∃ a, x = fin a := by
  cases x <;> simp_all [IsLog]

theorem isLog_fin (a : ℝ) : IsLog (fin a) := by simp [IsLog]
theorem isLog_ninf : IsLog ninf := by simp [IsLog]

theorem IsLog.add {x y : XR} (hx : IsLog x) (hy : IsLog y) : IsLog (x + y) := by
  rcases hx.cases with rfl | ⟨a, rfl⟩ <;> rcases hy.cases with rfl | ⟨b, rfl⟩ <;> simp [IsLog]

theorem expR_add {x y : XR} (hx : IsLog x) (hy : IsLog y) : expR (x + y) = expR x * expR y := by
  rcases hx.cases with rfl | ⟨a, rfl⟩ <;> rcases hy.cases with rfl | ⟨b, rfl⟩ <;>
    simp [Real.exp_add]

theorem IsLog.max {x y : XR} (hx : IsLog x) (hy : IsLog y) : IsLog (XR.max x y) := by
  rcases hx.cases with rfl | ⟨a, rfl⟩ <;> rcases hy.cases with rfl | ⟨b, rfl⟩ <;>
    simp [IsLog, XR.max]

theorem isLog_foldr_max {xs : List XR} (h : ∀ x ∈ xs, IsLog x) : IsLog (xs.foldr XR.max ninf) := by
  induction xs with
  | nil => exact isLog_ninf
  | cons x xs ih =>
    exact (h x (by simp)).max (ih fun y hy => h y (by simp [hy]))

theorem foldr_max_eq_ninf {xs : List XR} (h : ∀ x ∈ xs, IsLog x)
    (hm : xs.foldr XR.max ninf = ninf) : ∀ x ∈ xs, x = ninf := by
  induction xs with
  | nil => simp
  | cons x xs ih =>
    have h' := ih fun y hy => h y (by simp [hy])
    have hx := h x (by simp)
    have hr := isLog_foldr_max (xs := xs) fun y hy => h y (by simp [hy])
    simp only [List.foldr_cons] at hm
    intro y hy
    rcases hx.cases with rfl | ⟨a, rfl⟩ <;> rcases hr.cases with hr' | ⟨b, hr'⟩ <;>
      rw [hr'] at hm <;> simp [XR.max] at hm
    rcases List.mem_cons.1 hy with rfl | hy
    · rfl
    · exact h' hr' y hy

theorem foldr_max_of_all_ninf {xs : List XR} (h : ∀ x ∈ xs, x = ninf) :
    xs.foldr XR.max ninf = ninf := by
  induction xs with
  | nil => rfl
  | cons x xs ih =>
    rw [List.foldr_cons, ih fun y hy => h y (by simp [hy]), h x (by simp)]; rfl

theorem sum_exp_shift (xs : List XR) (h : ∀ x ∈ xs, IsLog x) (m : ℝ) :
    sum (xs.map fun a => exp (a - fin m)) = fin ((xs.map expR).sum * Real.exp (-m)) := by
  induction xs with
  | nil => simp
  | cons x xs ih =>
    have ih := ih fun y hy => h y (by simp [hy])
    rcases (h x (by simp)).cases with rfl | ⟨a, rfl⟩
    · simp [ih]
    · simp only [List.map_cons, sum_cons, ih, sub_fin_fin, exp_fin, add_fin_fin, List.sum_cons, expR_fin,
        add_mul, sub_eq_add_neg, Real.exp_add]

theorem sum_expR_nonneg (xs : List XR) : 0 ≤ (xs.map expR).sum :=
  List.sum_nonneg (by simp only [List.mem_map, forall_exists_index, and_imp]; rintro _ x _ rfl; exact expR_nonneg x)

theorem sum_expR_eq_zero_iff {xs : List XR} (h : ∀ x ∈ xs, IsLog x) :
    (xs.map expR).sum = 0 ↔ ∀ x ∈ xs, x = ninf := by
  induction xs with
  | nil => simp
  | cons x xs ih =>
    have ih := ih fun y hy => h y (by simp [hy])
    have h0 := sum_expR_nonneg xs
    rcases (h x (by simp)).cases with rfl | ⟨a, rfl⟩
    · simpa using ih
    · simp only [List.map_cons, List.sum_cons, expR_fin, List.mem_cons, forall_eq_or_imp, reduceCtorEq,
        false_and, iff_false]
      have := Real.exp_pos a
      linarith

/-- Closed form of the masked log-sum-exp: on proper log values it is `log` of the plain sum of
exponentials of the kept entries. -/
theorem logsumexpWhere_eq (aw : List (XR × Bool))
    (h : ∀ p ∈ aw, p.2 = true → IsLog p.1) :
    logsumexpWhere aw = log (fin (((aw.filter (·.2)).map (fun p => expR p.1)).sum)) := by
  unfold logsumexpWhere
  set kept := (aw.filter (·.2)).map (·.1) with hk
  have hkept : ∀ x ∈ kept, IsLog x := by
    intro x hx
    simp only [hk, List.mem_map, List.mem_filter] at hx
    obtain ⟨p, ⟨hp, hp2⟩, rfl⟩ := hx
    exact h p hp hp2
  have hsum : ((aw.filter (·.2)).map (fun p => expR p.1)).sum = (kept.map expR).sum := by
    simp [hk, List.map_map, Function.comp_def]
  rw [hsum]
  rcases (isLog_foldr_max hkept).cases with hm | ⟨m, hm⟩
  · have hz := foldr_max_eq_ninf hkept hm
    have h0 := (sum_expR_eq_zero_iff hkept).2 hz
    simp only [hm, isFinite_ninf]
    rw [if_neg (by simp), sum_exp_shift kept hkept, h0]
    simp
  · simp only [hm, isFinite_fin, if_true]
    rw [sum_exp_shift kept hkept]
    have hpos : 0 < (kept.map expR).sum := by
      rcases (sum_expR_nonneg kept).lt_or_eq with h' | h'
      · exact h'
      · exfalso
        have hz := (sum_expR_eq_zero_iff hkept).1 h'.symm
        have := foldr_max_of_all_ninf hz
        simp [this] at hm
    have he := Real.exp_pos (-m)
    rw [log_fin_pos (mul_pos hpos he), log_fin_pos hpos, Real.log_mul hpos.ne' he.ne', Real.log_exp]
    simp

theorem logsumexp_eq (a : List XR) (h : ∀ x ∈ a, IsLog x) :
    logsumexp a = log (fin ((a.map expR).sum)) := by
  unfold logsumexp
  rw [logsumexpWhere_eq]
  · congr 3
    induction a with
    | nil => rfl
    | cons x xs ih => simp [ih fun y hy => h y (by simp [hy])]
  · intro p hp _
    simp only [List.mem_map] at hp
    obtain ⟨x, hx, rfl⟩ := hp
    exact h x hx

theorem isLog_log_sum {s : ℝ} (h : 0 ≤ s) : IsLog (log (fin s)) := by
  rcases h.lt_or_eq with h | h
  · rw [log_fin_pos h]; exact isLog_fin _
  · rw [← h]; simp [IsLog]

end XR
end GW
