import Verif.Spec.Planck
import Mathlib.Topology.EMetricSpace.BoundedVariation
import Mathlib.Topology.EMetricSpace.VariationOnFromTo
import Mathlib.MeasureTheory.Integral.IntervalIntegral.Basic

/-! Functions of bounded variation: how to bound the variation, and the error of the trapezoid rule. -/

namespace GW
open Set MeasureTheory

/-- The variation of `f` over `[a, b]` is at most `V`. -/
def VarLe (f : ℝ → ℝ) (a b V : ℝ) : Prop :=
  0 ≤ V ∧ ∀ (n : ℕ) (u : ℕ → ℝ), Monotone u → (∀ i, u i ∈ Icc a b) → ∑ i ∈ Finset.range n, |f (u (i + 1)) - f (u i)| ≤ V

theorem sum_edist_real (g : ℕ → ℝ) (n : ℕ) : ∑ i ∈ Finset.range n, edist (g (i + 1)) (g i) = ENNReal.ofReal (∑ i ∈ Finset.range n, |g (i + 1) - g i|) := by
  rw [ENNReal.ofReal_sum_of_nonneg fun _ _ => abs_nonneg _]
  exact Finset.sum_congr rfl fun i _ => by rw [edist_dist, Real.dist_eq]

theorem varLe_iff {f : ℝ → ℝ} {a b V : ℝ} (hV : 0 ≤ V) : VarLe f a b V ↔ eVariationOn f (Icc a b) ≤ ENNReal.ofReal V := by
  constructor
  · rintro ⟨-, h⟩
    refine iSup_le fun p => ?_
    rw [sum_edist_real (fun i => f ((p.2 : ℕ → ℝ) i))]
    exact ENNReal.ofReal_le_ofReal (h p.1 _ p.2.2.1 p.2.2.2)
  · intro h
    refine ⟨hV, fun n u hu hm => ?_⟩
    have := (eVariationOn.sum_le (f := f) (n := n) hu hm).trans h
    rw [sum_edist_real (fun i => f (u i))] at this
    exact (ENNReal.ofReal_le_ofReal_iff hV).1 this

namespace VarLe
variable {f g : ℝ → ℝ} {a b c V W : ℝ}

theorem nonneg (h : VarLe f a b V) : 0 ≤ V := h.1

theorem le (h : VarLe f a b V) (hVW : V ≤ W) : VarLe f a b W := ⟨h.1.trans hVW, fun n u hu hm => (h.2 n u hu hm).trans hVW⟩

theorem congr (h : VarLe f a b V) (hfg : ∀ x, a ≤ x → x ≤ b → f x = g x) : VarLe g a b V := by
  refine ⟨h.1, fun n u hu hm => ?_⟩
  have : ∑ i ∈ Finset.range n, |g (u (i + 1)) - g (u i)| = ∑ i ∈ Finset.range n, |f (u (i + 1)) - f (u i)| :=
    Finset.sum_congr rfl fun i _ => by rw [hfg _ (hm _).1 (hm _).2, hfg _ (hm _).1 (hm _).2]
  rw [this]
  exact h.2 n u hu hm

theorem zero : VarLe (fun _ => 0) a b 0 := ⟨le_rfl, fun n u _ _ => by simp⟩

theorem add (hf : VarLe f a b V) (hg : VarLe g a b W) : VarLe (fun x => f x + g x) a b (V + W) := by
  refine ⟨add_nonneg hf.1 hg.1, fun n u hu hm => ?_⟩
  calc ∑ i ∈ Finset.range n, |f (u (i + 1)) + g (u (i + 1)) - (f (u i) + g (u i))|
      ≤ ∑ i ∈ Finset.range n, (|f (u (i + 1)) - f (u i)| + |g (u (i + 1)) - g (u i)|) :=
        Finset.sum_le_sum fun i _ => by rw [add_sub_add_comm]; exact abs_add_le _ _
    _ ≤ V + W := by rw [Finset.sum_add_distrib]; exact add_le_add (hf.2 n u hu hm) (hg.2 n u hu hm)

theorem const_mul (hf : VarLe f a b V) {k : ℝ} (hk : 0 ≤ k) : VarLe (fun x => k * f x) a b (k * V) := by
  refine ⟨mul_nonneg hk hf.1, fun n u hu hm => ?_⟩
  have : ∑ i ∈ Finset.range n, |k * f (u (i + 1)) - k * f (u i)| = k * ∑ i ∈ Finset.range n, |f (u (i + 1)) - f (u i)| := by
    rw [Finset.mul_sum]
    exact Finset.sum_congr rfl fun i _ => by rw [← mul_sub, abs_mul, abs_of_nonneg hk]
  rw [this]
  exact mul_le_mul_of_nonneg_left (hf.2 n u hu hm) hk

theorem mul (hf : VarLe f a b V) (hg : VarLe g a b W) {B C : ℝ} (hB : 0 ≤ B) (hC : 0 ≤ C) (hfB : ∀ x, a ≤ x → x ≤ b → |f x| ≤ B) (hgC : ∀ x, a ≤ x → x ≤ b → |g x| ≤ C) :
    VarLe (fun x => f x * g x) a b (C * V + B * W) := by
  refine ⟨add_nonneg (mul_nonneg hC hf.1) (mul_nonneg hB hg.1), fun n u hu hm => ?_⟩
  calc ∑ i ∈ Finset.range n, |f (u (i + 1)) * g (u (i + 1)) - f (u i) * g (u i)|
      ≤ ∑ i ∈ Finset.range n, (C * |f (u (i + 1)) - f (u i)| + B * |g (u (i + 1)) - g (u i)|) := by
        refine Finset.sum_le_sum fun i _ => ?_
        rw [show f (u (i + 1)) * g (u (i + 1)) - f (u i) * g (u i) = g (u (i + 1)) * (f (u (i + 1)) - f (u i)) + f (u i) * (g (u (i + 1)) - g (u i)) by ring]
        refine (abs_add_le _ _).trans ?_
        rw [abs_mul, abs_mul]
        exact add_le_add (mul_le_mul_of_nonneg_right (hgC _ (hm _).1 (hm _).2) (abs_nonneg _)) (mul_le_mul_of_nonneg_right (hfB _ (hm _).1 (hm _).2) (abs_nonneg _))
    _ ≤ C * V + B * W := by
        rw [Finset.sum_add_distrib, ← Finset.mul_sum, ← Finset.mul_sum]
        exact add_le_add (mul_le_mul_of_nonneg_left (hf.2 n u hu hm) hC) (mul_le_mul_of_nonneg_left (hg.2 n u hu hm) hB)

theorem split (hac : a ≤ c) (hcb : c ≤ b) (h1 : VarLe f a c V) (h2 : VarLe f c b W) : VarLe f a b (V + W) := by
  rw [varLe_iff (add_nonneg h1.1 h2.1), ENNReal.ofReal_add h1.1 h2.1]
  have := eVariationOn.Icc_add_Icc f (s := univ) hac hcb (mem_univ c)
  simp only [univ_inter] at this
  rw [← this]
  exact add_le_add ((varLe_iff h1.1).1 h1) ((varLe_iff h2.1).1 h2)

theorem restrict (h : VarLe f a b V) {a' b' : ℝ} (ha : a ≤ a') (hb : b' ≤ b) : VarLe f a' b' V :=
  ⟨h.1, fun n u hu hm => h.2 n u hu fun i => ⟨ha.trans (hm i).1, (hm i).2.trans hb⟩⟩

theorem mono {B : ℝ} (hB : 0 ≤ B) (hf : MonotoneOn f (Icc a b)) (h0 : ∀ x, a ≤ x → x ≤ b → 0 ≤ f x) (h1 : ∀ x, a ≤ x → x ≤ b → f x ≤ B) : VarLe f a b B := by
  refine ⟨hB, fun n u hu hm => ?_⟩
  have : ∑ i ∈ Finset.range n, |f (u (i + 1)) - f (u i)| = ∑ i ∈ Finset.range n, (f (u (i + 1)) - f (u i)) :=
    Finset.sum_congr rfl fun i _ => abs_of_nonneg (sub_nonneg.2 (hf (hm _) (hm _) (hu (Nat.le_succ i))))
  rw [this, Finset.sum_range_sub (fun i => f (u i))]
  have := h0 _ (hm 0).1 (hm 0).2
  have := h1 _ (hm n).1 (hm n).2
  linarith

theorem anti {B : ℝ} (hB : 0 ≤ B) (hf : AntitoneOn f (Icc a b)) (h0 : ∀ x, a ≤ x → x ≤ b → 0 ≤ f x) (h1 : ∀ x, a ≤ x → x ≤ b → f x ≤ B) : VarLe f a b B := by
  refine ⟨hB, fun n u hu hm => ?_⟩
  have : ∑ i ∈ Finset.range n, |f (u (i + 1)) - f (u i)| = -∑ i ∈ Finset.range n, (f (u (i + 1)) - f (u i)) := by
    rw [← Finset.sum_neg_distrib]
    exact Finset.sum_congr rfl fun i _ => abs_of_nonpos (sub_nonpos.2 (hf (hm _) (hm _) (hu (Nat.le_succ i))))
  rw [this, Finset.sum_range_sub (fun i => f (u i))]
  have := h0 _ (hm n).1 (hm n).2
  have := h1 _ (hm 0).1 (hm 0).2
  linarith

/-- A function rising up to `c` and falling from `c` on. -/
theorem unimodal {B : ℝ} (hB : 0 ≤ B) (hf : MonotoneOn f (Iic c)) (hg : AntitoneOn f (Ici c)) (h0 : ∀ x, a ≤ x → x ≤ b → 0 ≤ f x) (h1 : ∀ x, a ≤ x → x ≤ b → f x ≤ B) :
    VarLe f a b (2 * B) := by
  rcases le_total c a with h | h
  · exact (anti hB (hg.mono fun x hx => h.trans hx.1) h0 h1).le (by linarith)
  rcases le_total b c with h' | h'
  · exact (mono hB (hf.mono fun x hx => hx.2.trans h') h0 h1).le (by linarith)
  · rw [two_mul]
    exact split h h' (mono hB (hf.mono fun x hx => hx.2) (fun x hx hx' => h0 x hx (hx'.trans h')) fun x hx hx' => h1 x hx (hx'.trans h'))
      (anti hB (hg.mono fun x hx => hx.1) (fun x hx hx' => h0 x (h.trans hx) hx') fun x hx hx' => h1 x (h.trans hx) hx')

theorem intervalIntegrable (h : VarLe f a b V) (hab : a ≤ b) : IntervalIntegrable f volume a b := by
  have hb : BoundedVariationOn f (Icc a b) := ne_top_of_le_ne_top ENNReal.ofReal_ne_top ((varLe_iff h.1).1 h)
  obtain ⟨p, q, hp, hq, e⟩ := hb.locallyBoundedVariationOn.exists_monotoneOn_sub_monotoneOn
  rw [e]
  rw [← uIcc_of_le hab] at hp hq
  exact hp.intervalIntegrable.sub hq.intervalIntegrable

/-- The trapezoid on one cell. -/
theorem cell (h : VarLe f a b V) (hab : a ≤ b) : |(b - a) * (f b + f a) / 2 - ∫ x in a..b, f x| ≤ (b - a) / 2 * V := by
  have hi := h.intervalIntegrable hab
  have e : (b - a) * (f b + f a) / 2 - ∫ x in a..b, f x = ∫ x in a..b, ((f b + f a) / 2 - f x) := by
    rw [intervalIntegral.integral_sub intervalIntegrable_const hi, intervalIntegral.integral_const, smul_eq_mul]
    ring
  rw [e, ← Real.norm_eq_abs]
  refine (intervalIntegral.norm_integral_le_of_norm_le_const (C := V / 2) fun x hx => ?_).trans (le_of_eq (by rw [abs_of_nonneg (sub_nonneg.2 hab)]; ring))
  rw [uIoc_of_le hab] at hx
  have := h.2 2 (fun i => if i = 0 then a else if i = 1 then x else b) (by
    refine monotone_nat_of_le_succ fun i => ?_
    rcases i with _ | _ | i <;> simp [hx.1.le, hx.2]) (by
    intro i
    rcases i with _ | _ | i <;> simp [hab, hx.1.le, hx.2])
  simp only [Finset.sum_range_succ, Finset.sum_range_zero, zero_add, if_true, one_ne_zero, if_false, Nat.reduceAdd, OfNat.ofNat_ne_zero, OfNat.ofNat_ne_one] at this
  rw [Real.norm_eq_abs, show (f b + f a) / 2 - f x = ((f b - f x) - (f x - f a)) / 2 by ring, abs_div, abs_two]
  have := abs_sub (f b - f x) (f x - f a)
  linarith

end VarLe

theorem node_succ_sub (a b : ℝ) (n i : ℕ) : node a b n (i + 1) - node a b n i = (b - a) / (n - 1 : ℕ) := by
  unfold node
  push_cast
  ring

theorem node_first (a b : ℝ) (n : ℕ) : node a b n 0 = a := by simp [node]

theorem node_final (a b : ℝ) {n : ℕ} (hn : 2 ≤ n) : node a b n (n - 1) = b := by
  have : ((n - 1 : ℕ) : ℝ) ≠ 0 := by exact_mod_cast (by omega : n - 1 ≠ 0)
  rw [node, div_self this]
  ring

theorem node_mono {a b : ℝ} (hab : a ≤ b) (n : ℕ) : Monotone (node a b n) := by
  refine monotone_nat_of_le_succ fun i => ?_
  have := node_succ_sub a b n i
  have h : 0 ≤ (b - a) / ((n - 1 : ℕ) : ℝ) := div_nonneg (sub_nonneg.2 hab) (Nat.cast_nonneg _)
  linarith

/-- The error of the trapezoid rule is at most half the spacing times the variation. -/
theorem trapz_error {f : ℝ → ℝ} {a b V : ℝ} (hab : a ≤ b) {n : ℕ} (hn : 2 ≤ n) (h : VarLe f a b V) : |trapz f a b n - ∫ x in a..b, f x| ≤ (b - a) / (n - 1 : ℕ) / 2 * V := by
  set N := n - 1 with hN
  set I : ℕ → ℝ := node a b n with hI
  have hmono : Monotone I := node_mono hab n
  have h0 : I 0 = a := node_first a b n
  have h1 : I N = b := node_final a b hn
  have hstep : ∀ i, I (i + 1) - I i = (b - a) / (N : ℝ) := fun i => node_succ_sub a b n i
  have htop : eVariationOn f (Icc a b) ≤ ENNReal.ofReal V := (varLe_iff h.1).1 h
  have hcell : ∀ i < N, eVariationOn f (Icc (I i) (I (i + 1))) ≠ ⊤ := fun i hi =>
    ne_top_of_le_ne_top ENNReal.ofReal_ne_top ((eVariationOn.mono f (Icc_subset_Icc (h0 ▸ hmono (Nat.zero_le i)) (h1 ▸ hmono hi))).trans htop)
  have hv : ∀ i < N, VarLe f (I i) (I (i + 1)) (eVariationOn f (Icc (I i) (I (i + 1)))).toReal := fun i hi => by
    rw [varLe_iff ENNReal.toReal_nonneg, ENNReal.ofReal_toReal (hcell i hi)]
  have hsum : ∑ i ∈ Finset.range N, (eVariationOn f (Icc (I i) (I (i + 1)))).toReal ≤ V := by
    rw [← ENNReal.toReal_sum fun i hi => hcell i (Finset.mem_range.1 hi)]
    refine ENNReal.toReal_le_of_le_ofReal h.1 ?_
    rw [eVariationOn.sum' f hmono, h0, h1]
    exact htop
  have hint : ∑ i ∈ Finset.range N, ∫ x in I i..I (i + 1), f x = ∫ x in a..b, f x := by
    rw [intervalIntegral.sum_integral_adjacent_intervals fun i hi => (hv i hi).intervalIntegrable (hmono (Nat.le_succ i)), h0, h1]
  have htr : trapz f a b n = ∑ i ∈ Finset.range N, (I (i + 1) - I i) * (f (I (i + 1)) + f (I i)) / 2 := rfl
  rw [htr, ← hint, ← Finset.sum_sub_distrib]
  refine (Finset.abs_sum_le_sum_abs _ _).trans ((Finset.sum_le_sum fun i hi => (hv i (Finset.mem_range.1 hi)).cell (hmono (Nat.le_succ i))).trans ?_)
  simp only [hstep]
  rw [← Finset.mul_sum]
  exact mul_le_mul_of_nonneg_left hsum (div_nonneg (div_nonneg (sub_nonneg.2 hab) (Nat.cast_nonneg _)) (by norm_num))

end GW
