import Verif.Spec.Robust
import Verif.Spec.XR
import Verif.Lemmas.XR
import Verif.Spec.Likelihood

/-! # Log densities that are nearly the same: lemmas -/

namespace GW.Robust
open GW XR

theorem Within.isLog {e : ℝ} {x y : XR} (h : Within e x y) : IsLog x ∧ IsLog y := by
  rcases h with ⟨rfl, rfl⟩ | ⟨a, b, rfl, rfl, -⟩ <;> simp [IsLog]

theorem Within.expR {e : ℝ} {x y : XR} (h : Within e x y) :
    Real.exp (-e) * XR.expR x ≤ XR.expR y ∧ XR.expR y ≤ Real.exp e * XR.expR x := by
  rcases h with ⟨rfl, rfl⟩ | ⟨a, b, rfl, rfl, h⟩
  · simp [XR.expR]
  · obtain ⟨h1, h2⟩ := abs_le.1 h
    simp only [XR.expR, ← Real.exp_add, Real.exp_le_exp]
    constructor <;> linarith

theorem within_of_expR {e : ℝ} {x y : XR} (hx : IsLog x) (hy : IsLog y) (h1 : Real.exp (-e) * XR.expR x ≤ XR.expR y)
    (h2 : XR.expR y ≤ Real.exp e * XR.expR x) : Within e x y := by
  rcases hx.cases with rfl | ⟨a, rfl⟩ <;> rcases hy.cases with rfl | ⟨b, rfl⟩
  · exact Or.inl ⟨rfl, rfl⟩
  · simp [XR.expR] at h2
    exact absurd h2 (not_le.2 (Real.exp_pos b))
  · simp [XR.expR] at h1
    have := mul_pos (Real.exp_pos (-e)) (Real.exp_pos a)
    linarith
  · right
    simp only [XR.expR, ← Real.exp_add, Real.exp_le_exp] at h1 h2
    exact ⟨a, b, rfl, rfl, abs_le.2 ⟨by linarith, by linarith⟩⟩

/-- Dividing by a weight. -/
theorem Within.sub {e : ℝ} {x y w : XR} (h : Within e x y) (hl : x - w ≠ pinf) (hn : x - w ≠ nan) : Within e (x - w) (y - w) := by
  rcases h with ⟨rfl, rfl⟩ | ⟨a, b, rfl, rfl, h⟩
  · left
    cases w with
    | fin w => simp
    | pinf => exact ⟨rfl, rfl⟩
    | ninf => exact absurd rfl hn
    | nan => exact absurd rfl hn
  · cases w with
    | fin w => exact Or.inr ⟨a - w, b - w, by simp, by simp, by rw [sub_sub_sub_cancel_right]; exact h⟩
    | pinf => left; simp
    | ninf => simp at hl
    | nan => simp at hn

/-- Two finite corrections. -/
theorem Within.add {d e : ℝ} {x y s t : XR} (h : Within e x y) (hs : Within d s t) : Within (d + e) (s + x) (t + y) := by
  rcases h with ⟨rfl, rfl⟩ | ⟨a, b, rfl, rfl, h⟩ <;> rcases hs with ⟨rfl, rfl⟩ | ⟨c, f, rfl, rfl, hs⟩
  · left; simp
  · left; simp
  · left; simp
  · refine Or.inr ⟨c + a, f + b, by simp, by simp, ?_⟩
    have := abs_add_le (f - c) (b - a)
    rw [show f + b - (c + a) = f - c + (b - a) by ring]
    linarith

/-- Sums of weights. -/
theorem sum_within {e : ℝ} {xs ys : List XR} (h : List.Forall₂ (Within e) xs ys) :
    Real.exp (-e) * (xs.map XR.expR).sum ≤ (ys.map XR.expR).sum ∧ (ys.map XR.expR).sum ≤ Real.exp e * (xs.map XR.expR).sum := by
  induction h with
  | nil => simp
  | cons h _ ih =>
    have := h.expR
    simp only [List.map_cons, List.sum_cons, mul_add]
    exact ⟨add_le_add this.1 ih.1, add_le_add this.2 ih.2⟩

theorem forall₂_map {α} {e : ℝ} {l : List α} {f g : α → XR} (h : ∀ p ∈ l, Within e (f p) (g p)) : List.Forall₂ (Within e) (l.map f) (l.map g) := by
  induction l with
  | nil => exact .nil
  | cons a l ih => exact .cons (h a (by simp)) (ih fun p hp => h p (by simp [hp]))

/-- The log of the sum of the weights. -/
theorem log_sum_within {e : ℝ} {s t : ℝ} (h1 : Real.exp (-e) * s ≤ t) (h2 : t ≤ Real.exp e * s) (hs : 0 < s) : |Real.log t - Real.log s| ≤ e := by
  have p1 : 0 < Real.exp (-e) * s := by positivity
  have a1 := Real.log_le_log p1 h1
  have a2 := Real.log_le_log (p1.trans_le h1) h2
  rw [Real.log_mul (Real.exp_pos _).ne' hs.ne', Real.log_exp] at a1 a2
  rw [abs_le]; constructor <;> linarith

/-- The error of a number that is right up to a factor `e^±e`. -/
theorem factor_within {e s t : ℝ} (hs : 0 ≤ s) (h1 : Real.exp (-e) * s ≤ t) (h2 : t ≤ Real.exp e * s) : |t - s| ≤ (Real.exp e - 1) * s := by
  have h3 : 2 ≤ Real.exp e + Real.exp (-e) := by
    have a := Real.add_one_le_exp (e / 2)
    have h4 : Real.exp e * Real.exp (-e) = 1 := by rw [← Real.exp_add]; simp
    nlinarith [sq_nonneg (Real.exp e - Real.exp (-e)), Real.exp_pos e, Real.exp_pos (-e), sq_nonneg (Real.exp e + Real.exp (-e) - 2)]
  rw [abs_le]; constructor <;> nlinarith

open GW.Likelihood (mcAverage)

/-- The sum over the events. -/
theorem events_within {θ} {lp lp' : θ → XR} {T e : ℝ} (hT : 0 < T) : ∀ evs : List (List (θ × XR)),
    (∀ ev ∈ evs, ∀ p ∈ ev, (lp p.1 - p.2).IsLog) → (∀ ev ∈ evs, 0 < (ev.map fun p => (lp p.1 - p.2).expR).sum) →
    (∀ ev ∈ evs, ∀ p ∈ ev, Within e (lp p.1) (lp' p.1)) →
      |(evs.map fun ev => Real.log (T * mcAverage lp' ev)).sum - (evs.map fun ev => Real.log (T * mcAverage lp ev)).sum| ≤ evs.length * e ∧
      (∀ ev ∈ evs, ∀ p ∈ ev, (lp' p.1 - p.2).IsLog) ∧ ∀ ev ∈ evs, 0 < (ev.map fun p => (lp' p.1 - p.2).expR).sum := by
  intro evs
  induction evs with
  | nil => simp
  | cons ev evs ih =>
    intro hl hp hw
    obtain ⟨i1, i2, i3⟩ := ih (fun x hx => hl x (by simp [hx])) (fun x hx => hp x (by simp [hx])) fun x hx => hw x (by simp [hx])
    have hpe := hp ev (by simp)
    have hws : ∀ p ∈ ev, Within e (lp p.1 - p.2) (lp' p.1 - p.2) := fun p hpm =>
      (hw ev (by simp) p hpm).sub (hl ev (by simp) p hpm).2 (hl ev (by simp) p hpm).1
    have hsum := sum_within (forall₂_map hws)
    simp only [List.map_map] at hsum
    change Real.exp (-e) * (ev.map fun p => (lp p.1 - p.2).expR).sum ≤ (ev.map fun p => (lp' p.1 - p.2).expR).sum ∧
      (ev.map fun p => (lp' p.1 - p.2).expR).sum ≤ Real.exp e * (ev.map fun p => (lp p.1 - p.2).expR).sum at hsum
    have hpe' : 0 < (ev.map fun p => (lp' p.1 - p.2).expR).sum := lt_of_lt_of_le (by positivity) hsum.1
    have hlen : (0 : ℝ) < ev.length := by
      rw [Nat.cast_pos]
      apply List.length_pos_of_ne_nil
      rintro rfl
      simp at hpe
    refine ⟨?_, ?_, ?_⟩
    · have hlog := log_sum_within hsum.1 hsum.2 hpe
      simp only [List.map_cons, List.sum_cons, List.length_cons, mcAverage]
      rw [Real.log_mul hT.ne' (div_pos hpe' hlen).ne', Real.log_mul hT.ne' (div_pos hpe hlen).ne', Real.log_div hpe'.ne' hlen.ne',
        Real.log_div hpe.ne' hlen.ne']
      simp only [mcAverage] at i1
      obtain ⟨a1, a2⟩ := abs_le.1 hlog
      obtain ⟨b1, b2⟩ := abs_le.1 i1
      push_cast
      rw [abs_le]; constructor <;> linarith
    · intro x hx
      rcases List.mem_cons.1 hx with rfl | hx
      · exact fun p hpm => (hws p hpm).isLog.2
      · exact i2 x hx
    · intro x hx
      rcases List.mem_cons.1 hx with rfl | hx
      · exact hpe'
      · exact i3 x hx

end GW.Robust
