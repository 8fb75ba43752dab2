import Verif.Props.Ppd
import Verif.Spec.PpdPlot
import Verif.Model.PpdPlot
import Mathlib.Algebra.BigOperators.Field

/-! Lemmas about marginals of an array without an axis of samples. -/

namespace GW.Ppd
open GW.Tools (Err)

theorem left_insert' (k i P : Nat) (hi : i ≤ P) (hk : i ≠ k) (σ : Nat → Nat) (t : Nat) :
    (left k (i + 1) P σ).insertIdx (i - (if k < i then i - 1 else i)) t = left k i P (Function.update σ i t) := by
  have hr : List.range' i (P + 1 - i) = i :: List.range' (i + 1) (P + 1 - (i + 1)) := by
    rw [show P + 1 - i = (P + 1 - (i + 1)) + 1 by omega, List.range'_succ]
  have hmap : (List.range' (i + 1) (P + 1 - (i + 1))).map (Function.update σ i t) =
      (List.range' (i + 1) (P + 1 - (i + 1))).map σ := by
    apply List.map_congr_left
    intro x hx
    rw [List.mem_range'_1] at hx
    exact Function.update_of_ne (by omega) _ _
  unfold left
  rw [hr, List.map_cons, Function.update_self, hmap]
  by_cases hlt : k < i
  · rw [if_pos (by omega), if_pos hlt, if_pos hlt, show i - (i - 1) = 1 by omega, Function.update_of_ne (by omega)]
    simp
  · rw [if_neg (by omega), if_neg hlt, if_neg hlt, Nat.sub_self]
    simp

theorem left_self' (k P : Nat) (hk : k ≤ P) (σ : Nat → Nat) : left k (k + 1) P σ = left k k P σ := by
  unfold left
  rw [if_pos (by omega), if_neg (by omega), show P + 1 - k = (P + 1 - (k + 1)) + 1 by omega, List.range'_succ]
  simp

theorem marginalLoop_spec' (k P : Nat) (pts : Nat → Nat) (ds : List Domain) (i : Nat) (hP : i + ds.length ≤ P + 1)
    (hpts : ∀ n, ∀ h : n < ds.length, pts (i + n) = ds[n].points) (y : Arr) (F : (Nat → Nat) → ℝ)
    (hshape : y.shape = left k i P pts) (hval : ∀ σ, y.val (left k i P σ) = F σ) :
    ∃ y', marginalLoop k ds i (if k < i then i - 1 else i) y = .ok y' ∧ y'.shape = left k (i + ds.length) P pts ∧
      ∀ σ, y'.val (left k (i + ds.length) P σ) =
        (ds.zipIdx i).foldl (fun F p => if p.2 = k then F else fun σ => trapz p.1 fun t => F (Function.update σ p.2 t)) F σ := by
  induction ds generalizing i y F with
  | nil => exact ⟨y, rfl, hshape, hval⟩
  | cons d ds ih =>
    rw [List.length_cons] at hP ⊢
    rw [show i + (ds.length + 1) = i + 1 + ds.length by ring]
    have hpts' : ∀ n, ∀ h : n < ds.length, pts (i + 1 + n) = ds[n].points := by
      intro n h
      have := hpts (n + 1) (by simp; omega)
      rw [show i + 1 + n = i + (n + 1) by ring, this]
      simp
    rw [marginalLoop, List.zipIdx_cons, List.foldl_cons]
    by_cases hk : i = k
    · subst hk
      simp only [if_true]
      have hj : (if i < i then i - 1 else i) = (if i < i + 1 then i + 1 - 1 else i + 1) := by
        rw [if_neg (by omega), if_pos (by omega)]; omega
      rw [hj]
      exact ih (i + 1) (by omega) hpts' y F (by rw [hshape, left_self' i P (by omega)])
        (fun σ => by rw [left_self' i P (by omega)]; exact hval σ)
    · rw [if_neg hk]
      have hp0 := hpts 0 (by simp)
      simp only [Nat.add_zero, List.getElem_cons_zero] at hp0
      have hax : y.shape[i - (if k < i then i - 1 else i)]? = some d.points := by
        rw [hshape, ← hp0]
        unfold left
        have hr : List.range' i (P + 1 - i) = i :: List.range' (i + 1) (P + 1 - (i + 1)) := by
          rw [show P + 1 - i = (P + 1 - (i + 1)) + 1 by omega, List.range'_succ]
        rw [hr]
        by_cases hlt : k < i
        · rw [if_pos hlt, if_pos hlt, show i - (i - 1) = 1 by omega]; rfl
        · rw [if_neg hlt, if_neg hlt, Nat.sub_self]; rfl
      rw [trapezoid, if_pos hax]
      simp only [hk, if_false]
      have hj : (if k < i then i - 1 else i) + 1 = (if k < i + 1 then i + 1 - 1 else i + 1) := by
        by_cases hlt : k < i
        · rw [if_pos hlt, if_pos (by omega)]; omega
        · rw [if_neg hlt, if_neg (by omega)]
      rw [hj]
      refine ih (i + 1) (by omega) hpts' _ _ ?_ ?_
      · simp only
        rw [hshape]
        have := left_insert' k i P (by omega) hk pts (pts i)
        rw [Function.update_eq_self] at this
        rw [← this, List.eraseIdx_insertIdx_self]
      · intro σ
        simp only
        congr 1
        funext t
        rw [left_insert' k i P (by omega) hk, hval]

/-- The marginals of an array with one axis per domain. -/
theorem marginal_plain (probs : Arr) (domains : List Domain) (k : Nat) (hk : k < domains.length) (hshape : probs.shape = domains.map Domain.points) :
    ∃ m, computeMarginal probs k domains = .ok m ∧ m.shape = [domains[k].points] ∧
      ∀ σ : Nat → Nat, m.val [σ k] = integrateOut k domains (fun σ => probs.val ((List.range domains.length).map σ)) σ := by
  obtain ⟨P, hP⟩ : ∃ P, domains.length = P + 1 := ⟨domains.length - 1, by omega⟩
  let pts : Nat → Nat := fun n => if h : n < domains.length then domains[n].points else 0
  have hl0 : ∀ σ : Nat → Nat, left k 0 P σ = (List.range domains.length).map σ := by
    intro σ
    unfold left
    rw [if_neg (by omega), List.nil_append, Nat.sub_zero, ← List.range_eq_range', hP]
  have hsh : probs.shape = left k 0 P pts := by
    rw [hshape, hl0]
    apply List.ext_getElem (by simp)
    intro n h1 h2
    have : n < domains.length := by simpa using h1
    simp [pts, this]
  obtain ⟨y, e, h1, h2⟩ := marginalLoop_spec' k P pts domains 0 (by omega) (by
      intro n h; simp only [Nat.zero_add, pts]; rw [dif_pos h]) probs
    (fun σ => probs.val ((List.range domains.length).map σ)) hsh (by intro σ; rw [hl0])
  have hleft : ∀ σ : Nat → Nat, left k (0 + domains.length) P σ = [σ k] := by
    intro σ; unfold left; rw [if_pos (by omega), show P + 1 - (0 + domains.length) = 0 by omega]; rfl
  refine ⟨y, ?_, ?_, ?_⟩
  · rw [computeMarginal, if_pos (by rw [hshape]; simp; omega)]
    simpa using e
  · rw [h1, hleft]
    simp [pts, hk]
  · intro σ
    rw [← hleft, h2]
    simp only [trapz_eq]
    rfl

theorem allMarginals_plain (probs : Arr) (domains : List Domain) (hshape : probs.shape = domains.map Domain.points) :
    ∃ ms, allMarginals probs domains = .ok ms ∧ ms.length = domains.length ∧
      ∀ k, ∀ hk : k < domains.length, ∃ m, ms[k]? = some m ∧ m.shape = [domains[k].points] ∧
        ∀ σ : Nat → Nat, m.val [σ k] = integrateOut k domains (fun σ => probs.val ((List.range domains.length).map σ)) σ := by
  choose g hg using fun k : {k // k < domains.length} => marginal_plain probs domains k.1 k.2 hshape
  have hlen : probs.shape.length = domains.length := by rw [hshape]; simp
  let g' : Nat → Arr := fun k => if h : k < domains.length then g ⟨k, h⟩ else probs
  refine ⟨(List.range domains.length).map g', ?_, by simp, ?_⟩
  · rw [allMarginals, hlen]
    apply mapM_ok
    intro a ha
    rw [List.mem_range] at ha
    simp only [g', dif_pos ha]
    exact (hg ⟨a, ha⟩).1
  · intro k hk
    refine ⟨g ⟨k, hk⟩, ?_, (hg ⟨k, hk⟩).2⟩
    rw [List.getElem?_map, List.getElem?_range hk]
    simp only [Option.map_some, g', dif_pos hk]

/-- Integration only uses the values at assignments that agree with `σ` at the axis `k` and beyond the domains. -/
theorem fold_congr (k P : Nat) (Q : (Nat → Nat) → Prop) (hQ : ∀ σ i t, i < P → i ≠ k → Q σ → Q (Function.update σ i t)) (ds : List (Domain × Nat))
    (hds : ∀ p ∈ ds, p.2 < P) {F G : (Nat → Nat) → ℝ} (h : ∀ σ, Q σ → F σ = G σ) {σ : Nat → Nat} (hσ : Q σ) :
    ds.foldl (fun F p => if p.2 = k then F else fun σ => trapezoidal p.1 fun t => F (Function.update σ p.2 t)) F σ =
      ds.foldl (fun F p => if p.2 = k then F else fun σ => trapezoidal p.1 fun t => F (Function.update σ p.2 t)) G σ := by
  induction ds generalizing F G with
  | nil => exact h σ hσ
  | cons p ds ih =>
    rw [List.foldl_cons, List.foldl_cons]
    refine ih (fun q hq => hds q (List.mem_cons_of_mem _ hq)) fun τ hτ => ?_
    by_cases hp : p.2 = k
    · simp only [hp, if_true]; exact h τ hτ
    · simp only [hp, if_false]
      congr 1
      funext t
      exact h _ (hQ τ p.2 t (hds p (by simp)) hp hτ)

theorem integrateOut_congr' (k : Nat) (domains : List Domain) (Q : (Nat → Nat) → Prop)
    (hQ : ∀ σ i t, i < domains.length → i ≠ k → Q σ → Q (Function.update σ i t)) {F G : (Nat → Nat) → ℝ} (h : ∀ σ, Q σ → F σ = G σ)
    {σ : Nat → Nat} (hσ : Q σ) : integrateOut k domains F σ = integrateOut k domains G σ :=
  fold_congr k domains.length Q hQ _ (fun p hp => by have := List.snd_lt_of_mem_zipIdx hp; omega) h hσ

theorem fold_mean (k n : Nat) (ds : List (Domain × Nat)) (F : Nat → (Nat → Nat) → ℝ) (σ : Nat → Nat) :
    ds.foldl (fun F p => if p.2 = k then F else fun σ => trapezoidal p.1 fun t => F (Function.update σ p.2 t))
        (fun σ => (∑ s ∈ Finset.range n, F s σ) / n) σ =
      (∑ s ∈ Finset.range n, ds.foldl (fun F p => if p.2 = k then F else fun σ => trapezoidal p.1 fun t => F (Function.update σ p.2 t)) (F s) σ) / n := by
  induction ds generalizing F with
  | nil => rfl
  | cons p ds ih =>
    simp only [List.foldl_cons]
    by_cases hp : p.2 = k
    · simp only [hp, if_true]; exact ih F
    · simp only [hp, if_false]
      rw [← ih]
      refine congrArg (fun F' : (Nat → Nat) → ℝ =>
        ds.foldl (fun F p => if p.2 = k then F else fun σ => trapezoidal p.1 fun t => F (Function.update σ p.2 t)) F' σ) ?_
      funext τ
      unfold trapezoidal
      simp only [← add_div, ← Finset.sum_add_distrib]
      rw [Finset.sum_comm, Finset.sum_div]
      refine Finset.sum_congr rfl fun t _ => ?_
      rw [← Finset.mul_sum, ← Finset.sum_div]
      ring

theorem integrateOut_mean (k n : Nat) (domains : List Domain) (F : Nat → (Nat → Nat) → ℝ) (σ : Nat → Nat) :
    integrateOut k domains (fun σ => (∑ s ∈ Finset.range n, F s σ) / n) σ = (∑ s ∈ Finset.range n, integrateOut k domains (F s) σ) / n :=
  fold_mean k n _ F σ

theorem gridPoint_congr {domains : List Domain} {σ τ : Nat → Nat} (h : ∀ i, i < domains.length → σ i = τ i) : gridPoint domains σ = gridPoint domains τ := by
  unfold gridPoint
  apply List.map_congr_left
  intro p hp
  have := List.snd_lt_of_mem_zipIdx hp
  rw [h _ (by omega)]

end GW.Ppd
