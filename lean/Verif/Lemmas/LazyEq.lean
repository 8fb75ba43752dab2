import Verif.Spec.LazyEq
import Verif.Lemmas.PyDict
import Mathlib.Data.List.Forall2
import Mathlib.Data.Option.Defs

/-! Lemmas for the equality of lazy constraints. -/

namespace GW.Lazy
open GW GW.Joint GW.PyDict

variable {α : Type}

theorem dictEq_match {K V : Type} [DecidableEq K] (eq : V → V → Bool) : ∀ (a b : Dict K V), (keys a).Nodup → (keys b).Nodup → dictEq eq a b = true →
    ∃ b', b'.Perm b ∧ List.Forall₂ (fun p q => p.1 = q.1 ∧ eq p.2 q.2 = true) a b'
  | [], b, _, _, h => by
    simp only [dictEq, List.length_nil, List.all_nil, Bool.and_true, beq_iff_eq] at h
    rw [List.eq_nil_of_length_eq_zero h.symm]
    exact ⟨[], .nil, .nil⟩
  | p :: as, b, ha, hb, h => by
    simp only [dictEq, List.all_cons, Bool.and_eq_true, beq_iff_eq] at h
    obtain ⟨hl, hp, has⟩ := h
    cases hv : get? b p.1 with
    | none => rw [hv] at hp; simp at hp
    | some v =>
      rw [hv] at hp
      obtain ⟨s, t, hst⟩ := List.append_of_mem (mem_of_get? hv)
      have hperm : ((p.1, v) :: (s ++ t)).Perm b := by rw [hst]; exact List.perm_middle.symm
      have hnd : (keys (s ++ t)).Nodup := by
        have := (hperm.map Prod.fst).nodup_iff.2 hb
        exact (List.nodup_cons.1 this).2
      have hna := List.nodup_cons.1 (show (p.1 :: keys as).Nodup from ha)
      obtain ⟨b', h1, h2⟩ := dictEq_match eq as (s ++ t) hna.2 hnd (by
        simp only [dictEq, Bool.and_eq_true, beq_iff_eq, List.all_eq_true]
        refine ⟨?_, fun q hq => ?_⟩
        · have := hperm.length_eq
          simp only [List.length_cons] at this hl
          omega
        · have hq' := List.all_eq_true.1 has q hq
          cases hw : get? b q.1 with
          | none => rw [hw] at hq'; simp at hq'
          | some w =>
            rw [hw] at hq'
            have hmem := hperm.mem_iff.2 (mem_of_get? hw)
            rcases List.mem_cons.1 hmem with e | e
            · exact absurd (List.mem_map.2 ⟨q, hq, (Prod.mk.inj e).1⟩) hna.1
            · rw [get?_of_mem hnd e]; exact hq')
      exact ⟨(p.1, v) :: b', (h1.cons _).trans hperm, .cons ⟨rfl, hp⟩ h2⟩

theorem innerEq_perm {a b : List (String × Nat)} (ha : (a.map (·.1)).Nodup) (hb : (b.map (·.1)).Nodup) (h : dictEq (· == ·) a b = true) : a.Perm b := by
  obtain ⟨b', h1, h2⟩ := dictEq_match _ a b ha hb h
  have key : ∀ (a b : List (String × Nat)), List.Forall₂ (fun p q => p.1 = q.1 ∧ (p.2 == q.2) = true) a b → a = b := by
    intro a b h
    induction h with
    | nil => rfl
    | cons e _ ih => rw [ih, Prod.ext e.1 (by simpa using e.2)]
  rw [key _ _ h2]; exact h1

theorem kwargs_perm (env : Nat → Option (List α)) {d d' : List (String × Nat)} (h : d.Perm d') :
    Option.Rel List.Perm (kwargs env d) (kwargs env d') := by
  induction h with
  | nil => exact .some .nil
  | cons p _ ih =>
    simp only [kwargs]
    cases env p.2 with
    | none => exact .none
    | some a =>
      simp only [Option.bind_eq_bind, Option.bind_some]
      revert ih
      generalize kwargs env _ = u
      generalize kwargs env _ = v
      intro ih
      cases ih with
      | none => exact .none
      | some hp => exact .some (hp.cons _)
  | swap p q l =>
    simp only [kwargs]
    cases env p.2 <;> cases env q.2 <;> cases kwargs env l <;> first | exact .none | exact .some (.swap _ _ _)
  | trans _ _ ih1 ih2 =>
    revert ih1 ih2
    generalize kwargs env _ = a
    generalize kwargs env _ = b
    generalize kwargs env _ = c
    intro h1 h2
    cases h1 with
    | none => exact h2
    | some h1 => cases h2 with
      | some h2 => exact .some (h1.trans h2)

theorem forall₂_set {β γ : Type} {R : β → γ → Prop} {x : β} {y : γ} (hxy : R x y) : ∀ {as : List β} {bs : List γ} (_ : List.Forall₂ R as bs) (i : Nat),
    List.Forall₂ R (as.set i x) (bs.set i y)
  | _, _, .nil, _ => .nil
  | _, _, .cons _ t, 0 => .cons hxy t
  | _, _, .cons h t, i + 1 => .cons h (forall₂_set hxy t i)

theorem forall₂_get {β γ : Type} {R : β → γ → Prop} : ∀ {as : List β} {bs : List γ} (_ : List.Forall₂ R as bs) (i : Nat), Option.Rel R as[i]? bs[i]?
  | _, _, .nil, _ => .none
  | _, _, .cons h _, 0 => .some h
  | _, _, .cons _ t, i + 1 => by simpa using forall₂_get t i

/-- Dependencies that match item by item instantiate agreeing marginals to agreeing marginals. -/
theorem instLoop_agree (env : Nat → Option (List α)) {d d' : List (Nat × List (String × Nat))} (h : List.Forall₂ (fun p q => p.1 = q.1 ∧ p.2.Perm q.2) d d') :
    ∀ {ms ms' : List (Marg α)}, List.Forall₂ Agree ms ms' → Option.Rel (List.Forall₂ Agree) (instLoop env d ms) (instLoop env d' ms') := by
  induction h with
  | nil => intro ms ms' hm; exact .some hm
  | @cons p q l l' e _ ih =>
    obtain ⟨i, dep⟩ := p
    obtain ⟨j, dep'⟩ := q
    obtain ⟨rfl, hperm⟩ := e
    intro ms ms' hm
    simp only [instLoop]
    have hk := kwargs_perm env hperm
    revert hk
    generalize kwargs env dep = a
    generalize kwargs env dep' = b
    intro hk
    cases hk with
    | none => exact .none
    | some hk =>
      simp only [Option.bind_eq_bind, Option.bind_some]
      have hg := forall₂_get hm i
      revert hg
      generalize ms[i]? = x
      generalize ms'[i]? = y
      intro hg
      cases hg with
      | none => exact .none
      | @some m m' hg =>
        cases m with
        | dist b => cases m' with
          | dist b' => exact .none
          | part g => exact hg.elim
        | part f => cases m' with
          | dist b' => exact hg.elim
          | part g => exact ih (forall₂_set (show Agree (.dist (f _)) (.dist (g _)) from hg _ _ hk) hm i)

/-- The order of the dependencies does not matter. -/
theorem instLoop_perm (env : Nat → Option (List α)) {d d' : List (Nat × List (String × Nat))} (h : d.Perm d') (hn : (d.map Prod.fst).Nodup) :
    ∀ ms : List (Marg α), instLoop env d ms = instLoop env d' ms := by
  induction h with
  | nil => intro ms; rfl
  | cons p _ ih =>
    intro ms
    simp only [instLoop]
    have ih := ih (List.nodup_cons.1 hn).2
    cases kwargs env p.2 with
    | none => rfl
    | some kw =>
      simp only [Option.bind_eq_bind, Option.bind_some, ih]
  | swap p q l =>
    intro ms
    have hpq : q.1 ≠ p.1 := by
      intro e
      simp [e] at hn
    simp only [instLoop]
    cases kwargs env p.2 with
    | none =>
      cases kwargs env q.2 with
      | none => rfl
      | some kw =>
        simp only [Option.bind_eq_bind, Option.bind_some, Option.bind_none]
        cases ms[q.1]? with
        | none => rfl
        | some m => cases m <;> rfl
    | some kw =>
      cases kwargs env q.2 with
      | none =>
        simp only [Option.bind_eq_bind, Option.bind_some, Option.bind_none]
        cases ms[p.1]? with
        | none => rfl
        | some m => cases m <;> rfl
      | some kw' =>
        simp only [Option.bind_eq_bind, Option.bind_some]
        cases hq : ms[q.1]? with
        | none =>
          cases hp : ms[p.1]? with
          | none => rfl
          | some m =>
            cases m with
            | dist b => rfl
            | part f => simp only [List.getElem?_set_ne hpq.symm, hq]
        | some m =>
          cases m with
          | dist b =>
            cases hp : ms[p.1]? with
            | none => rfl
            | some m =>
              cases m with
              | dist b => rfl
              | part f => simp only [List.getElem?_set_ne hpq.symm, hq]
          | part g =>
            simp only [List.getElem?_set_ne hpq]
            cases hp : ms[p.1]? with
            | none => rfl
            | some m =>
              cases m with
              | dist b => rfl
              | part f => simp only [List.getElem?_set_ne hpq.symm, hq, List.set_comm _ _ hpq]
  | trans h1 _ ih1 ih2 =>
    intro ms
    rw [ih1 hn, ih2 ((h1.map Prod.fst).nodup_iff.1 hn)]

theorem supportLoop_agree {ms ms' : List (Marg α)} (h : List.Forall₂ Agree ms ms') : ∀ (es : List EvSlice) (x : List α), supportLoop ms es x = supportLoop ms' es x := by
  induction h with
  | nil => intro es x; rfl
  | @cons m m' l l' e _ ih =>
    intro es x
    cases es with
    | nil => cases m <;> cases m' <;> rfl
    | cons s es =>
      cases m with
      | dist b => cases m' with
        | dist b' =>
          simp only [supportLoop, ih]
          cases getSlice x s with
          | none => rfl
          | some v => simp only [Option.bind_eq_bind, Option.bind_some, show b.support v = b'.support v from e v]
        | part g => exact e.elim
      | part f => cases m' with
        | dist b' => exact e.elim
        | part g => rfl

theorem allEq_true {D : Type} {eq : D → D → Bool} : ∀ {as bs : List D}, allEq eq as bs = .ok true ↔ List.Forall₂ (fun a b => eq a b = true) as bs
  | [], [] => by simp [allEq]
  | [], b :: bs => by simp [allEq]
  | a :: as, [] => by simp [allEq]
  | a :: as, b :: bs => by
    rw [allEq, List.forall₂_cons, ← allEq_true]
    by_cases h : eq a b = true <;> simp [h]

theorem allEq_error {D : Type} {eq : D → D → Bool} : ∀ {as bs : List D}, allEq eq as bs = .error .zipLength ↔
    as.length ≠ bs.length ∧ ∀ i (h1 : i < as.length) (h2 : i < bs.length), eq as[i] bs[i] = true
  | [], [] => by simp [allEq]
  | [], b :: bs => by simp [allEq]
  | a :: as, [] => by simp [allEq]
  | a :: as, b :: bs => by
    rw [allEq]
    by_cases h : eq a b = true
    · rw [if_pos h, allEq_error]
      simp only [List.length_cons, ne_eq, Nat.add_right_cancel_iff]
      refine and_congr_right fun _ => ⟨fun H i h1 h2 => ?_, fun H i h1 h2 => H (i + 1) (Nat.succ_lt_succ h1) (Nat.succ_lt_succ h2)⟩
      cases i with
      | zero => exact h
      | succ i => simpa using H i (by simpa using h1) (by simpa using h2)
    · rw [if_neg h]
      simp only [reduceCtorEq, false_iff, not_and]
      intro _ H
      exact h (H 0 (by simp) (by simp))

theorem dictEq_self {K V : Type} [DecidableEq K] (eq : V → V → Bool) (a : Dict K V) (ha : (keys a).Nodup) (he : ∀ p ∈ a, eq p.2 p.2 = true) : dictEq eq a a = true := by
  simp only [dictEq, beq_self_eq_true, Bool.true_and, List.all_eq_true]
  intro p hp
  rw [get?_of_mem ha (show (p.1, p.2) ∈ a from hp)]
  exact he p hp

end GW.Lazy
