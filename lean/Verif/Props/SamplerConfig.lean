import Verif.Spec.SamplerConfig
import Verif.Lemmas.PyDict
import Mathlib.Analysis.Matrix.PosDef

/-!
# C66: the flowMC settings file
-/

namespace GW.Settings
open GW.PyDict
open scoped Classical

/-! ### The two loops -/

theorem lookups_ok {cfg : Cfg} : ∀ {ss : List (String × Kind × Option JV)} {r : Dict String JV}, (ss.map (·.1)).Nodup → lookups cfg ss = .ok r →
    ∀ s ∈ ss, ∃ v, lookup cfg s = .ok v ∧ get? r s.1 = some v := by
  intro ss
  induction ss with
  | nil => intro r _ _ s hs; simp at hs
  | cons s0 ss ih =>
    intro r hn h s hs
    rw [List.map_cons, List.nodup_cons] at hn
    unfold lookups at h
    cases h0 : lookup cfg s0 with
    | error e => rw [h0] at h; simp at h
    | ok v0 =>
      rw [h0] at h
      cases h1 : lookups cfg ss with
      | error e => rw [h1] at h; simp at h
      | ok r1 =>
        rw [h1] at h
        simp only [Except.ok.injEq] at h
        subst h
        rcases List.mem_cons.1 hs with rfl | hs
        · exact ⟨v0, h0, by simp [get?]⟩
        · obtain ⟨v, hv, hg⟩ := ih hn.2 h1 s hs
          refine ⟨v, hv, ?_⟩
          have : s0.1 ≠ s.1 := fun hc => hn.1 (hc ▸ List.mem_map_of_mem hs)
          simp [get?, this] 
          simpa [get?] using hg

theorem lookups_total {cfg : Cfg} : ∀ {ss : List (String × Kind × Option JV)}, (∀ s ∈ ss, ∃ v, lookup cfg s = .ok v) → ∃ r, lookups cfg ss = .ok r := by
  intro ss
  induction ss with
  | nil => intro _; exact ⟨[], rfl⟩
  | cons s0 ss ih =>
    intro h
    obtain ⟨v, hv⟩ := h s0 (by simp)
    obtain ⟨r, hr⟩ := ih fun s hs => h s (List.mem_cons_of_mem _ hs)
    exact ⟨_, by unfold lookups; rw [hv, hr]⟩

theorem lookups_error {cfg : Cfg} {e : Err} : ∀ {ss : List (String × Kind × Option JV)}, lookups cfg ss = .error e → ∃ l s t, ss = l ++ s :: t ∧
    (∀ s' ∈ l, ∃ v, lookup cfg s' = .ok v) ∧ lookup cfg s = .error e := by
  intro ss
  induction ss with
  | nil => intro h; simp [lookups] at h
  | cons s0 ss ih =>
    intro h
    unfold lookups at h
    cases h0 : lookup cfg s0 with
    | error e0 =>
      rw [h0] at h
      simp only [Except.error.injEq] at h
      exact ⟨[], s0, ss, rfl, by simp, h ▸ h0⟩
    | ok v0 =>
      rw [h0] at h
      cases h1 : lookups cfg ss with
      | ok r1 => rw [h1] at h; simp at h
      | error e1 =>
        rw [h1] at h
        simp only [Except.error.injEq] at h
        obtain ⟨l, s, t, rfl, hl, hs⟩ := ih (h ▸ h1)
        refine ⟨s0 :: l, s, t, rfl, ?_, hs⟩
        intro s' hs'
        rcases List.mem_cons.1 hs' with rfl | hs'
        · exact ⟨v0, h0⟩
        · exact hl s' hs'

/-- The complaint of the validation loop about one setting. -/
def complaint (s : String × Kind × Option JV) (v : JV) : Option Err :=
  if hasKind s.2.1 v = false then some (.type s.1)
  else if s.2.1 = .int ∧ belowOne v = true ∧ s.1 ≠ "chain_batch_size" then some (.value s.1)
  else none

theorem validateAll_cons {values : Dict String JV} {s : String × Kind × Option JV} {ss} {v : JV} (h : get? values s.1 = some v) :
    validateAll values (s :: ss) = match complaint s v with | some e => .error e | none => validateAll values ss := by
  rw [validateAll, h]
  unfold complaint
  dsimp only
  split_ifs <;> rfl

theorem validateAll_ok {values : Dict String JV} : ∀ {ss : List (String × Kind × Option JV)}, (∀ s ∈ ss, ∃ v, get? values s.1 = some v) →
    (validateAll values ss = .ok () ↔ ∀ s ∈ ss, ∀ v, get? values s.1 = some v → complaint s v = none) := by
  intro ss
  induction ss with
  | nil => intro _; simp [validateAll]
  | cons s0 ss ih =>
    intro h
    obtain ⟨v0, h0⟩ := h s0 (by simp)
    rw [validateAll_cons h0]
    have := ih fun s hs => h s (List.mem_cons_of_mem _ hs)
    cases hc : complaint s0 v0 with
    | some e =>
      simp only [reduceCtorEq, false_iff]
      intro hh
      have := hh s0 (by simp) v0 h0
      rw [hc] at this; cases this
    | none =>
      simp only [this]
      constructor
      · intro hh s hs v hv
        rcases List.mem_cons.1 hs with rfl | hs
        · rw [h0] at hv; cases hv; exact hc
        · exact hh s hs v hv
      · intro hh s hs; exact hh s (List.mem_cons_of_mem _ hs)

theorem validateAll_error {values : Dict String JV} {e : Err} : ∀ {ss : List (String × Kind × Option JV)}, (∀ s ∈ ss, ∃ v, get? values s.1 = some v) →
    validateAll values ss = .error e → ∃ s ∈ ss, ∃ v, get? values s.1 = some v ∧ complaint s v = some e := by
  intro ss
  induction ss with
  | nil => intro _ h; simp [validateAll] at h
  | cons s0 ss ih =>
    intro h he
    obtain ⟨v0, h0⟩ := h s0 (by simp)
    rw [validateAll_cons h0] at he
    cases hc : complaint s0 v0 with
    | some e' =>
      rw [hc] at he
      simp only [Except.error.injEq] at he
      exact ⟨s0, by simp, v0, h0, he ▸ hc⟩
    | none =>
      rw [hc] at he
      obtain ⟨s, hs, h'⟩ := ih (fun s hs => h s (List.mem_cons_of_mem _ hs)) he
      exact ⟨s, List.mem_cons_of_mem _ hs, h'⟩

/-! ### The values -/

open Spec

theorem int?_iff {a : Atom} {k : Int} : a.int? = some k ↔ IsInt a k := by
  constructor
  · intro h
    cases a with
    | int n => simp only [Atom.int?, Option.some.injEq] at h; subst h; exact .int _
    | bool b => cases b <;> simp only [Atom.int?, Option.some.injEq] at h <;> subst h; exacts [.false, .true]
    | _ => simp [Atom.int?] at h
  · intro h; cases h <;> simp [Atom.int?]

theorem num?_iff {a : Atom} {x : ℝ} : a.num? = some x ↔ IsNum a x := by
  constructor
  · intro h
    cases a with
    | int n => simp only [Atom.num?, Option.some.injEq] at h; subst h; exact .int (.int _)
    | float y => simp only [Atom.num?, Option.some.injEq] at h; subst h; exact .float _
    | bool b =>
      cases b <;> simp only [Atom.num?, Option.some.injEq] at h <;> subst h
      · simpa using IsNum.int (IsInt.false)
      · simpa using IsNum.int (IsInt.true)
    | _ => simp [Atom.num?] at h
  · intro h
    cases h with
    | float x => rfl
    | int h => cases h <;> simp [Atom.num?]

theorem mapM_some {α β : Type} {f : α → Option β} : ∀ {l : List α} {r : List β}, l.mapM f = some r ↔ List.Forall₂ (fun a b => f a = some b) l r := by
  intro l
  induction l with
  | nil => intro r; cases r <;> simp
  | cons a l ih =>
    intro r
    simp only [List.mapM_cons, Option.bind_eq_bind, Option.pure_def, Option.bind_eq_some_iff, Option.some.injEq]
    constructor
    · rintro ⟨b, hb, t, ht, rfl⟩; exact .cons hb (ih.1 ht)
    · intro h
      cases h with
      | cons hb ht => exact ⟨_, hb, _, ih.2 ht, rfl⟩

theorem forall₂_get {α β : Type} {R : α → β → Prop} {l : List α} {r : List β} :
    List.Forall₂ R l r ↔ l.length = r.length ∧ ∀ (i : ℕ) (a : α) (b : β), l[i]? = some a → r[i]? = some b → R a b := by
  rw [List.forall₂_iff_get]
  refine and_congr_right fun hl => ?_
  constructor
  · intro h i a b ha hb
    obtain ⟨h1, rfl⟩ := List.getElem?_eq_some_iff.1 ha
    obtain ⟨h2, rfl⟩ := List.getElem?_eq_some_iff.1 hb
    exact h i h1 h2
  · intro h i h1 h2
    exact h i _ _ (List.getElem?_eq_getElem h1) (List.getElem?_eq_getElem h2)

/-- The list of numbers that a list of atoms stands for. -/
theorem vector?_iff {items : List Item} {d : List ℝ} : vector? items = some d ↔ ∃ as : List Atom, items = as.map .atom ∧ List.Forall₂ IsNum as d := by
  unfold vector?
  rw [mapM_some]
  constructor
  · intro h
    induction h with
    | nil => exact ⟨[], rfl, .nil⟩
    | @cons i b _ _ h _ ih =>
      obtain ⟨as, rfl, hf⟩ := ih
      cases i with
      | atom a => exact ⟨a :: as, rfl, .cons (num?_iff.1 h) hf⟩
      | row _ => simp at h
      | deep => simp at h
  · rintro ⟨as, rfl, hf⟩
    induction hf with
    | nil => exact .nil
    | cons h _ ih => exact .cons (num?_iff.2 h) ih

theorem rows?_iff {items : List Item} {d : List (List ℝ)} :
    rows? items = some d ↔ ∃ rs : List (List Atom), items = rs.map .row ∧ List.Forall₂ (fun r x => List.Forall₂ IsNum r x) rs d := by
  unfold rows?
  rw [mapM_some]
  have key : ∀ (as : List Atom) (x : List ℝ), as.mapM Atom.num? = some x ↔ List.Forall₂ IsNum as x := by
    intro as x
    rw [mapM_some]
    simp only [num?_iff]
  constructor
  · intro h
    induction h with
    | nil => exact ⟨[], rfl, .nil⟩
    | @cons i b _ _ h _ ih =>
      obtain ⟨as, rfl, hf⟩ := ih
      cases i with
      | atom a => simp at h
      | row r => exact ⟨r :: as, rfl, .cons ((key _ _).1 h) hf⟩
      | deep => simp at h
  · rintro ⟨as, rfl, hf⟩
    induction hf with
    | nil => exact .nil
    | cons h _ ih => exact .cons ((key _ _).2 h) ih

theorem isNum_unique {a : Atom} {x y : ℝ} (hx : IsNum a x) (hy : IsNum a y) : x = y := by
  have := num?_iff.2 hx
  rw [num?_iff.2 hy] at this
  exact (Option.some.inj this).symm

/-- The eigenvalue test is the test of the quadratic form. -/
theorem eigen_iff {n : ℕ} (A : Matrix (Fin n) (Fin n) ℝ) :
    (¬ ∃ i, (symmetrised_isHermitian A).eigenvalues i ≤ 0) ↔ ∀ x : Fin n → ℝ, x ≠ 0 → 0 < ∑ i, ∑ j, x i * A i j * x j := by
  push Not
  rw [← (symmetrised_isHermitian A).posDef_iff_eigenvalues_pos, Matrix.posDef_iff_dotProduct_mulVec]
  rw [and_iff_right (symmetrised_isHermitian A)]
  refine forall_congr' fun x => imp_congr_right fun _ => ?_
  have : star x ⬝ᵥ (symmetrised A).mulVec x = ∑ i, ∑ j, x i * A i j * x j := by
    have hswap : ∑ i, ∑ j, x i * A j i * x j = ∑ i, ∑ j, x i * A i j * x j := by
      rw [Finset.sum_comm]
      exact Finset.sum_congr rfl fun i _ => Finset.sum_congr rfl fun j _ => by ring
    simp only [symmetrised, dotProduct, Matrix.mulVec, Matrix.smul_apply, Matrix.add_apply, Matrix.conjTranspose_apply, star_trivial, Finset.mul_sum, smul_eq_mul]
    calc ∑ i, ∑ j, x i * (1 / 2 * (A i j + A j i) * x j) = ∑ i, ∑ j, (1 / 2 * (x i * A i j * x j) + 1 / 2 * (x i * A j i * x j)) :=
          Finset.sum_congr rfl fun i _ => Finset.sum_congr rfl fun j _ => by ring
      _ = 1 / 2 * ∑ i, ∑ j, x i * A i j * x j + 1 / 2 * ∑ i, ∑ j, x i * A j i * x j := by
          simp only [Finset.sum_add_distrib, Finset.mul_sum]
      _ = _ := by rw [hswap]; ring
  rw [this]

theorem massMatrix_iff {n : ℕ} {v : JV} (hv : hasKind .numOrSeq v = true) {M : Mass n} : massMatrix n v = .ok M ↔ MassOf n v M := by
  cases v with
  | object => simp [hasKind] at hv
  | atom a =>
    unfold massMatrix
    cases hn : a.num? with
    | some m =>
      simp only [hn]
      constructor
      · intro h
        split_ifs at h with hm
        cases h
        have : (m • (1 : Matrix (Fin n) (Fin n) ℝ)) = fun i j => if i = j then m else 0 := by
          funext i j
          simp [Matrix.one_apply]
        rw [this]
        exact .scalar (num?_iff.1 hn) (not_le.1 hm)
      · intro h
        cases h with
        | scalar ha hm =>
          have := isNum_unique ha (num?_iff.1 hn)
          subst this
          rw [if_neg (not_le.2 hm)]
          congr 2
          funext i j
          simp [Matrix.one_apply]
        | string s => simp [Atom.num?] at hn
    | none =>
      simp only [hn]
      cases a with
      | str s =>
        constructor
        · intro h; cases h; exact .string s
        · intro h
          cases h with
          | scalar ha _ => rw [num?_iff.2 ha] at hn; cases hn
          | string => rfl
      | null => simp [hasKind, Atom.int?] at hv
      | _ => simp [Atom.num?] at hn
  | list items =>
    unfold massMatrix
    cases hd : vector? items with
    | some d =>
      obtain ⟨as, rfl, hf⟩ := vector?_iff.1 hd
      have hg := forall₂_get.1 hf
      simp only [hd]
      constructor
      · intro h
        split_ifs at h with h1 h2
        push Not at h1 h2
        cases h
        have : Matrix.diagonal (fun i : Fin n => d.getD i 0) = fun i j => if i = j then (fun i : Fin n => d.getD i 0) i else 0 := by
          funext i j; simp [Matrix.diagonal_apply]
        rw [this]
        refine .diagonal (by rw [hg.1, h1]) (fun i => ?_) (fun i => ?_)
        · have hi : i.1 < d.length := h1 ▸ i.2
          refine ⟨_, List.getElem?_eq_getElem (hg.1 ▸ hi), ?_⟩
          have := hg.2 i.1 _ _ (List.getElem?_eq_getElem (hg.1 ▸ hi)) (List.getElem?_eq_getElem hi)
          simpa [List.getD_eq_getElem?_getD, hi] using this
        · have hi : i.1 < d.length := h1 ▸ i.2
          have := h2 d[i.1] (List.getElem_mem hi)
          simpa [List.getD_eq_getElem?_getD, hi] using this
      · intro h
        generalize hw : JV.list (as.map Item.atom) = w at h
        cases h with
        | scalar => cases hw
        | string => cases hw
        | @full rows M hl hn hr hM hp =>
          exfalso
          simp only [JV.list.injEq] at hw
          cases rows with
          | nil => simp at hl; omega
          | cons r rs => cases as <;> simp at hw
        | @diagonal as' dd hl hdd hp =>
          simp only [JV.list.injEq] at hw
          have hinj : as = as' := List.map_injective_iff.2 (fun a b h => by cases h; rfl) hw
          subst hinj
          have hlen : d.length = n := by rw [← hg.1, hl]
          have hval : ∀ i : Fin n, d.getD i 0 = dd i := by
            intro i
            have hi : i.1 < d.length := hlen ▸ i.2
            obtain ⟨a, ha, hna⟩ := hdd i
            have := hg.2 i.1 a _ ha (List.getElem?_eq_getElem hi)
            have h3 := isNum_unique this hna
            simpa [List.getD_eq_getElem?_getD, hi] using h3
          have hpos : ¬ ∃ x ∈ d, x ≤ 0 := by
            push Not
            intro x hx
            obtain ⟨i, hi, rfl⟩ := List.getElem_of_mem hx
            have h3 := hval ⟨i, hlen ▸ hi⟩
            have h4 := hp ⟨i, hlen ▸ hi⟩
            rw [← h3] at h4
            simpa [List.getD_eq_getElem?_getD, hi] using h4
          rw [if_neg (by simpa using hlen), if_neg hpos]
          congr 2
          funext i j
          simp only [Matrix.diagonal_apply]
          rw [hval i]
    | none =>
      simp only [hd]
      cases hr : rows? items with
      | none =>
        simp only [reduceCtorEq, false_iff]
        intro h
        generalize hw : JV.list items = w at h
        cases h with
        | scalar => cases hw
        | string => cases hw
        | @full rows M hl hn hr' hM hp =>
          simp only [JV.list.injEq] at hw
          have hex : ∃ d, List.Forall₂ (fun r x => List.Forall₂ IsNum r x) rows d := by
            refine ⟨List.ofFn fun i : Fin n => List.ofFn fun j : Fin n => M i j, forall₂_get.2 ⟨by simp [hl], ?_⟩⟩
            intro i r x hri hx
            obtain ⟨hi, rfl⟩ := List.getElem?_eq_some_iff.1 hx
            have hi' : i < n := by simpa using hi
            have hrl : r.length = n := hr' r (List.mem_of_getElem? hri)
            refine forall₂_get.2 ⟨by simp [hrl], ?_⟩
            intro j a b ha hb
            obtain ⟨hj, rfl⟩ := List.getElem?_eq_some_iff.1 hb
            have hj' : j < n := by simpa using hj
            obtain ⟨r', a', h1, h2, h3⟩ := hM ⟨i, hi'⟩ ⟨j, hj'⟩
            rw [show rows[(⟨i, hi'⟩ : Fin n).1]? = some r from hri] at h1
            cases h1
            rw [show r[(⟨j, hj'⟩ : Fin n).1]? = some a from ha] at h2
            cases h2
            simpa using h3
          obtain ⟨d, hd'⟩ := hex
          rw [rows?_iff.2 ⟨rows, hw, hd'⟩] at hr
          cases hr
        | @diagonal as' dd hl hdd hp =>
          simp only [JV.list.injEq] at hw
          have : vector? items = some (List.ofFn dd) := by
            refine vector?_iff.2 ⟨as', hw, forall₂_get.2 ⟨by simp [hl], ?_⟩⟩
            intro i a b ha hb
            obtain ⟨hi, rfl⟩ := List.getElem?_eq_some_iff.1 hb
            have hi' : i < n := by simpa using hi
            obtain ⟨a', ha', hn⟩ := hdd ⟨i, hi'⟩
            rw [show as'[(⟨i, hi'⟩ : Fin n).1]? = some a from ha] at ha'
            cases ha'
            simpa using hn
          rw [this] at hd
          cases hd
      | some d =>
        obtain ⟨rs, rfl, hf⟩ := rows?_iff.1 hr
        have hg := forall₂_get.1 hf
        have hrow : ∀ (i : ℕ) (r : List Atom) (x : List ℝ), rs[i]? = some r → d[i]? = some x → r.length = x.length := fun i r x h1 h2 =>
          (hg.2 i r x h1 h2).length_eq
        simp only []
        constructor
        · intro h
          split_ifs at h with h1 h2
          push Not at h1
          cases h
          have hn : 0 < n := by
            rcases Nat.eq_zero_or_pos n with h0 | h0
            · exfalso
              have : rs = [] := List.length_eq_zero_iff.1 (by rw [hg.1, h1.1, h0])
              subst this
              simp [vector?] at hd
            · exact h0
          refine .full (by rw [hg.1, h1.1]) hn ?_ ?_ ((eigen_iff _).1 h2)
          · intro r hr'
            obtain ⟨i, hi, rfl⟩ := List.getElem_of_mem hr'
            rw [hrow i _ _ (List.getElem?_eq_getElem hi) (List.getElem?_eq_getElem (hg.1 ▸ hi))]
            exact h1.2 _ (List.getElem_mem _)
          · intro i j
            have hi : i.1 < d.length := h1.1 ▸ i.2
            have hi' : i.1 < rs.length := hg.1 ▸ hi
            have hx := hg.2 i.1 _ _ (List.getElem?_eq_getElem hi') (List.getElem?_eq_getElem hi)
            have hxl : d[i.1].length = n := h1.2 _ (List.getElem_mem hi)
            have hj : j.1 < d[i.1].length := by rw [hxl]; exact j.2
            have hj' : j.1 < rs[i.1].length := hx.length_eq ▸ hj
            refine ⟨_, _, List.getElem?_eq_getElem hi', List.getElem?_eq_getElem hj', ?_⟩
            have := (forall₂_get.1 hx).2 j.1 _ _ (List.getElem?_eq_getElem hj') (List.getElem?_eq_getElem hj)
            simpa [ofRows, List.getD_eq_getElem?_getD, hi, hj] using this
        · intro h
          generalize hw : JV.list (rs.map Item.row) = w at h
          cases h with
          | scalar => cases hw
          | string => cases hw
          | @diagonal as' dd hl hdd hp =>
            exfalso
            simp only [JV.list.injEq] at hw
            cases as' with
            | nil =>
              simp at hw
              subst hw
              simp [vector?] at hd
            | cons a as => cases rs <;> simp at hw
          | @full rows M hl hn hr' hM hp =>
            simp only [JV.list.injEq] at hw
            have hinj : rs = rows := List.map_injective_iff.2 (fun a b h => by cases h; rfl) hw
            subst hinj
            have hlen : d.length = n := by rw [← hg.1, hl]
            have hdl : ∀ x ∈ d, x.length = n := by
              intro x hx
              obtain ⟨i, hi, rfl⟩ := List.getElem_of_mem hx
              have hi' : i < rs.length := hg.1 ▸ hi
              rw [← hrow i _ _ (List.getElem?_eq_getElem hi') (List.getElem?_eq_getElem hi)]
              exact hr' _ (List.getElem_mem _)
            have hval : ofRows n d = M := by
              funext i j
              have hi : i.1 < d.length := hlen ▸ i.2
              have hxl : d[i.1].length = n := hdl _ (List.getElem_mem hi)
              have hj : j.1 < d[i.1].length := by rw [hxl]; exact j.2
              obtain ⟨r, a, h1, h2, h3⟩ := hM i j
              have hx := hg.2 i.1 r _ h1 (List.getElem?_eq_getElem hi)
              have hy := (forall₂_get.1 hx).2 j.1 a _ h2 (List.getElem?_eq_getElem hj)
              have := isNum_unique hy h3
              simpa [ofRows, List.getD_eq_getElem?_getD, hi, hj] using this
            rw [if_neg (by push Not; exact ⟨hlen, hdl⟩)]
            subst hval
            rw [if_neg ((eigen_iff _).2 hp)]

/-! ### The table -/

/-- The table of the code, sorted by the kind of the settings. -/
theorem mem_settings {s : String × Kind × Option JV} : s ∈ settings ↔
    (s.1 ∈ counts ∧ s.2 = (.int, fallback s.1)) ∨ s = ("chain_batch_size", .int, none) ∨ (s.1 ∈ ["learning_rate", "step_size"] ∧ s.2 = (.num, none)) ∨
      s = ("local_sampler_name", .str, fallback "local_sampler_name") ∨ s = ("mass_matrix", .numOrSeq, fallback "mass_matrix") ∨
      s = ("rq_spline_hidden_units", .list, none) ∨ s = ("rq_spline_range", .tuple, fallback "rq_spline_range") ∨ s = ("verbose", .bool, none) := by
  obtain ⟨name, kind, d⟩ := s
  constructor
  · intro h
    simp only [settings, List.mem_cons, List.not_mem_nil, or_false, Prod.mk.injEq] at h
    rcases h with h | h | h | h | h | h | h | h | h | h | h | h | h | h | h | h | h | h | h | h | h | h | h <;> obtain ⟨rfl, rfl, rfl⟩ := h <;>
      simp [counts, fallback]
  · intro h
    simp only [counts, List.mem_cons, List.not_mem_nil, or_false, Prod.mk.injEq] at h
    rcases h with ⟨h, rfl, rfl⟩ | ⟨rfl, rfl, rfl⟩ | ⟨h, rfl, rfl⟩ | ⟨rfl, rfl, rfl⟩ | ⟨rfl, rfl, rfl⟩ | ⟨rfl, rfl, rfl⟩ | ⟨rfl, rfl, rfl⟩ | ⟨rfl, rfl, rfl⟩
    · rcases h with rfl | rfl | rfl | rfl | rfl | rfl | rfl | rfl | rfl | rfl | rfl | rfl | rfl | rfl | rfl <;> simp [settings, fallback]
    · simp [settings]
    · rcases h with rfl | rfl <;> simp [settings]
    all_goals simp [settings, fallback]

theorem settings_nodup : (settings.map (·.1)).Nodup := by
  have : settings.map (·.1) = ["batch_size", "chain_batch_size", "global_thinning", "learning_rate", "local_thinning", "local_sampler_name", "step_size",
      "mass_matrix", "n_leapfrog", "n_chains", "n_epochs", "n_global_steps", "n_local_steps", "n_max_examples", "history_window", "n_NFproposal_batch_size",
      "n_production_loops", "n_training_loops", "rq_spline_hidden_units", "rq_spline_n_bins", "rq_spline_n_layers", "rq_spline_range", "verbose"] := rfl
  rw [this]
  decide +kernel

theorem settings_default {s : String × Kind × Option JV} (hs : s ∈ settings) : s.2.2 = fallback s.1 := by
  rcases mem_settings.1 hs with ⟨_, h⟩ | rfl | ⟨h1, h⟩ | rfl | rfl | rfl | rfl | rfl
  · rw [h]
  · simp [fallback]
  · rw [h]
    simp only [List.mem_cons, List.not_mem_nil, or_false] at h1
    rcases h1 with h1 | h1 <;> rw [h1] <;> simp [fallback]
  all_goals simp [fallback]

/-- A look-up succeeds with the value of the setting, except that a range has to be something one can iterate over. -/
theorem lookup_ok {cfg : Cfg} {s : String × Kind × Option JV} (hs : s ∈ settings) {v : JV} :
    lookup cfg s = .ok v ↔ Given cfg s.1 v ∧ (s.2.1 = .tuple → ∀ a, v = .atom a → ∃ t, a = .str t) := by
  have hd := settings_default hs
  unfold lookup Given
  cases hg : get? cfg s.1 with
  | none =>
    simp only [reduceCtorEq, false_or, true_and]
    rw [hd]
    have htup : s.2.1 = .tuple → s.1 = "rq_spline_range" := by
      intro ht
      rcases mem_settings.1 hs with ⟨_, h⟩ | rfl | ⟨h1, h⟩ | rfl | rfl | rfl | rfl | rfl
      · rw [h] at ht; cases ht
      · cases ht
      · rw [h] at ht; cases ht
      all_goals first | rfl | cases ht
    cases hdd : fallback s.1 with
    | none => simp
    | some d =>
      simp only [Except.ok.injEq, Option.some.injEq]
      refine ⟨fun h => ⟨h, fun ht a ha => ?_⟩, fun h => h.1⟩
      rw [htup ht] at hdd
      simp only [fallback, Option.some.injEq] at hdd
      rw [← h, ← hdd] at ha
      cases ha
  | some w =>
    simp only [Option.some.injEq, reduceCtorEq, false_and, or_false]
    generalize s.2.1 = k
    cases k with
    | tuple =>
      cases w with
      | atom a =>
        cases a with
        | str t =>
          simp only [Except.ok.injEq]
          refine ⟨fun h => ⟨h, fun _ a ha => ?_⟩, fun h => h.1⟩
          rw [← h] at ha; cases ha; exact ⟨t, rfl⟩
        | _ =>
          simp only [reduceCtorEq, false_iff]
          rintro ⟨h, h2⟩
          obtain ⟨t, ht⟩ := h2 trivial _ h.symm
          cases ht
      | list l => simp only [Except.ok.injEq]; refine ⟨fun h => ⟨h, fun _ a ha => ?_⟩, fun h => h.1⟩; rw [← h] at ha; cases ha
      | object => simp only [Except.ok.injEq]; refine ⟨fun h => ⟨h, fun _ a ha => ?_⟩, fun h => h.1⟩; rw [← h] at ha; cases ha
    | _ => simp

theorem given_unique {cfg : Cfg} {name : String} {v w : JV} (h : Given cfg name v) (h' : Given cfg name w) : v = w := by
  rcases h with h | ⟨h, hd⟩ <;> rcases h' with h' | ⟨h', hd'⟩ <;> rw [h] at h' <;> first | exact Option.some.inj h' | cases h'
  rw [hd] at hd'
  exact Option.some.inj hd'

/-! ### What passes the checks -/

theorem complaint_int {name : String} {d : Option JV} {v : JV} (hn : name ≠ "chain_batch_size") :
    complaint (name, .int, d) v = none ↔ ∃ a k, v = .atom a ∧ IsInt a k ∧ 1 ≤ k := by
  unfold complaint
  cases v with
  | atom a =>
    cases ha : a.int? with
    | some k =>
      simp only [hasKind, ha, Option.isSome_some, Bool.true_eq_false, if_false, belowOne, decide_eq_true_eq, true_and, ne_eq, hn, not_false_eq_true, and_true]
      split_ifs with h
      · simp only [false_iff]
        rintro ⟨a', k', he, hi, hk⟩
        cases he
        rw [int?_iff.2 hi] at ha
        cases ha
        omega
      · simp only [true_iff]
        exact ⟨a, k, rfl, int?_iff.1 ha, by omega⟩
    | none =>
      simp only [hasKind, ha, Option.isSome_none, if_true, reduceCtorEq, false_iff]
      rintro ⟨a', k', he, hi, hk⟩
      cases he
      rw [int?_iff.2 hi] at ha
      cases ha
  | list l => simp [hasKind]
  | object => simp [hasKind]

theorem complaint_chain {d : Option JV} {v : JV} : complaint ("chain_batch_size", .int, d) v = none ↔ ∃ a k, v = .atom a ∧ IsInt a k := by
  unfold complaint
  cases v with
  | atom a =>
    cases ha : a.int? with
    | some k => simpa [hasKind, ha] using ⟨k, int?_iff.1 ha⟩
    | none =>
      simp only [hasKind, ha, Option.isSome_none, if_true, reduceCtorEq, false_iff]
      rintro ⟨a', k', he, hi⟩
      cases he
      rw [int?_iff.2 hi] at ha
      cases ha
  | list l => simp [hasKind]
  | object => simp [hasKind]

theorem complaint_other {name : String} {k : Kind} {d : Option JV} {v : JV} (hk : k ≠ .int) : complaint (name, k, d) v = none ↔ hasKind k v = true := by
  unfold complaint
  cases h : hasKind k v <;> simp [hk]

theorem hasKind_num {v : JV} : hasKind .num v = true ↔ ∃ a x, v = .atom a ∧ IsNum a x := by
  cases v with
  | atom a =>
    have : hasKind .num (.atom a) = a.num?.isSome := by cases a <;> simp [hasKind, Atom.int?, Atom.num?]
    rw [this, Option.isSome_iff_exists]
    simp only [num?_iff, JV.atom.injEq]
    constructor
    · rintro ⟨x, h⟩; exact ⟨a, x, rfl, h⟩
    · rintro ⟨a', x, he, h⟩; exact ⟨x, he ▸ h⟩
  | list l => simp [hasKind]
  | object => simp [hasKind]

theorem unitsOk_iff {v : JV} : unitsOk v = true ↔ ∃ as : List Atom, v = .list (as.map .atom) ∧ ∀ a ∈ as, ∃ k, IsInt a k ∧ 1 ≤ k := by
  cases v with
  | atom a => simp [unitsOk]
  | object => simp [unitsOk]
  | list items =>
    simp only [unitsOk, JV.list.injEq]
    induction items with
    | nil => simp
    | cons i items ih =>
      rw [List.all_cons, Bool.and_eq_true, ih]
      constructor
      · rintro ⟨h, as, rfl, has⟩
        cases i with
        | atom a =>
          cases ha : a.int? with
          | none => simp [ha] at h
          | some k =>
            simp only [ha, decide_eq_true_eq] at h
            refine ⟨a :: as, rfl, ?_⟩
            intro b hb
            rcases List.mem_cons.1 hb with rfl | hb
            · exact ⟨k, int?_iff.1 ha, by omega⟩
            · exact has b hb
        | row _ => simp at h
        | deep => simp at h
      · rintro ⟨as, he, has⟩
        cases as with
        | nil => simp at he
        | cons a as =>
          simp only [List.map_cons, List.cons.injEq] at he
          obtain ⟨rfl, rfl⟩ := he
          obtain ⟨k, hk, h1⟩ := has a (by simp)
          refine ⟨?_, as, rfl, fun b hb => has b (List.mem_cons_of_mem _ hb)⟩
          simp only [int?_iff.2 hk, decide_eq_true_eq]
          omega

theorem toLower_space {c : Char} (h : c.isWhitespace = true) : c.toLower = c := by
  simp only [Char.isWhitespace, Bool.or_eq_true, decide_eq_true_eq] at h
  rcases h with ((rfl | rfl) | rfl) | rfl <;> decide

theorem dropWhile_all {p : Char → Bool} {l r : List Char} (h : ∀ c ∈ l, p c = true) : (l ++ r).dropWhile p = r.dropWhile p := by
  induction l with
  | nil => rfl
  | cons a l ih =>
    rw [List.cons_append, List.dropWhile_cons_of_pos (h a (by simp)), ih fun c hc => h c (List.mem_cons_of_mem _ hc)]

theorem dropWhile_none {p : Char → Bool} {l r : List Char} (hl : l ≠ []) (h : ∀ c ∈ l, p c = false) : (l ++ r).dropWhile p = l ++ r := by
  cases l with
  | nil => exact absurd rfl hl
  | cons a l => rw [List.cons_append, List.dropWhile_cons_of_neg (by simp [h a (by simp)])]

/-- The trimmed, lower-case string is a given name exactly when the string spells that name. -/
theorem normalName_iff {s t : String} (ht : t.toList ≠ []) (hw : ∀ c ∈ t.toList, c.isWhitespace = false) : normalName s = t ↔ Spells s t := by
  unfold normalName
  rw [← String.toList_inj, String.toList_ofList]
  constructor
  · intro h
    refine ⟨s.toList.takeWhile Char.isWhitespace, ((s.toList.dropWhile Char.isWhitespace).reverse.dropWhile Char.isWhitespace).reverse,
      ((s.toList.dropWhile Char.isWhitespace).reverse.takeWhile Char.isWhitespace).reverse, ?_, ?_, h⟩
    · rw [List.append_assoc, ← List.reverse_append, List.takeWhile_append_dropWhile, List.reverse_reverse, List.takeWhile_append_dropWhile]
    · intro c hc
      rcases List.mem_append.1 hc with h | h
      · exact List.all_eq_true.1 List.all_takeWhile c h
      · exact List.all_eq_true.1 List.all_takeWhile c (List.mem_reverse.1 h)
  · rintro ⟨before, core, after, hs, hsp, hc⟩
    have hcore : ∀ c ∈ core, c.isWhitespace = false := by
      intro c hm
      by_contra hcon
      have hl := toLower_space (by simpa using hcon)
      have := hw c.toLower (by rw [← hc]; exact List.mem_map.2 ⟨c, hm, rfl⟩)
      rw [hl] at this
      exact hcon this
    have hne : core ≠ [] := by rintro rfl; exact ht (by simpa using hc.symm)
    rw [hs, List.append_assoc, dropWhile_all fun c h => hsp c (List.mem_append_left _ h), dropWhile_none hne hcore, List.reverse_append,
      dropWhile_all fun c h => hsp c (List.mem_append_right _ (List.mem_reverse.1 h)), ← List.append_nil core.reverse,
      dropWhile_none (by simpa using hne) fun c h => hcore c (List.mem_reverse.1 h), List.append_nil, List.reverse_reverse, hc]

theorem normal_mala {s : String} : normalName s = "mala" ↔ Spells s "mala" := normalName_iff (by decide) (by decide)
theorem normal_hmc {s : String} : normalName s = "hmc" ↔ Spells s "hmc" := normalName_iff (by decide) (by decide)

example : Spells " MALA\n" "mala" := ⟨[' '], ['M', 'A', 'L', 'A'], ['\n'], by decide, by decide, by decide⟩

theorem samplerOk_iff {v : JV} : samplerOk v = true ↔ ∃ s, v = .atom (.str s) ∧ (Spells s "mala" ∨ Spells s "hmc") := by
  cases v with
  | atom a => cases a <;> simp [samplerOk, normal_mala, normal_hmc]
  | list l => simp [samplerOk]
  | object => simp [samplerOk]

/-! ### The whole -/

/-- The look-ups and the validation loop pass exactly when every setting has a value without complaint. -/
theorem loops_ok {cfg : Cfg} : (∃ values, lookups cfg settings = .ok values ∧ validateAll values settings = .ok ()) ↔
    ∀ s ∈ settings, ∃ v, lookup cfg s = .ok v ∧ complaint s v = none := by
  constructor
  · rintro ⟨values, hl, hv⟩ s hs
    have hall := lookups_ok settings_nodup hl
    obtain ⟨v, h1, h2⟩ := hall s hs
    exact ⟨v, h1, (validateAll_ok fun s hs => (hall s hs).imp fun _ h => h.2).1 hv s hs v h2⟩
  · intro h
    obtain ⟨values, hl⟩ := lookups_total (cfg := cfg) (ss := settings) fun s hs => (h s hs).imp fun _ h => h.1
    have hall := lookups_ok settings_nodup hl
    refine ⟨values, hl, (validateAll_ok fun s hs => (hall s hs).imp fun _ h => h.2).2 fun s hs v hv => ?_⟩
    obtain ⟨w, hw, hc⟩ := h s hs
    obtain ⟨w', hw', hg⟩ := hall s hs
    rw [hw] at hw'; cases hw'
    rw [hv] at hg; cases hg
    exact hc

theorem mem_units : (("rq_spline_hidden_units", .list, none) : String × Kind × Option JV) ∈ settings := mem_settings.2 (by simp)
theorem mem_sampler : (("local_sampler_name", .str, fallback "local_sampler_name") : String × Kind × Option JV) ∈ settings := mem_settings.2 (by simp)
theorem mem_mass : (("mass_matrix", .numOrSeq, fallback "mass_matrix") : String × Kind × Option JV) ∈ settings := mem_settings.2 (by simp)

/-- The three settings that are checked further. -/
theorem values_three {cfg : Cfg} {values : Dict String JV} (hl : lookups cfg settings = .ok values) : ∃ units name mass,
    get? values "rq_spline_hidden_units" = some units ∧ get? values "local_sampler_name" = some name ∧ get? values "mass_matrix" = some mass ∧
      Given cfg "rq_spline_hidden_units" units ∧ Given cfg "local_sampler_name" name ∧ Given cfg "mass_matrix" mass := by
  have hall := lookups_ok settings_nodup hl
  obtain ⟨u, hu, hu'⟩ := hall _ mem_units
  obtain ⟨w, hw, hw'⟩ := hall _ mem_sampler
  obtain ⟨m, hm, hm'⟩ := hall _ mem_mass
  exact ⟨u, w, m, hu', hw', hm', ((lookup_ok mem_units).1 hu).1, ((lookup_ok mem_sampler).1 hw).1, ((lookup_ok mem_mass).1 hm).1⟩

theorem configure_ok {n : ℕ} {cfg : Cfg} {c : Config n} (h : configure n cfg = .ok c) : lookups cfg settings = .ok c.values ∧
    validateAll c.values settings = .ok () ∧ (∃ units, Given cfg "rq_spline_hidden_units" units ∧ unitsOk units = true) ∧
    (∃ s, Given cfg "local_sampler_name" (.atom (.str s)) ∧ (Spells s "mala" ∨ Spells s "hmc") ∧ (c.mala = true ↔ Spells s "mala")) ∧
    ∃ mass, Given cfg "mass_matrix" mass ∧ massMatrix n mass = .ok c.mass := by
  unfold configure at h
  cases hl : lookups cfg settings with
  | error e => rw [hl] at h; simp at h
  | ok values =>
    rw [hl] at h
    cases hv : validateAll values settings with
    | error e => simp [hv] at h
    | ok u =>
      obtain ⟨units, name, mass, hu, hn, hm, gu, gn, gm⟩ := values_three hl
      simp only [hv, hu, hn, hm] at h
      split_ifs at h with h1 h2
      cases hM : massMatrix n mass with
      | error e => rw [hM] at h; cases h
      | ok M =>
        rw [hM] at h
        simp only [Except.ok.injEq] at h
        subst h
        simp only [Bool.not_eq_false] at h1 h2
        obtain ⟨s, rfl, hs⟩ := samplerOk_iff.1 h2
        exact ⟨rfl, hv, ⟨units, gu, h1⟩, ⟨s, gn, hs, by simp [isMala, normal_mala]⟩, ⟨mass, gm, hM⟩⟩

theorem configure_total {n : ℕ} {cfg : Cfg} {values : Dict String JV} (hl : lookups cfg settings = .ok values) (hv : validateAll values settings = .ok ())
    {units name mass : JV} {M : Mass n} (gu : Given cfg "rq_spline_hidden_units" units) (gn : Given cfg "local_sampler_name" name)
    (gm : Given cfg "mass_matrix" mass) (h1 : unitsOk units = true) (h2 : samplerOk name = true) (h3 : massMatrix n mass = .ok M) :
    ∃ c, configure n cfg = .ok c ∧ c.mass = M := by
  obtain ⟨units', name', mass', hu, hn, hm, gu', gn', gm'⟩ := values_three hl
  cases given_unique gu gu'
  cases given_unique gn gn'
  cases given_unique gm gm'
  refine ⟨⟨values, M, isMala name⟩, ?_, rfl⟩
  unfold configure
  rw [hl]
  dsimp only
  rw [hv]
  dsimp only
  rw [hu, hn, hm]
  dsimp only
  rw [if_neg (by rw [h1]; decide), if_neg (by rw [h2]; decide), h3]

/-- **C66.**  The settings of the file are accepted exactly when they are fit for use: all counts are given (or have a default) and are integers from one on, the
rates are numbers, the sampler is one of the two that exist, the hidden units are positive integers, and the mass matrix is a positive number, a diagonal of `n`
positive numbers or an `n` by `n` matrix with a positive quadratic form - or a string, see `C66_string_violated`. -/
theorem C66_accepted_iff (n : ℕ) (cfg : Cfg) : (∃ c, configure n cfg = .ok c) ↔ Acceptable n cfg := by
  constructor
  · rintro ⟨c, h⟩
    obtain ⟨hl, hv, ⟨units, gu, h1⟩, ⟨s, gs, hs, _⟩, ⟨mass, gm, hM⟩⟩ := configure_ok h
    have hall := loops_ok.1 ⟨_, hl, hv⟩
    have hmk : hasKind .numOrSeq mass = true := by
      obtain ⟨v, hv, hc⟩ := hall _ mem_mass
      rw [complaint_other (by decide)] at hc
      rwa [given_unique gm ((lookup_ok mem_mass).1 hv).1]
    refine ⟨?_, ?_, ?_, ⟨s, gs, hs⟩, ⟨mass, c.mass, gm, (massMatrix_iff hmk).1 hM⟩, ?_, ?_, ?_⟩
    · intro name hname
      have hs : (name, .int, fallback name) ∈ settings := mem_settings.2 (.inl ⟨hname, rfl⟩)
      obtain ⟨v, hv, hc⟩ := hall _ hs
      rw [complaint_int (by rintro rfl; revert hname; decide +kernel)] at hc
      obtain ⟨a, k, rfl, hi, hk⟩ := hc
      exact ⟨a, k, ((lookup_ok hs).1 hv).1, hi, hk⟩
    · have hs : (("chain_batch_size", .int, none) : String × Kind × Option JV) ∈ settings := mem_settings.2 (by simp)
      obtain ⟨v, hv, hc⟩ := hall _ hs
      rw [complaint_chain] at hc
      obtain ⟨a, k, rfl, hi⟩ := hc
      exact ⟨a, k, ((lookup_ok hs).1 hv).1, hi⟩
    · intro name hname
      have hs : ((name, .num, none) : String × Kind × Option JV) ∈ settings := mem_settings.2 (.inr (.inr (.inl ⟨hname, rfl⟩)))
      obtain ⟨v, hv, hc⟩ := hall _ hs
      rw [complaint_other (by decide), hasKind_num] at hc
      obtain ⟨a, x, rfl, hx⟩ := hc
      exact ⟨a, x, ((lookup_ok hs).1 hv).1, hx⟩
    · obtain ⟨as, rfl, has⟩ := unitsOk_iff.1 h1
      exact ⟨as, gu, has⟩
    · have hs : (("rq_spline_range", .tuple, fallback "rq_spline_range") : String × Kind × Option JV) ∈ settings := mem_settings.2 (by simp)
      obtain ⟨v, hv, hc⟩ := hall _ hs
      obtain ⟨hg, ht⟩ := (lookup_ok hs).1 hv
      exact ⟨v, hg, ht rfl⟩
    · have hs : (("verbose", .bool, none) : String × Kind × Option JV) ∈ settings := mem_settings.2 (by simp)
      obtain ⟨v, hv, hc⟩ := hall _ hs
      rw [complaint_other (by decide)] at hc
      have hg := ((lookup_ok hs).1 hv).1
      cases v with
      | atom a =>
        cases a with
        | bool b => exact ⟨b, hg⟩
        | _ => simp [hasKind] at hc
      | _ => simp [hasKind] at hc
  · intro h
    obtain ⟨s, gs, hs⟩ := h.sampler
    obtain ⟨mass, M, gm, hM⟩ := h.mass
    obtain ⟨as, gu, has⟩ := h.hidden_units
    have hmk : hasKind .numOrSeq mass = true := by
      cases hM with
      | scalar ha _ =>
        cases ha with
        | float => rfl
        | int h => cases h <;> simp [hasKind, Atom.int?]
      | _ => rfl
    have hall : ∀ s ∈ settings, ∃ v, lookup cfg s = .ok v ∧ complaint s v = none := by
      intro s hs
      rcases mem_settings.1 hs with ⟨hname, hd⟩ | rfl | ⟨hname, hd⟩ | rfl | rfl | rfl | rfl | rfl
      · obtain ⟨name, kd⟩ := s
        simp only at hname hd
        subst hd
        obtain ⟨a, k, hg, hi, hk⟩ := h.counts name hname
        exact ⟨.atom a, (lookup_ok hs).2 ⟨hg, by intro h; cases h⟩,
          (complaint_int (by rintro rfl; revert hname; decide +kernel)).2 ⟨a, k, rfl, hi, hk⟩⟩
      · obtain ⟨a, k, hg, hi⟩ := h.chain_batch_size
        exact ⟨.atom a, (lookup_ok hs).2 ⟨hg, by intro h; cases h⟩, complaint_chain.2 ⟨a, k, rfl, hi⟩⟩
      · obtain ⟨name, kd⟩ := s
        simp only at hname hd
        subst hd
        obtain ⟨a, x, hg, hx⟩ := h.rates name hname
        exact ⟨.atom a, (lookup_ok hs).2 ⟨hg, by intro h; cases h⟩, (complaint_other (by decide)).2 (hasKind_num.2 ⟨a, x, rfl, hx⟩)⟩
      · exact ⟨_, (lookup_ok hs).2 ⟨gs, by intro h; cases h⟩, (complaint_other (by decide)).2 rfl⟩
      · exact ⟨_, (lookup_ok hs).2 ⟨gm, by intro h; cases h⟩, (complaint_other (by decide)).2 hmk⟩
      · exact ⟨_, (lookup_ok hs).2 ⟨gu, by intro h; cases h⟩, (complaint_other (by decide)).2 rfl⟩
      · obtain ⟨v, hg, hv⟩ := h.range
        exact ⟨v, (lookup_ok hs).2 ⟨hg, fun _ => hv⟩, (complaint_other (by decide)).2 rfl⟩
      · obtain ⟨b, hg⟩ := h.verbose
        exact ⟨_, (lookup_ok hs).2 ⟨hg, by intro h; cases h⟩, (complaint_other (by decide)).2 rfl⟩
    obtain ⟨values, hl, hv⟩ := loops_ok.2 hall
    obtain ⟨c, hc, _⟩ := configure_total hl hv gu gs gm (unitsOk_iff.2 ⟨as, rfl, has⟩) (samplerOk_iff.2 ⟨s, rfl, hs⟩) ((massMatrix_iff hmk).2 hM)
    exact ⟨c, hc⟩

/-- **C66.**  An accepted run is started with the settings of the file, the defaults where the file is silent, the mass matrix that the setting stands for, and
MALA exactly when the (trimmed, lower-case) name says so. -/
theorem C66_used (n : ℕ) (cfg : Cfg) (c : Config n) (h : configure n cfg = .ok c) :
    (∀ name ∈ counts ++ ["chain_batch_size", "learning_rate", "step_size", "local_sampler_name", "mass_matrix", "rq_spline_hidden_units", "rq_spline_range",
        "verbose"], ∀ v, get? c.values name = some v ↔ Given cfg name v) ∧
      (∃ v, Given cfg "mass_matrix" v ∧ MassOf n v c.mass) ∧
      ∃ s, Given cfg "local_sampler_name" (.atom (.str s)) ∧ (c.mala = true ↔ Spells s "mala") ∧ (c.mala = false ↔ Spells s "hmc") := by
  obtain ⟨hl, hv, ⟨units, gu, h1⟩, ⟨s, gs, hs, hmala⟩, ⟨mass, gm, hM⟩⟩ := configure_ok h
  have hall := lookups_ok settings_nodup hl
  have hloop := loops_ok.1 ⟨_, hl, hv⟩
  refine ⟨?_, ⟨mass, gm, ?_⟩, ⟨s, gs, hmala, ?_⟩⟩
  · intro name hname v
    have : ∃ kd, (name, kd) ∈ settings := by
      rcases List.mem_append.1 hname with hc | ho
      · exact ⟨(.int, fallback name), mem_settings.2 (.inl ⟨hc, rfl⟩)⟩
      · simp only [List.mem_cons, List.not_mem_nil, or_false] at ho
        rcases ho with rfl | rfl | rfl | rfl | rfl | rfl | rfl | rfl
        · exact ⟨(.int, none), mem_settings.2 (by simp)⟩
        · exact ⟨(.num, none), mem_settings.2 (by simp)⟩
        · exact ⟨(.num, none), mem_settings.2 (by simp)⟩
        · exact ⟨(.str, fallback "local_sampler_name"), mem_settings.2 (by simp)⟩
        · exact ⟨(.numOrSeq, fallback "mass_matrix"), mem_settings.2 (by simp)⟩
        · exact ⟨(.list, none), mem_settings.2 (by simp)⟩
        · exact ⟨(.tuple, fallback "rq_spline_range"), mem_settings.2 (by simp)⟩
        · exact ⟨(.bool, none), mem_settings.2 (by simp)⟩
    obtain ⟨kd, hmem⟩ := this
    obtain ⟨w, hw, hg⟩ := hall _ hmem
    have hgw := ((lookup_ok hmem).1 hw).1
    constructor
    · intro hv'
      rw [hg] at hv'
      cases hv'
      exact hgw
    · intro hv'
      rw [given_unique hv' hgw]
      exact hg
  · refine (massMatrix_iff ?_).1 hM
    obtain ⟨v, hv, hc⟩ := hloop _ mem_mass
    rw [complaint_other (by decide)] at hc
    rwa [given_unique gm ((lookup_ok mem_mass).1 hv).1]
  · rw [← Bool.not_eq_true, hmala]
    rw [← normal_mala, ← normal_hmc] at hs ⊢
    rcases hs with hs | hs <;> rw [hs] <;> decide

theorem required_eq : (settings.filter fun s => s.2.2.isNone).map (·.1) = required := rfl

/-- **C66.**  A setting without a default that is missing from the file is a `KeyError`, for the first such setting in the documented order. -/
theorem C66_missing (n : ℕ) (cfg : Cfg) (l t : List String) (name : String) (hr : required = l ++ name :: t) (hl : ∀ m ∈ l, ∃ v, get? cfg m = some v)
    (hm : get? cfg name = none) (hrange : ∀ a, get? cfg "rq_spline_range" = some (.atom a) → ∃ s, a = .str s) : configure n cfg = .error (.key name) := by
  have hname : name ∈ required := by rw [hr]; simp
  suffices h : lookups cfg settings = .error (.key name) by unfold configure; rw [h]
  cases hlk : lookups cfg settings with
  | ok values =>
    exfalso
    have hall := lookups_ok settings_nodup hlk
    rw [← required_eq] at hname
    obtain ⟨s, hs, rfl⟩ := List.mem_map.1 hname
    obtain ⟨hs, hnone⟩ := List.mem_filter.1 hs
    obtain ⟨v, hv, _⟩ := hall s hs
    rcases ((lookup_ok hs).1 hv).1 with h | ⟨_, h⟩
    · rw [hm] at h; cases h
    · rw [← settings_default hs] at h; rw [h] at hnone; cases hnone
  | error e =>
    obtain ⟨l', s, t', hsplit, hl', hs⟩ := lookups_error hlk
    have hmem : s ∈ settings := by rw [hsplit]; simp
    have hkey : e = .key s.1 ∧ get? cfg s.1 = none ∧ s.2.2 = none := by
      unfold lookup at hs
      cases hg : get? cfg s.1 with
      | some v =>
        exfalso
        rw [hg] at hs
        simp only at hs
        have htup : s.2.1 = .tuple → s.1 = "rq_spline_range" := by
          intro ht
          rcases mem_settings.1 hmem with ⟨_, h⟩ | rfl | ⟨h1, h⟩ | rfl | rfl | rfl | rfl | rfl
          · rw [h] at ht; cases ht
          · cases ht
          · rw [h] at ht; cases ht
          all_goals first | rfl | cases ht
        generalize hk : s.2.1 = k at hs
        cases k with
        | tuple =>
          rw [htup hk] at hg
          cases v with
          | atom a =>
            obtain ⟨t, rfl⟩ := hrange a hg
            cases hs
          | list l => cases hs
          | object => cases hs
        | _ => cases hs
      | none =>
        rw [hg] at hs
        cases hd : s.2.2 with
        | some d => rw [hd] at hs; cases hs
        | none => rw [hd] at hs; cases hs; exact ⟨rfl, rfl, rfl⟩
    obtain ⟨rfl, hg, hd⟩ := hkey
    -- both `name` and `s.1` are the first missing one
    have hreq : required = (l'.filter fun s => s.2.2.isNone).map (·.1) ++ s.1 :: (t'.filter fun s => s.2.2.isNone).map (·.1) := by
      rw [← required_eq, hsplit, List.filter_append, List.filter_cons, hd]
      simp
    have hfirst : ∀ m ∈ (l'.filter fun s => s.2.2.isNone).map (·.1), ∃ v, get? cfg m = some v := by
      intro m hm'
      obtain ⟨s', hs', rfl⟩ := List.mem_map.1 hm'
      obtain ⟨hs', hn'⟩ := List.mem_filter.1 hs'
      have hmem' : s' ∈ settings := by rw [hsplit]; simp [hs']
      obtain ⟨v, hv⟩ := hl' s' hs'
      rcases ((lookup_ok hmem').1 hv).1 with h | ⟨_, h⟩
      · exact ⟨v, h⟩
      · rw [← settings_default hmem'] at h; rw [h] at hn'; cases hn'
    generalize (l'.filter fun s => s.2.2.isNone).map (·.1) = p at hreq hfirst
    generalize (t'.filter fun s => s.2.2.isNone).map (·.1) = q at hreq
    rw [hr] at hreq
    rcases List.append_eq_append_iff.1 hreq with ⟨x, hx, hy⟩ | ⟨x, hx, hy⟩
    · cases x with
      | nil => simp at hy; rw [hy.1]
      | cons y x =>
        simp at hy
        obtain ⟨rfl, _⟩ := hy
        obtain ⟨v, hv⟩ := hfirst name (by rw [hx]; simp)
        rw [hm] at hv; cases hv
    · cases x with
      | nil => simp at hy; rw [hy.1]
      | cons y x =>
        simp at hy
        obtain ⟨h1, _⟩ := hy
        obtain ⟨v, hv⟩ := hl s.1 (by rw [hx, h1]; simp)
        rw [hg] at hv; cases hv

theorem typed_iff {s : String × Kind × Option JV} (hs : s ∈ settings) {v : JV} (hr : s.2.1 = .tuple → ∀ a, v = .atom a → ∃ t, a = .str t) :
    hasKind s.2.1 v = true ↔ Typed s.1 v := by
  have hint : ∀ v, hasKind .int v = true ↔ ∃ a k, v = .atom a ∧ IsInt a k := by
    intro v
    cases v with
    | atom a =>
      simp only [hasKind, Option.isSome_iff_exists, int?_iff]
      constructor
      · rintro ⟨k, h⟩; exact ⟨a, k, rfl, h⟩
      · rintro ⟨a', k, he, h⟩; cases he; exact ⟨k, h⟩
    | _ => simp [hasKind]
  unfold Typed
  rcases mem_settings.1 hs with ⟨hname, hd⟩ | rfl | ⟨hname, hd⟩ | rfl | rfl | rfl | rfl | rfl
  · obtain ⟨name, kd⟩ := s
    simp only at hname hd ⊢
    subst hd
    simp only [hint]
    refine ⟨fun h => ⟨fun _ => h, ?_⟩, fun h => h.1 (.inl hname)⟩
    refine ⟨?_, ?_, ?_, ?_, ?_, ?_⟩
    · rintro (rfl | rfl) <;> exact absurd hname (by decide +kernel)
    all_goals rintro rfl; exact absurd hname (by decide +kernel)
  · rw [hint]
    refine ⟨fun h => ⟨fun _ => h, ?_⟩, fun h => h.1 (.inr rfl)⟩
    refine ⟨?_, ?_, ?_, ?_, ?_, ?_⟩ <;> simp
  · obtain ⟨name, kd⟩ := s
    simp only at hname hd ⊢
    subst hd
    simp only [List.mem_cons, List.not_mem_nil, or_false] at hname
    simp only [hasKind_num]
    refine ⟨fun h => ⟨?_, fun _ => h, ?_⟩, fun h => h.2.1 hname⟩
    · intro hc
      exfalso
      rcases hname with rfl | rfl <;> rcases hc with hc | hc <;> revert hc <;> decide +kernel
    · refine ⟨?_, ?_, ?_, ?_, ?_⟩ <;> rintro rfl <;> simp at hname
  · have h0 : "local_sampler_name" ∉ counts := by decide +kernel
    cases v with
    | atom a => cases a <;> simp [hasKind, h0]
    | _ => simp [hasKind]
  · have h0 : "mass_matrix" ∉ counts := by decide +kernel
    cases v with
    | atom a =>
      have : hasKind .numOrSeq (.atom a) = true ↔ (∃ x, IsNum a x) ∨ ∃ s, a = .str s := by
        simp only [← num?_iff]
        cases a <;> simp [hasKind, Atom.int?, Atom.num?]
      rw [this]
      simp [h0]
    | _ => simp [hasKind, h0]
  · have h0 : "rq_spline_hidden_units" ∉ counts := by decide +kernel
    cases v <;> simp [hasKind, h0]
  · have h0 : "rq_spline_range" ∉ counts := by decide +kernel
    have := hr rfl
    cases v with
    | atom a => simpa [hasKind, h0] using this
    | _ => simp [hasKind, h0]
  · have h0 : "verbose" ∉ counts := by decide +kernel
    cases v with
    | atom a => cases a <;> simp [hasKind, h0]
    | _ => simp [hasKind]

/-- **C66.**  Every complaint is justified: a `KeyError` names a setting without a default that the file does not have, a `TypeError` one whose value is not of
the documented type, and a `ValueError` one whose value is of that type and cannot be used. -/
theorem C66_error_justified (n : ℕ) (cfg : Cfg) (e : Err) (h : configure n cfg = .error e) :
    (∃ name ∈ required, e = .key name ∧ get? cfg name = none) ∨
      (∃ name v, e = .type name ∧ Given cfg name v ∧ ¬ Typed name v) ∨ ∃ name v, e = .value name ∧ Given cfg name v ∧ OutOfRange n name v := by
  unfold configure at h
  cases hl : lookups cfg settings with
  | error e' =>
    rw [hl] at h
    simp only [Except.error.injEq] at h
    subst h
    obtain ⟨l', s, t', hsplit, _, hs⟩ := lookups_error hl
    have hmem : s ∈ settings := by rw [hsplit]; simp
    unfold lookup at hs
    cases hg : get? cfg s.1 with
    | none =>
      rw [hg] at hs
      cases hd : s.2.2 with
      | some d => rw [hd] at hs; cases hs
      | none =>
        rw [hd] at hs
        cases hs
        refine .inl ⟨s.1, ?_, rfl, hg⟩
        rw [← required_eq]
        exact List.mem_map_of_mem (List.mem_filter.2 ⟨hmem, by simp [hd]⟩)
    | some v =>
      rw [hg] at hs
      simp only at hs
      have htup : s.2.1 = .tuple → s.1 = "rq_spline_range" := by
        intro ht
        rcases mem_settings.1 hmem with ⟨_, h⟩ | rfl | ⟨h1, h⟩ | rfl | rfl | rfl | rfl | rfl
        · rw [h] at ht; cases ht
        · cases ht
        · rw [h] at ht; cases ht
        all_goals first | rfl | cases ht
      generalize hk : s.2.1 = k at hs
      cases k with
      | tuple =>
        cases v with
        | atom a =>
          cases a with
          | str t => cases hs
          | _ =>
            cases hs
            refine .inr (.inl ⟨s.1, _, rfl, .inl hg, fun ht => ?_⟩)
            obtain ⟨t, ht⟩ := ht.2.2.2.2.2.1 (htup hk) _ rfl
            cases ht
        | list l => cases hs
        | object => cases hs
      | _ => cases hs
  | ok values =>
    rw [hl] at h
    have hall := lookups_ok settings_nodup hl
    cases hv : validateAll values settings with
    | error e' =>
      simp only [hv, Except.error.injEq] at h
      subst h
      obtain ⟨s, hs, v, hgv, hc⟩ := validateAll_error (fun s hs => (hall s hs).imp fun _ h => h.2) hv
      obtain ⟨w, hw, hgw⟩ := hall s hs
      rw [hgv] at hgw; cases hgw
      obtain ⟨hg, ht⟩ := (lookup_ok hs).1 hw
      unfold complaint at hc
      split_ifs at hc with h1 h2
      · cases hc
        refine .inr (.inl ⟨s.1, v, rfl, hg, fun hty => ?_⟩)
        rw [(typed_iff hs ht).2 hty] at h1; cases h1
      · cases hc
        refine .inr (.inr ⟨s.1, v, rfl, hg, ?_⟩)
        have hcount : s.1 ∈ counts := by
          rcases mem_settings.1 hs with ⟨h, _⟩ | rfl | ⟨_, h⟩ | rfl | rfl | rfl | rfl | rfl
          · exact h
          · exact absurd rfl h2.2.2
          · rw [h] at h2; cases h2.1
          all_goals cases h2.1
        cases v with
        | atom a =>
          cases ha : a.int? with
          | none => simp [belowOne, ha] at h2
          | some k =>
            simp only [belowOne, ha, decide_eq_true_eq] at h2
            exact .count hcount (int?_iff.1 ha) h2.2.1
        | _ => simp [belowOne] at h2
    | ok u =>
      obtain ⟨units, name, mass, hu, hn, hm, gu, gn, gm⟩ := values_three hl
      have hok := (validateAll_ok fun s hs => (hall s hs).imp fun _ h => h.2).1 hv
      simp only [hv, hu, hn, hm] at h
      split_ifs at h with h1 h2
      · cases h
        refine .inr (.inr ⟨_, units, rfl, gu, ?_⟩)
        have := hok _ mem_units units hu
        rw [complaint_other (by decide)] at this
        cases units with
        | list l =>
          refine .units fun ⟨as, he, has⟩ => ?_
          rw [unitsOk_iff.2 ⟨as, by rw [he], has⟩] at h1; cases h1
        | _ => simp [hasKind] at this
      · cases h
        refine .inr (.inr ⟨_, name, rfl, gn, ?_⟩)
        have := hok _ mem_sampler name hn
        rw [complaint_other (by decide)] at this
        cases name with
        | atom a =>
          cases a with
          | str s =>
            refine .sampler ?_
            constructor <;> intro hs
            · rw [samplerOk_iff.2 ⟨s, rfl, .inl hs⟩] at h2; cases h2
            · rw [samplerOk_iff.2 ⟨s, rfl, .inr hs⟩] at h2; cases h2
          | _ => simp [hasKind] at this
        | _ => simp [hasKind] at this
      · cases hM : massMatrix n mass with
        | ok M => rw [hM] at h; cases h
        | error e' =>
          rw [hM] at h
          simp only [Except.error.injEq] at h
          subst h
          have := hok _ mem_mass mass hm
          rw [complaint_other (by decide)] at this
          have he : e' = .value "mass_matrix" := by
            unfold massMatrix at hM
            cases mass with
            | atom a =>
              cases ha : a.num? with
              | none => simp [ha] at hM
              | some m =>
                simp only [ha] at hM
                split_ifs at hM
                cases hM; rfl
            | object => cases hM
            | list items =>
              cases hd : vector? items with
              | some d =>
                simp only [hd] at hM
                split_ifs at hM <;> cases hM <;> rfl
              | none =>
                cases hr : rows? items with
                | none => simp only [hd, hr] at hM; cases hM; rfl
                | some rows =>
                  simp only [hd, hr] at hM
                  split_ifs at hM <;> cases hM <;> rfl
          subst he
          refine .inr (.inr ⟨_, mass, rfl, gm, .mass fun ⟨M, hMo⟩ => ?_⟩)
          rw [(massMatrix_iff this).2 hMo] at hM
          cases hM

/-! ### The template -/

/-- The template with another mass matrix. -/
theorem template_acceptable {n : ℕ} {cfg : Cfg} (h : ∀ name, name ≠ "mass_matrix" → get? cfg name = get? template name) {v : JV} {M : Mass n}
    (hv : get? cfg "mass_matrix" = some v) (hM : MassOf n v M) : Acceptable n cfg := by
  have key : ∀ name w, name ≠ "mass_matrix" → get? template name = some w → Given cfg name w := fun name w hn hw => .inl (by rw [h name hn, hw])
  refine ⟨?_, ⟨_, 0, key _ _ (by decide) rfl, .int _⟩, ?_, ⟨"hmc", key _ _ (by decide) rfl, .inr (normal_hmc.1 (by decide +kernel))⟩, ⟨v, M, .inl hv, hM⟩, ?_, ?_,
    ⟨false, key _ _ (by decide) rfl⟩⟩
  · intro name hname
    simp only [counts, List.mem_cons, List.not_mem_nil, or_false] at hname
    rcases hname with rfl | rfl | rfl | rfl | rfl | rfl | rfl | rfl | rfl | rfl | rfl | rfl | rfl | rfl | rfl <;>
      exact ⟨_, _, key _ _ (by decide) rfl, .int _, by decide⟩
  · intro name hname
    simp only [List.mem_cons, List.not_mem_nil, or_false] at hname
    rcases hname with rfl | rfl <;> exact ⟨_, _, key _ _ (by decide) rfl, .float _⟩
  · refine ⟨[.int 128, .int 128], key _ _ (by decide) rfl, ?_⟩
    intro a ha
    simp only [List.mem_cons, List.not_mem_nil, or_false, or_self] at ha
    subst ha
    exact ⟨128, .int _, by decide⟩
  · exact ⟨_, key _ _ (by decide) rfl, by intro a ha; cases ha⟩

/-- **C66.**  The settings written by the template script are accepted in any number of dimensions; they choose HMC with the unit mass matrix. -/
theorem C66_template_accepted (n : ℕ) : ∃ c : Config n, configure n template = .ok c ∧ c.mala = false ∧ c.mass = .matrix 1 := by
  have hM : MassOf n (.atom (.float 1)) (.matrix (fun i j => if i = j then (1 : ℝ) else 0)) := .scalar (.float 1) one_pos
  obtain ⟨c, hc⟩ := (C66_accepted_iff n template).2 (template_acceptable (fun _ _ => rfl) rfl hM)
  obtain ⟨_, ⟨v, hv, hm⟩, s, hs, h1, h2⟩ := C66_used n template c hc
  refine ⟨c, hc, ?_, ?_⟩
  · rw [h2]
    have : JV.atom (.str s) = .atom (.str "hmc") := given_unique hs (.inl rfl)
    cases this
    exact normal_hmc.1 (by decide +kernel)
  · have : v = .atom (.float 1) := given_unique hv (.inl rfl)
    subst this
    generalize hw : JV.atom (.float 1) = w at hm
    generalize hcm : c.mass = m at hm
    cases hm with
    | scalar ha _ =>
      cases hw
      cases ha with
      | float => congr 1
      | int h => cases h
    | string => cases hw
    | diagonal => cases hw
    | full => cases hw

/-- **C66 (violated).**  "The mass matrix is symmetric and positive definite": a full matrix need not be symmetric to be accepted, because the eigenvalues that are
tested are those of its symmetric part.  Here it is `((1, 1), (0, 1))`. -/
theorem C66_asymmetric_violated : ∃ (cfg : Cfg) (c : Config 2) (M : Matrix (Fin 2) (Fin 2) ℝ), configure 2 cfg = .ok c ∧ c.mass = .matrix M ∧ ¬ M.IsSymm := by
  let v : JV := .list ([[.int 1, .int 1], [.int 0, .int 1]].map Item.row)
  let M : Matrix (Fin 2) (Fin 2) ℝ := !![1, 1; 0, 1]
  have hM : MassOf 2 v (.matrix M) := by
    refine .full rfl (by norm_num) (by simp) ?_ ?_
    · intro i j
      have e1 : IsNum (.int 1) 1 := by simpa using IsNum.int (IsInt.int 1)
      have e0 : IsNum (.int 0) 0 := by simpa using IsNum.int (IsInt.int 0)
      fin_cases i <;> fin_cases j <;> refine ⟨_, _, rfl, rfl, ?_⟩ <;> simp [M, e0, e1]
    · intro x hx
      have : ∑ i, ∑ j, x i * M i j * x j = (x 0 + x 1 / 2) ^ 2 + 3 / 4 * x 1 ^ 2 := by
        simp [M, Fin.sum_univ_two]
        ring
      rw [this]
      by_contra hle
      have h1 : x 1 = 0 := by nlinarith [sq_nonneg (x 0 + x 1 / 2), sq_nonneg (x 1)]
      have h0 : x 0 = 0 := by
        rw [h1] at hle
        nlinarith [sq_nonneg (x 0)]
      exact hx (by funext i; fin_cases i <;> simp [h0, h1])
  let cfg : Cfg := PyDict.set template "mass_matrix" v
  have hg : get? cfg "mass_matrix" = some v := get?_set_self _ _ _
  have hne : ∀ name, name ≠ "mass_matrix" → get? cfg name = get? template name := fun name hn => get?_set_ne _ _ hn
  obtain ⟨c, hc⟩ := (C66_accepted_iff 2 cfg).2 (template_acceptable hne hg hM)
  obtain ⟨hl, hv, _, _, ⟨mass, gm, hMass⟩⟩ := configure_ok hc
  have : mass = v := given_unique gm (.inl hg)
  subst this
  rw [(massMatrix_iff rfl).2 hM] at hMass
  refine ⟨cfg, c, M, hc, (Except.ok.inj hMass).symm, ?_⟩
  intro hs
  have := congrFun (congrFun hs 0) 1
  simp [M] at this

/-- **C66 (violated).**  "The mass matrix is a number or an array": a string passes, because a string is a `Sequence`, and is handed on as it is. -/
theorem C66_string_violated : ∃ (cfg : Cfg) (c : Config 3), configure 3 cfg = .ok c ∧ c.mass = .other (.atom (.str "identity")) := by
  let v : JV := .atom (.str "identity")
  have hM : MassOf 3 v (.other v) := .string _
  let cfg : Cfg := PyDict.set template "mass_matrix" v
  have hg : get? cfg "mass_matrix" = some v := get?_set_self _ _ _
  have hne : ∀ name, name ≠ "mass_matrix" → get? cfg name = get? template name := fun name hn => get?_set_ne _ _ hn
  obtain ⟨c, hc⟩ := (C66_accepted_iff 3 cfg).2 (template_acceptable hne hg hM)
  obtain ⟨_, _, _, _, ⟨mass, gm, hMass⟩⟩ := configure_ok hc
  have : mass = v := given_unique gm (.inl hg)
  subst this
  rw [(massMatrix_iff rfl).2 hM] at hMass
  exact ⟨cfg, c, hc, (Except.ok.inj hMass).symm⟩

/-! ### The hypotheses are met -/

/-- The template is accepted in two dimensions, and a diagonal mass matrix is used as given. -/
example : ∃ c : Config 2, configure 2 (PyDict.set template "mass_matrix" (.list ([.int 2, .float (1 / 2)].map Item.atom))) = .ok c := by
  rw [C66_accepted_iff]
  refine template_acceptable (fun name hn => get?_set_ne _ _ hn) (get?_set_self _ _ _) (M := .matrix (fun i j => if i = j then ![2, 1 / 2] i else 0)) ?_
  refine .diagonal rfl ?_ ?_
  · intro i
    fin_cases i
    · exact ⟨_, rfl, by simpa using IsNum.int (IsInt.int 2)⟩
    · exact ⟨_, rfl, by simpa using IsNum.float (1 / 2)⟩
  · intro i
    fin_cases i <;> simp

/-- An empty file: the first complaint is about the batch size. -/
example : configure 3 [] = .error (.key "batch_size") := C66_missing 3 [] [] _ "batch_size" rfl (by simp) rfl (by intro a h; cases h)

/-- `n_chains = 0` is a `ValueError`; so the hypothesis of `C66_error_justified` is met. -/
example : configure 3 (PyDict.set template "n_chains" (.atom (.int 0))) = .error (.value "n_chains") := by
  unfold configure
  simp [lookups, lookup, settings, template, PyDict.set, get?, validateAll, hasKind, Atom.int?, belowOne]

end GW.Settings
