import Verif.Spec.Ppd
import Verif.Lemmas.PyDict
import Mathlib.Tactic.Ring

/-! Lemmas about `wipe_log_rate` and the marginals. -/

namespace GW.Ppd
open PyDict (Dict get?)
open GW.Tools (Err)

variable {V : Type}

/-! ## Keeping columns -/

def keep : (Nat → Bool) → List V → List V
  | _, [] => []
  | P, a :: l => if P 0 then a :: keep (fun i => P (i + 1)) l else keep (fun i => P (i + 1)) l

theorem keep_eq (P : Nat → Bool) (l : List V) : keep P l = (l.zipIdx.filter fun p => P p.2).map (·.1) := by
  induction l generalizing P with
  | nil => rfl
  | cons a l ih =>
    rw [keep, List.zipIdx_cons, List.zipIdx_succ, List.filter_cons, List.filter_map, ih]
    split_ifs <;> simp [Function.comp_def]

theorem keep_eraseIdx (P Q : Nat → Bool) (i : Nat) (l : List V) (hi : Q i = false) (h1 : ∀ j < i, Q j = P j)
    (h2 : ∀ j ≥ i, Q (j + 1) = P j) : keep P (l.eraseIdx i) = keep Q l := by
  induction l generalizing i P Q with
  | nil => rfl
  | cons a l ih =>
    cases i with
    | zero =>
      have : P = fun j => Q (j + 1) := by funext j; exact (h2 j (Nat.zero_le j)).symm
      subst this
      simp [keep, hi]
    | succ i =>
      rw [List.eraseIdx_cons_succ, keep, keep, h1 0 (by omega)]
      have := ih (fun j => P (j + 1)) (fun j => Q (j + 1)) i hi (fun j hj => h1 (j + 1) (by omega))
        (fun j hj => h2 (j + 1) (by omega))
      rw [this]

theorem keep_true (l : List V) (P : Nat → Bool) (h : ∀ i, P i = true) : keep P l = l := by
  induction l generalizing P with
  | nil => rfl
  | cons a l ih => rw [keep, h 0, ih _ (fun i => h (i + 1))]; rfl

theorem getElem?_eraseIdx_shift (l : List V) (i x : Nat) (h : x ≠ i) :
    (l.eraseIdx i)[if x > i then x - 1 else x]? = l[x]? := by
  rw [List.getElem?_eraseIdx]
  split_ifs with h1 h2 h2
  · omega
  · rw [show x - 1 + 1 = x by omega]
  · rfl
  · omega

/-! ## Dictionaries -/

theorem get?_filter_ne (d : Dict String Nat) (key n : String) :
    get? (d.filter fun p => p.1 ≠ key) n = if n = key then none else get? d n := by
  induction d with
  | nil => simp [get?]
  | cons p d ih =>
    by_cases hp : p.1 = key
    · rw [List.filter_cons_of_neg (by simpa using hp), ih, get?]
      split_ifs with h1 h2 h2
      · rfl
      · exact absurd (h2.symm.trans hp) h1
      · rfl
    · rw [List.filter_cons_of_pos (by simpa using hp), get?, get?, ih]
      split_ifs with h1 <;> first | rfl | (exact absurd (h1.trans ‹n = key›) hp)

theorem get?_map_val (d : Dict String Nat) (f : Nat → Nat) (n : String) :
    get? (d.map fun p => (p.1, f p.2)) n = (get? d n).map f := by
  induction d with
  | nil => rfl
  | cons p d ih => rw [List.map_cons, get?, get?, ih]; split_ifs <;> rfl

/-- A rate name does not share its column, and all columns exist. -/
structure Good (width : Nat) (mapping : Dict String Nat) : Prop where
  bound : ∀ n x, get? mapping n = some x → x < width
  sep : ∀ r n x, isRate r = true → get? mapping r = some x → get? mapping n = some x → n = r

/-- The indices of rate names. -/
def RateIdx (mapping : Dict String Nat) (x : Nat) : Prop := ∃ r, isRate r = true ∧ get? mapping r = some x

open Classical in
theorem wipeLoop_spec (zero : V) (ks : List String) (width : Nat) (rows : List (List V)) (mapping : Dict String Nat)
    (constants : Dict String V) (hg : Good width mapping) (hks : ks.Nodup)
    (hmem : ∀ n, isRate n = true → (n ∈ ks ↔ (get? mapping n).isSome)) :
    ∃ width' rows' mapping' constants',
      wipeLoop zero ks (width, rows, mapping, constants) = .ok (width', rows', mapping', constants') ∧
      (∀ n, isRate n = true → get? mapping' n = none) ∧
      (∀ n, isRate n = false → (get? mapping' n).isSome = (get? mapping n).isSome) ∧
      rows' = rows.map (keep fun x => decide (¬ RateIdx mapping x)) ∧
      (∀ n x y, get? mapping' n = some y → get? mapping n = some x → ∀ row : List V,
        (keep (fun x => decide (¬ RateIdx mapping x)) row)[y]? = row[x]?) ∧
      (∀ n, isRate n = true → (get? mapping n).isSome → get? constants' n = some zero) ∧
      (∀ n, ¬ (isRate n = true ∧ (get? mapping n).isSome) → get? constants' n = get? constants n) := by
  induction ks generalizing width rows mapping constants with
  | nil =>
    have hnone : ∀ n, isRate n = true → get? mapping n = none := by
      intro n hn
      have := (hmem n hn)
      simp only [List.not_mem_nil, false_iff, Option.not_isSome_iff_eq_none] at this
      exact this
    have hk : ∀ row : List V, keep (fun x => decide (¬ RateIdx mapping x)) row = row := by
      intro row
      apply keep_true
      intro i
      rw [decide_eq_true_eq]
      rintro ⟨r, hr, hx⟩
      rw [hnone r hr] at hx
      cases hx
    refine ⟨width, rows, mapping, constants, rfl, hnone, fun _ _ => rfl, ?_, ?_, ?_, fun _ _ => rfl⟩
    · rw [List.map_congr_left (fun row _ => hk row)]; simp
    · intro n x y h1 h2 row
      rw [h1] at h2
      cases h2
      rw [hk]
    · intro n hn h
      rw [hnone n hn] at h
      simp at h
  | cons key ks ih =>
    have hknd := List.nodup_cons.1 hks
    rw [wipeLoop]
    by_cases hrate : isRate key = true
    · obtain ⟨index, hidx⟩ := Option.isSome_iff_exists.1 ((hmem key hrate).1 (by simp))
      have hb := hg.bound key index hidx
      have hstep : wipeStep zero key (width, rows, mapping, constants) =
          .ok (width - 1, rows.map (·.eraseIdx index),
            (mapping.filter fun p => p.1 ≠ key).map fun p => (p.1, if p.2 > index then p.2 - 1 else p.2),
            PyDict.set constants key zero) := by
        simp only [wipeStep, hrate, if_true, hidx, deleteColumn, hb]
      rw [hstep]
      simp only
      have hget : ∀ n, get? ((mapping.filter fun p => p.1 ≠ key).map fun p => (p.1, if p.2 > index then p.2 - 1 else p.2)) n =
          if n = key then none else (get? mapping n).map fun x => if x > index then x - 1 else x := by
        intro n
        rw [get?_map_val _ (fun x => if x > index then x - 1 else x), get?_filter_ne]
        split_ifs <;> rfl
      set mapping1 := (mapping.filter fun p => p.1 ≠ key).map fun p => (p.1, if p.2 > index then p.2 - 1 else p.2) with hm1
      have hne : ∀ n x, n ≠ key → get? mapping n = some x → x ≠ index := by
        intro n x hn hx hc
        subst hc
        exact hn (hg.sep key n _ hrate hidx hx)
      have hinv : ∀ n y, get? mapping1 n = some y → n ≠ key ∧ ∃ x, get? mapping n = some x ∧ x ≠ index ∧
          y = if x > index then x - 1 else x := by
        intro n y hy
        rw [hget] at hy
        split_ifs at hy with hn
        obtain ⟨x, hx, rfl⟩ := Option.map_eq_some_iff.1 hy
        exact ⟨hn, x, hx, hne n x hn hx, rfl⟩
      have hg1 : Good (width - 1) mapping1 := by
        constructor
        · intro n y hy
          obtain ⟨_, x, hx, hxi, rfl⟩ := hinv n y hy
          have := hg.bound n x hx
          split_ifs <;> omega
        · intro r n y hr h1 h2
          obtain ⟨hrk, x, hx, hxi, e1⟩ := hinv r y h1
          obtain ⟨hnk, x', hx', hxi', e2⟩ := hinv n y h2
          have : x = x' := by
            rw [e1] at e2
            split_ifs at e2 <;> omega
          subst this
          exact hg.sep r n x hr hx hx'
      have hmem1 : ∀ n, isRate n = true → (n ∈ ks ↔ (get? mapping1 n).isSome) := by
        intro n hn
        rw [hget]
        by_cases hnk : n = key
        · subst hnk; simp [hknd.1]
        · have := hmem n hn
          simp only [List.mem_cons, hnk, false_or] at this
          rw [this, if_neg hnk, Option.isSome_map]
      obtain ⟨w', r', m', c', e, a1, a2, a3, a4, a5, a6⟩ := ih (width - 1) (rows.map (·.eraseIdx index)) mapping1
        (PyDict.set constants key zero) hg1 hknd.2 hmem1
      have hkeep : ∀ row : List V, keep (fun x => decide (¬ RateIdx mapping1 x)) (row.eraseIdx index) =
          keep (fun x => decide (¬ RateIdx mapping x)) row := by
        intro row
        apply keep_eraseIdx
        · rw [decide_eq_false_iff_not, not_not]; exact ⟨key, hrate, hidx⟩
        · intro j hj
          congr 1
          rw [eq_iff_iff, not_iff_not]
          constructor
          · rintro ⟨r, hr, hx⟩
            refine ⟨r, hr, ?_⟩
            have : r ≠ key := by rintro rfl; rw [hidx] at hx; cases hx; omega
            rw [hget, if_neg this, hx, Option.map_some, if_neg (by omega)]
          · rintro ⟨r, hr, hx⟩
            obtain ⟨_, x, hx, hxi, e⟩ := hinv r j hx
            refine ⟨r, hr, ?_⟩
            have : x = j := by split_ifs at e <;> omega
            rw [← this]; exact hx
        · intro j hj
          congr 1
          rw [eq_iff_iff, not_iff_not]
          constructor
          · rintro ⟨r, hr, hx⟩
            refine ⟨r, hr, ?_⟩
            have : r ≠ key := by rintro rfl; rw [hidx] at hx; cases hx; omega
            rw [hget, if_neg this, hx, Option.map_some, if_pos (by omega)]; rfl
          · rintro ⟨r, hr, hx⟩
            obtain ⟨_, x, hx, hxi, e⟩ := hinv r j hx
            refine ⟨r, hr, ?_⟩
            have : x = j + 1 := by split_ifs at e <;> omega
            rw [← this]; exact hx
      refine ⟨w', r', m', c', e, a1, ?_, ?_, ?_, ?_, ?_⟩
      · intro n hn
        rw [a2 n hn, hget]
        have : n ≠ key := by rintro rfl; rw [hrate] at hn; cases hn
        rw [if_neg this, Option.isSome_map]
      · rw [a3, List.map_map]
        apply List.map_congr_left
        intro row _
        exact hkeep row
      · intro n x y hy hx row
        rw [← hkeep]
        have hsome : (get? mapping1 n).isSome := by
          by_cases hn : isRate n = true
          · rw [a1 n hn] at hy; cases hy
          · rw [← a2 n (by simpa using hn), hy]; rfl
        obtain ⟨x1, hx1⟩ := Option.isSome_iff_exists.1 hsome
        rw [a4 n x1 y hy hx1]
        obtain ⟨_, x2, hx2, hxi, e1⟩ := hinv n x1 hx1
        rw [hx] at hx2
        cases hx2
        rw [e1, getElem?_eraseIdx_shift _ _ _ hxi]
      · intro n hn hs
        by_cases hk : n = key
        · subst hk
          rw [a6]
          · exact PyDict.get?_set_self _ _ _
          · rw [hget]; simp
        · exact a5 n hn (by rw [hget, if_neg hk, Option.isSome_map]; exact hs)
      · intro n hn
        rw [a6]
        · have : n ≠ key := by
            rintro rfl
            exact hn ⟨hrate, by rw [hidx]; rfl⟩
          exact PyDict.get?_set_ne _ _ this
        · rw [hget]
          rintro ⟨h1, h2⟩
          split_ifs at h2 with hk
          · simp at h2
          · rw [Option.isSome_map] at h2
            exact hn ⟨h1, h2⟩
    · have hstep : wipeStep zero key (width, rows, mapping, constants) = .ok (width, rows, mapping, constants) := by
        simp [wipeStep, hrate]
      rw [hstep]
      refine ih width rows mapping constants hg hknd.2 ?_
      intro n hn
      rw [← hmem n hn, List.mem_cons]
      have : n ≠ key := by rintro rfl; exact hrate hn
      simp [this]

/-! ## Marginals -/

/-- The indices of the axes left after axes `0, …, i-1` except `k` are integrated out of `P + 1`. -/
def left (k i P : Nat) (σ : Nat → Nat) : List Nat :=
  (if k < i then [σ k] else []) ++ (List.range' i (P + 1 - i)).map σ

theorem left_insert (k i P : Nat) (hi : i < P) (hk : i ≠ k) (σ : Nat → Nat) (t : Nat) :
    (left k (i + 1) P σ).insertIdx (i - (if k < i then i - 1 else i)) t = left k i P (Function.update σ i t) := by
  have hr : List.range' i (P + 1 - i) = i :: List.range' (i + 1) (P + 1 - (i + 1)) := by
    rw [show P + 1 - i = (P + 1 - (i + 1)) + 1 by omega, List.range'_succ]
  have hmap : (List.range' (i + 1) (P + 1 - (i + 1))).map (Function.update σ i t) =
      (List.range' (i + 1) (P + 1 - (i + 1))).map σ := by
    apply List.map_congr_left
    intro x hx
    rw [List.mem_range'_1] at hx
    exact Function.update_of_ne (by omega) _ _
  unfold left
  rw [hr, List.map_cons, Function.update_self, hmap]
  by_cases hlt : k < i
  · rw [if_pos (by omega), if_pos hlt, if_pos hlt, show i - (i - 1) = 1 by omega, Function.update_of_ne (by omega)]
    simp
  · rw [if_neg (by omega), if_neg hlt, if_neg hlt, Nat.sub_self]
    simp

theorem left_self (k P : Nat) (hk : k < P) (σ : Nat → Nat) : left k (k + 1) P σ = left k k P σ := by
  unfold left
  rw [if_pos (by omega), if_neg (by omega), show P + 1 - k = (P + 1 - (k + 1)) + 1 by omega, List.range'_succ]
  simp

/-- Shape counterpart of `left`. -/
theorem marginalLoop_spec (k P : Nat) (pts : Nat → Nat) (ds : List Domain) (i : Nat) (hP : i + ds.length = P)
    (hpts : ∀ n, ∀ h : n < ds.length, pts (i + n) = ds[n].points) (y : Arr) (F : (Nat → Nat) → ℝ)
    (hshape : y.shape = left k i P pts) (hval : ∀ σ, y.val (left k i P σ) = F σ) :
    ∃ y', marginalLoop k ds i (if k < i then i - 1 else i) y = .ok y' ∧ y'.shape = left k P P pts ∧
      ∀ σ, y'.val (left k P P σ) =
        (ds.zipIdx i).foldl (fun F p => if p.2 = k then F else fun σ => trapz p.1 fun t => F (Function.update σ p.2 t)) F σ := by
  induction ds generalizing i y F with
  | nil =>
    simp only [List.length_nil, Nat.add_zero] at hP
    subst hP
    exact ⟨y, rfl, hshape, hval⟩
  | cons d ds ih =>
    rw [List.length_cons] at hP
    have hpts' : ∀ n, ∀ h : n < ds.length, pts (i + 1 + n) = ds[n].points := by
      intro n h
      have := hpts (n + 1) (by simp; omega)
      rw [show i + 1 + n = i + (n + 1) by ring, this]
      simp
    rw [marginalLoop, List.zipIdx_cons, List.foldl_cons]
    by_cases hk : i = k
    · subst hk
      simp only [if_true]
      have hj : (if i < i then i - 1 else i) = (if i < i + 1 then i + 1 - 1 else i + 1) := by
        rw [if_neg (by omega), if_pos (by omega)]; omega
      rw [hj]
      exact ih (i + 1) (by omega) hpts' y F (by rw [hshape, left_self i P (by omega)])
        (fun σ => by rw [left_self i P (by omega)]; exact hval σ)
    · rw [if_neg hk]
      have hp0 := hpts 0 (by simp)
      simp only [Nat.add_zero, List.getElem_cons_zero] at hp0
      have hax : y.shape[i - (if k < i then i - 1 else i)]? = some d.points := by
        rw [hshape, ← hp0]
        unfold left
        have hr : List.range' i (P + 1 - i) = i :: List.range' (i + 1) (P + 1 - (i + 1)) := by
          rw [show P + 1 - i = (P + 1 - (i + 1)) + 1 by omega, List.range'_succ]
        rw [hr]
        by_cases hlt : k < i
        · rw [if_pos hlt, if_pos hlt, show i - (i - 1) = 1 by omega]; rfl
        · rw [if_neg hlt, if_neg hlt, Nat.sub_self]; rfl
      rw [trapezoid, if_pos hax]
      simp only [hk, if_false]
      have hj : (if k < i then i - 1 else i) + 1 = (if k < i + 1 then i + 1 - 1 else i + 1) := by
        by_cases hlt : k < i
        · rw [if_pos hlt, if_pos (by omega)]; omega
        · rw [if_neg hlt, if_neg (by omega)]
      rw [hj]
      refine ih (i + 1) (by omega) hpts' _ _ ?_ ?_
      · simp only
        rw [hshape]
        have := left_insert k i P (by omega) hk pts (pts i)
        rw [Function.update_eq_self] at this
        rw [← this, List.eraseIdx_insertIdx_self]
      · intro σ
        simp only
        congr 1
        funext t
        rw [left_insert k i P (by omega) hk, hval]

/-! ## The flattened grid -/

theorem length_mesh (ds : List Domain) : (mesh ds).length = (ds.map Domain.points).prod := by
  induction ds with
  | nil => rfl
  | cons d ds ih =>
    rw [mesh, List.length_flatten, List.map_map, List.map_cons, List.prod_cons]
    have : ((List.range d.points).map (List.length ∘ fun i => (mesh ds).map fun x => d.at i :: x)) =
        List.replicate d.points (ds.map Domain.points).prod := by
      rw [List.eq_replicate_iff]
      refine ⟨by simp, ?_⟩
      intro b hb
      obtain ⟨i, _, rfl⟩ := List.mem_map.1 hb
      simp [ih]
    rw [this]; simp

theorem getElem?_flatten_const {α} (n m : Nat) (f : Nat → List α) (hf : ∀ i, (f i).length = m) (i j : Nat) (hi : i < n) (hj : j < m) :
    (((List.range n).map f).flatten)[i * m + j]? = (f i)[j]? := by
  induction n with
  | zero => omega
  | succ n ih =>
    rw [List.range_succ, List.map_append, List.flatten_append, List.map_cons, List.map_nil, List.flatten_cons,
      List.flatten_nil, List.append_nil]
    have hlen : (((List.range n).map f).flatten).length = n * m := by
      rw [List.length_flatten, List.map_map]
      have : (List.range n).map (List.length ∘ f) = List.replicate n m := by
        rw [List.eq_replicate_iff]
        refine ⟨by simp, ?_⟩
        intro b hb
        obtain ⟨i, _, rfl⟩ := List.mem_map.1 hb
        exact hf i
      rw [this]; simp
    by_cases h : i < n
    · rw [List.getElem?_append_left, ih h]
      rw [hlen]
      calc i * m + j < i * m + m := by omega
        _ = (i + 1) * m := by ring
        _ ≤ n * m := Nat.mul_le_mul_right m h
    · have : i = n := by omega
      subst this
      rw [List.getElem?_append_right (by omega), hlen, Nat.add_sub_cancel_left]

theorem ravel_lt (shape idx : List Nat) (h : List.Forall₂ (· < ·) idx shape) : ravel shape idx < shape.prod := by
  induction h with
  | nil => simp [ravel]
  | @cons i n idx shape hi h ih =>
    rw [ravel, List.prod_cons]
    calc i * shape.prod + ravel shape idx < i * shape.prod + shape.prod := by omega
      _ = (i + 1) * shape.prod := by ring
      _ ≤ n * shape.prod := Nat.mul_le_mul_right _ hi

theorem mesh_ravel (ds : List Domain) (off : Nat) (σ : Nat → Nat)
    (h : ∀ n, ∀ hn : n < ds.length, σ (off + n) < ds[n].points) :
    (mesh ds)[ravel (ds.map Domain.points) ((List.range' off ds.length).map σ)]? =
      some ((ds.zipIdx off).map fun p => p.1.at (σ p.2)) := by
  have hall : ∀ (ds : List Domain) (off : Nat), (∀ n, ∀ hn : n < ds.length, σ (off + n) < ds[n].points) →
      List.Forall₂ (· < ·) ((List.range' off ds.length).map σ) (ds.map Domain.points) := by
    intro ds
    induction ds with
    | nil => intro off _; simp
    | cons d ds ih =>
      intro off h
      rw [List.length_cons, List.range'_succ, List.map_cons, List.map_cons]
      refine List.Forall₂.cons (h 0 (by simp)) (ih (off + 1) ?_)
      intro n hn
      have := h (n + 1) (by simp; omega)
      rw [show off + 1 + n = off + (n + 1) by ring]
      simpa using this
  induction ds generalizing off with
  | nil => rfl
  | cons d ds ih =>
    have htail : ∀ n, ∀ hn : n < ds.length, σ (off + 1 + n) < ds[n].points := by
      intro n hn
      have := h (n + 1) (by simp; omega)
      rw [show off + 1 + n = off + (n + 1) by ring]
      simpa using this
    rw [List.length_cons, List.range'_succ, List.map_cons, List.map_cons, ravel, mesh,
      getElem?_flatten_const d.points (ds.map Domain.points).prod _ (fun i => by simp [length_mesh]) _ _
        (show σ off < d.points from h 0 (by simp)) (ravel_lt _ _ (hall ds (off + 1) htail)),
      List.getElem?_map, ih (off + 1) htail, List.zipIdx_cons]
    rfl

end GW.Ppd
