import Verif.Model.HybridAnalyses
import Verif.Lemmas.PyDict
import Verif.Lemmas.Names

/-! Helper lemmas on the construction of the hybrid models. -/

namespace GW.Hybrids
open GW.PyDict

theorem mapM_ok_iff {α β ε : Type} (f : α → Except ε β) (xs : List α) (ys : List β) :
    xs.mapM f = .ok ys ↔ List.Forall₂ (fun x y => f x = .ok y) xs ys := by
  induction xs generalizing ys with
  | nil =>
    simp only [List.mapM_nil, pure, Except.pure, Except.ok.injEq, List.forall₂_nil_left_iff]
    exact eq_comm
  | cons x xs ih =>
    rw [List.mapM_cons]
    simp only [bind, Except.bind, pure, Except.pure]
    cases hx : f x with
    | error e =>
      simp only [reduceCtorEq, false_iff]
      intro h
      cases h with
      | cons h1 _ => rw [hx] at h1; simp at h1
    | ok y =>
      simp only
      cases hm : xs.mapM f with
      | error e =>
        simp only [reduceCtorEq, false_iff]
        intro h
        cases h with
        | cons h1 h2 =>
          rw [(ih _).2 h2] at hm
          exact absurd hm (by simp)
      | ok zs =>
        simp only [Except.ok.injEq]
        constructor
        · rintro rfl
          exact .cons hx ((ih _).1 hm)
        · intro h
          cases h with
          | cons h1 h2 =>
            rw [hx] at h1
            rw [(ih _).2 h2] at hm
            injection h1 with h1; injection hm with hm
            rw [h1, hm]

theorem mapM_error {α β ε : Type} (f : α → Except ε β) (xs : List α) (e : ε) (h : xs.mapM f = .error e) :
    ∃ x ∈ xs, f x = .error e := by
  induction xs with
  | nil => simp [pure, Except.pure] at h
  | cons x xs ih =>
    rw [List.mapM_cons] at h
    simp only [bind, Except.bind, pure, Except.pure] at h
    cases hx : f x with
    | error e' => rw [hx] at h; injection h with h; exact ⟨x, by simp, h ▸ hx⟩
    | ok y =>
      rw [hx] at h
      simp only at h
      cases hm : xs.mapM f with
      | error e' =>
        rw [hm] at h; injection h with h
        obtain ⟨x', h1, h2⟩ := ih (h ▸ hm)
        exact ⟨x', by simp [h1], h2⟩
      | ok zs => rw [hm] at h; exact absurd h (by simp)

theorem mapM_exists {α β ε : Type} (f : α → Except ε β) (xs : List α) (h : ∀ x ∈ xs, ∃ y, f x = .ok y) :
    ∃ ys, xs.mapM f = .ok ys := by
  cases hm : xs.mapM f with
  | ok ys => exact ⟨ys, rfl⟩
  | error e =>
    obtain ⟨x, h1, h2⟩ := mapM_error f xs e hm
    obtain ⟨y, hy⟩ := h x h1
    rw [hy] at h2; exact absurd h2 (by simp)

/-- A loop over `range N`. -/
theorem mapM_range {β ε : Type} (f : Nat → Except ε β) (N : Nat) (ys : List β) (h : (List.range N).mapM f = .ok ys) :
    ys.length = N ∧ ∀ i, i < N → ∃ y, ys[i]? = some y ∧ f i = .ok y := by
  have h' := (mapM_ok_iff _ _ _).1 h
  have hl := h'.length_eq
  simp only [List.length_range] at hl
  refine ⟨hl.symm, fun i hi => ?_⟩
  have := List.forall₂_iff_get.1 h'
  have h2 := this.2 i (by simpa using hi) (by omega)
  refine ⟨ys[i]'(by omega), by simp [hl ▸ hi], ?_⟩
  simpa using h2

theorem getParameter_ok {params : Dict String ℝ} {ni n : String} {mode : Mode} {v : Option ℝ}
    (h : getParameter params [ni, n] mode = .ok v) :
    v = (match get? params ni with
      | some x => some x
      | none => match get? params n with
        | some x => some x
        | none => match (generalizing := false) mode with
          | .default k => some (k : ℝ)
          | _ => none) ∧
    (mode = .necessary → ∃ x, v = some x) := by
  unfold getParameter fetchFirst fetchFirst fetchFirst at h
  cases h1 : get? params ni with
  | some x =>
    rw [h1] at h
    simp only [Except.ok.injEq] at h
    exact ⟨h.symm, fun _ => ⟨x, h.symm⟩⟩
  | none =>
    rw [h1] at h
    cases h2 : get? params n with
    | some x =>
      rw [h2] at h
      simp only [Except.ok.injEq] at h
      exact ⟨h.symm, fun _ => ⟨x, h.symm⟩⟩
    | none =>
      rw [h2] at h
      cases mode <;> simp only [Except.ok.injEq, reduceCtorEq] at h
      · exact ⟨h.symm, by simp⟩
      · exact ⟨h.symm, by simp⟩

theorem getParameter_error {params : Dict String ℝ} {ni n : String} {mode : Mode} {e : Err}
    (h : getParameter params [ni, n] mode = .error e) :
    e = .valueError ni ∧ get? params ni = none ∧ get? params n = none ∧ mode = .necessary := by
  unfold getParameter fetchFirst fetchFirst fetchFirst at h
  cases h1 : get? params ni with
  | some x => rw [h1] at h; simp at h
  | none =>
    rw [h1] at h
    cases h2 : get? params n with
    | some x => rw [h2] at h; simp at h
    | none =>
      rw [h2] at h
      cases mode <;> simp at h
      exact ⟨h.symm, rfl, rfl, rfl⟩

theorem makeFactor_ok {params : Dict String ℝ} {mk : Maker} {i : Nat} {f : Factor} (h : makeFactor params mk i = .ok f) :
    f.cls = mk.cls ∧ f.quantities = mk.quantities ∧ List.Forall₂ (fun r a => readArg params i r = .ok a) mk.reads f.args := by
  unfold makeFactor at h
  cases hm : mk.reads.mapM (readArg params i) with
  | error e => rw [hm] at h; simp at h
  | ok args =>
    rw [hm] at h
    simp only [Except.ok.injEq] at h
    subst h
    exact ⟨rfl, rfl, (mapM_ok_iff _ _ _).1 hm⟩

theorem makeFactor_error {params : Dict String ℝ} {mk : Maker} {i : Nat} {e : Err} (h : makeFactor params mk i = .error e) :
    ∃ r ∈ mk.reads, r.mode = .necessary ∧ e = .valueError (r.base ++ "_" ++ toString i) ∧
      get? params (r.base ++ "_" ++ toString i) = none ∧ get? params r.base = none := by
  unfold makeFactor at h
  cases hm : mk.reads.mapM (readArg params i) with
  | ok args => rw [hm] at h; simp at h
  | error e' =>
    rw [hm] at h
    simp only [Except.error.injEq] at h
    subst h
    obtain ⟨r, hr, hf⟩ := mapM_error _ _ _ hm
    unfold readArg at hf
    cases hg : getParameter params [r.base ++ "_" ++ toString i, r.base] r.mode with
    | ok v => rw [hg] at hf; simp at hf
    | error e'' =>
      rw [hg] at hf
      simp only [Except.error.injEq] at hf
      subst hf
      obtain ⟨a, b, c, d⟩ := getParameter_error hg
      exact ⟨r, hr, d, a, b, c⟩

theorem create_ok {N : Nat} {params : Dict String ℝ} {mk : Maker} {ds : List Factor} (h : create N params mk = .ok ds) :
    ds.length = N ∧ ∀ i, i < N → ∃ f, ds[i]? = some f ∧ makeFactor params mk i = .ok f :=
  mapM_range _ _ _ h

theorem create_error {N : Nat} {params : Dict String ℝ} {mk : Maker} {e : Err} (h : create N params mk = .error e) :
    ∃ r ∈ mk.reads, ∃ i < N, r.mode = .necessary ∧ e = .valueError (r.base ++ "_" ++ toString i) ∧
      get? params (r.base ++ "_" ++ toString i) = none ∧ get? params r.base = none := by
  obtain ⟨i, hi, hf⟩ := mapM_error _ _ _ h
  obtain ⟨r, hr, hh⟩ := makeFactor_error hf
  exact ⟨r, hr, i, by simpa using hi, hh⟩

theorem combine_length (b : List (List Factor)) (d : List Factor) (h : b.length = d.length) : (combine b d).length = b.length := by
  simp [combine, h]

theorem combine_get {b : List (List Factor)} {d : List Factor} {i : Nat} {x : List Factor} {y : Factor} (hb : b[i]? = some x)
    (hd : d[i]? = some y) : (combine b d)[i]? = some (x ++ [y]) := by
  simp [combine, List.getElem?_zipWith, hb, hd]

theorem buildLoop_ok {use : Flag → Bool} {N : Nat} {params : Dict String ℝ} {coll : List (Flag × Maker)} {acc res : List (List Factor)}
    (hacc : acc.length = N) (h : buildLoop use N params coll acc = .ok res) :
    res.length = N ∧ ∀ i, i < N → ∀ a, acc[i]? = some a → ∃ fs, res[i]? = some (a ++ fs) ∧
      List.Forall₂ (fun e f => makeFactor params e.2 i = .ok f) (coll.filter fun e => use e.1) fs := by
  induction coll generalizing acc with
  | nil =>
    simp only [buildLoop, Except.ok.injEq] at h
    subst h
    exact ⟨hacc, fun i hi a ha => ⟨[], by simpa using ha, .nil⟩⟩
  | cons e coll ih =>
    obtain ⟨fl, mk⟩ := e
    unfold buildLoop at h
    by_cases hu : use fl
    · rw [if_pos hu] at h
      cases hc : create N params mk with
      | error e => rw [hc] at h; simp at h
      | ok ds =>
        rw [hc] at h
        obtain ⟨hl, hds⟩ := create_ok hc
        obtain ⟨h1, h2⟩ := ih (acc := combine acc ds) (by rw [combine_length _ _ (by omega), hacc]) h
        refine ⟨h1, fun i hi a ha => ?_⟩
        obtain ⟨f, hf, hmf⟩ := hds i hi
        obtain ⟨fs, hfs, hall⟩ := h2 i hi _ (combine_get ha hf)
        refine ⟨f :: fs, by simpa using hfs, ?_⟩
        rw [List.filter_cons_of_pos (by exact hu)]
        exact .cons hmf hall
    · rw [if_neg hu] at h
      obtain ⟨h1, h2⟩ := ih hacc h
      refine ⟨h1, fun i hi a ha => ?_⟩
      rw [List.filter_cons_of_neg (by exact hu)]
      exact h2 i hi a ha

theorem buildLoop_error {use : Flag → Bool} {N : Nat} {params : Dict String ℝ} {coll : List (Flag × Maker)} {acc : List (List Factor)}
    {e : Err} (h : buildLoop use N params coll acc = .error e) :
    ∃ c ∈ coll, use c.1 = true ∧ ∃ r ∈ c.2.reads, ∃ i < N, r.mode = .necessary ∧ e = .valueError (r.base ++ "_" ++ toString i) ∧
      get? params (r.base ++ "_" ++ toString i) = none ∧ get? params r.base = none := by
  induction coll generalizing acc with
  | nil => simp [buildLoop] at h
  | cons c coll ih =>
    obtain ⟨fl, mk⟩ := c
    unfold buildLoop at h
    by_cases hu : use fl
    · rw [if_pos hu] at h
      cases hc : create N params mk with
      | error e' =>
        rw [hc] at h
        simp only [Except.error.injEq] at h
        subst h
        exact ⟨(fl, mk), by simp, hu, create_error hc⟩
      | ok ds =>
        rw [hc] at h
        obtain ⟨c, hc1, hc2⟩ := ih h
        exact ⟨c, by simp [hc1], hc2⟩
    · rw [if_neg hu] at h
      obtain ⟨c, hc1, hc2⟩ := ih h
      exact ⟨c, by simp [hc1], hc2⟩

/-! ### Numbered names -/

theorem underscore_not_mem_toDigits (i : Nat) : '_' ∉ Nat.toDigits 10 i := by
  intro h
  have := Nat.isDigit_of_mem_toDigits (by norm_num) (by norm_num) h
  exact absurd this (by decide)

theorem append_cons_inj {α : Type} {c : α} {a b x y : List α} (hx : c ∉ x) (hy : c ∉ y) (h : a ++ c :: x = b ++ c :: y) : a = b ∧ x = y := by
  induction a generalizing b with
  | nil =>
    cases b with
    | nil => simpa using h
    | cons b0 b =>
      simp only [List.nil_append, List.cons_append, List.cons.injEq] at h
      exact absurd (by rw [h.2]; simp) hx
  | cons a0 a ih =>
    cases b with
    | nil =>
      simp only [List.nil_append, List.cons_append, List.cons.injEq] at h
      exact absurd (by rw [← h.2]; simp) hy
    | cons b0 b =>
      simp only [List.cons_append, List.cons.injEq] at h
      obtain ⟨h1, h2⟩ := ih h.2
      exact ⟨by rw [h.1, h1], h2⟩

theorem numbered_toList (p : String) (i : Nat) : (p ++ "_" ++ toString i).toList = p.toList ++ '_' :: Nat.toDigits 10 i := by
  simp [Nat.toString_eq_repr]

/-- Two numbered names agree only if their stems and numbers do. -/
theorem numbered_eq {p q : String} {i j : Nat} (h : p ++ "_" ++ toString i = q ++ "_" ++ toString j) : p = q ∧ i = j := by
  have h' := congrArg String.toList h
  rw [numbered_toList, numbered_toList] at h'
  obtain ⟨h1, h2⟩ := append_cons_inj (underscore_not_mem_toDigits i) (underscore_not_mem_toDigits j) h'
  refine ⟨String.toList_inj.1 h1, ?_⟩
  have := congrArg (fun l => Nat.ofDigitChars 10 l 0) h2
  simpa using this

/-- A numbered name ends in a digit. -/
theorem numbered_getLast (p : String) (i : Nat) : ∃ c, (p ++ "_" ++ toString i).toList.getLast? = some c ∧ c.isDigit = true := by
  rw [numbered_toList]
  have hne : Nat.toDigits 10 i ≠ [] := List.length_pos_iff.1 Nat.length_toDigits_pos
  refine ⟨(Nat.toDigits 10 i).getLast hne, ?_, Nat.isDigit_of_mem_toDigits (by norm_num) (by norm_num) (List.getLast_mem hne)⟩
  rw [List.getLast?_append, List.getLast?_cons, List.getLast?_eq_getLast_of_ne_nil hne]
  simp

/-- The part of a name after its last underscore is not a numeral. -/
def notNumbered (s : String) : Bool := ((s.toList.reverse.takeWhile (· ≠ '_')).any fun c => !c.isDigit)

theorem takeWhile_append_stop {α : Type} (p : α → Bool) (a b : List α) (c : α) (ha : ∀ x ∈ a, p x = true) (hc : p c = false) :
    (a ++ c :: b).takeWhile p = a := by
  induction a with
  | nil => simp [hc]
  | cons x a ih =>
    rw [List.cons_append, List.takeWhile_cons_of_pos (ha x (by simp)), ih fun y hy => ha y (by simp [hy])]

theorem numbered_ne {s p : String} {i : Nat} (hs : notNumbered s = true) : p ++ "_" ++ toString i ≠ s := by
  rintro rfl
  unfold notNumbered at hs
  rw [numbered_toList, List.reverse_append, List.reverse_cons, List.append_assoc, List.singleton_append,
    takeWhile_append_stop] at hs
  · obtain ⟨c, hc, hd⟩ := List.any_eq_true.1 hs
    have := Nat.isDigit_of_mem_toDigits (by norm_num) (by norm_num) (List.mem_reverse.1 hc)
    rw [this] at hd; simp at hd
  · intro x hx
    have hx' := List.mem_reverse.1 hx
    simp only [ne_eq, decide_not, Bool.not_eq_eq_eq_not, Bool.not_true, decide_eq_false_iff_not]
    rintro rfl
    exact underscore_not_mem_toDigits i hx'
  · simp

end GW.Hybrids
