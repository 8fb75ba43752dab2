import Verif.Model.Constraints
import Verif.Lemmas.XRMath
import Mathlib.Tactic.Linarith
import Mathlib.Tactic.FieldSimp
import Mathlib.Tactic.Ring
import Mathlib.Tactic.NormNum

/-!
# C18, C19, C20: constraints
-/

namespace GW.Constraints
open GW XR
open GW.Tools (Err)

/-! ## Helper lemmas -/

theorem le_trans' {a b c : XR} (h1 : le a b) (h2 : le b c) : le a c := by
  cases a <;> cases b <;> cases c <;> simp_all [le]
  exact le_trans h1 h2

theorem lt_trans' {a b c : XR} (h1 : lt a b) (h2 : lt b c) : lt a c := by
  cases a <;> cases b <;> cases c <;> simp_all [lt]
  exact lt_trans h1 h2

theorem allNeighbours_cons_cons (r : XR → XR → Prop) (a b : XR) (l : List XR) :
    allNeighbours r (a :: b :: l) = true ↔ r b a ∧ allNeighbours r (b :: l) = true := by
  simp [allNeighbours, List.dropLast]

theorem allNeighbours_iff_pairwise (r : XR → XR → Prop) (ht : ∀ a b c, r a b → r b c → r a c) :
    ∀ x : List XR, allNeighbours r x = true ↔ x.Pairwise (fun a b => r b a)
  | [] => by simp [allNeighbours]
  | [a] => by simp [allNeighbours]
  | a :: b :: l => by
    rw [allNeighbours_cons_cons, allNeighbours_iff_pairwise r ht (b :: l), List.pairwise_cons (a := a)]
    constructor
    · rintro ⟨h1, h2⟩
      refine ⟨?_, h2⟩
      intro c hc
      rcases List.mem_cons.1 hc with rfl | hc
      · exact h1
      · exact ht _ _ _ ((List.pairwise_cons.1 h2).1 c hc) h1
    · rintro ⟨h1, h2⟩
      exact ⟨h1 b (by simp), h2⟩

/-- All ordered pairs of positions of `x` satisfy `r x_i x_j`. -/
def AllPairs (r : XR → XR → Prop) (x : List XR) : Prop := ∀ i j : Nat, ∀ (hi : i < x.length) (hj : j < x.length), i < j → r x[i] x[j]

theorem pairwise_iff_allPairs (r : XR → XR → Prop) (x : List XR) : x.Pairwise r ↔ AllPairs r x := by
  rw [List.pairwise_iff_getElem]
  rfl

theorem allPositive_iff (x : List XR) : allPositive x = true ↔ ∀ a ∈ x, lt 0 a := by
  simp [allPositive]

/-! ## C18 -/

/-- **C18.**  Each ordering constraint accepts exactly the vectors (of every length, NaN and infinities included) whose entries satisfy the
documented comparison for *all* pairs `i < j` — and are positive, for the positive kinds — although the code compares neighbours only. -/
theorem C18_accepts_iff (x : List XR) :
    (Leaf.increasing.check x = .ok true ↔ AllPairs le x) ∧
    (Leaf.decreasing.check x = .ok true ↔ AllPairs (fun a b => le b a) x) ∧
    (Leaf.strictlyIncreasing.check x = .ok true ↔ AllPairs lt x) ∧
    (Leaf.strictlyDecreasing.check x = .ok true ↔ AllPairs (fun a b => lt b a) x) ∧
    (Leaf.positiveIncreasing.check x = .ok true ↔ AllPairs le x ∧ ∀ a ∈ x, lt 0 a) ∧
    (Leaf.positiveDecreasing.check x = .ok true ↔ AllPairs (fun a b => le b a) x ∧ ∀ a ∈ x, lt 0 a) := by
  have h1 := allNeighbours_iff_pairwise (fun a b => le b a) (fun _ _ _ h h' => le_trans' h' h) x
  have h2 := allNeighbours_iff_pairwise (fun a b => le a b) (fun _ _ _ h h' => le_trans' h h') x
  have h3 := allNeighbours_iff_pairwise (fun a b => lt b a) (fun _ _ _ h h' => lt_trans' h' h) x
  have h4 := allNeighbours_iff_pairwise (fun a b => lt a b) (fun _ _ _ h h' => lt_trans' h h') x
  rw [pairwise_iff_allPairs] at h1 h2 h3 h4
  simp only [Leaf.check, Except.ok.injEq, Bool.and_eq_true, allPositive_iff]
  exact ⟨h1, h2, h3, h4, and_congr h1 Iff.rfl, and_congr h2 Iff.rfl⟩

/-- The six constraints of C18. -/
def orderings : List Leaf :=
  [.increasing, .decreasing, .strictlyIncreasing, .strictlyDecreasing, .positiveIncreasing, .positiveDecreasing]

/-- **C18.**  They never raise. -/
theorem C18_total (c : Leaf) (hc : c ∈ orderings) (x : List XR) : ∃ b, c.check x = .ok b := by
  simp only [orderings, List.mem_cons, List.not_mem_nil, or_false] at hc
  rcases hc with rfl | rfl | rfl | rfl | rfl | rfl <;> exact ⟨_, rfl⟩

/-- **C18.**  The feasible point has the prototype's length and satisfies the constraint, for every length. -/
theorem C18_feasible (c : Leaf) (hc : c ∈ orderings) (n : Nat) :
    ∃ x, c.feasible n = .ok x ∧ x.length = n ∧ c.check x = .ok true := by
  have hones : ∀ r : XR → XR → Prop, r 1 1 → AllPairs r (List.replicate n 1) := by
    intro r hr i j hi hj _
    simpa using hr
  have hle : le (1 : XR) 1 := le_refl (1 : ℝ)
  have hpos : ∀ a ∈ List.replicate n (1 : XR), lt 0 a := by
    intro a ha
    rw [(List.mem_replicate.1 ha).2]
    exact one_pos (α := ℝ)
  simp only [orderings, List.mem_cons, List.not_mem_nil, or_false] at hc
  rcases hc with rfl | rfl | rfl | rfl | rfl | rfl
  · exact ⟨_, rfl, by simp, (C18_accepts_iff _).1.2 (hones _ hle)⟩
  · exact ⟨_, rfl, by simp, (C18_accepts_iff _).2.1.2 (hones _ hle)⟩
  · refine ⟨_, rfl, by simp, (C18_accepts_iff _).2.2.1.2 ?_⟩
    intro i j hi hj hij
    simp only [List.getElem_map, List.getElem_range, lt]
    have : (i : ℝ) < j := by exact_mod_cast hij
    linarith
  · refine ⟨_, rfl, by simp, (C18_accepts_iff _).2.2.2.1.2 ?_⟩
    intro i j hi hj hij
    simp only [List.getElem_map, List.getElem_range, lt]
    have : (i : ℝ) < j := by exact_mod_cast hij
    linarith
  · exact ⟨_, rfl, by simp, (C18_accepts_iff _).2.2.2.2.1.2 ⟨hones _ hle, hpos⟩⟩
  · exact ⟨_, rfl, by simp, (C18_accepts_iff _).2.2.2.2.2.2 ⟨hones _ hle, hpos⟩⟩

/-- A strictly increasing vector of length three is accepted; swapping two far entries is rejected. -/
example : Leaf.strictlyIncreasing.check [fin 1, fin 2, fin 3] = .ok true ∧ Leaf.strictlyIncreasing.check [fin 1, fin 3, fin 2] ≠ .ok true := by
  constructor
  · rw [(C18_accepts_iff _).2.2.1, ← pairwise_iff_allPairs]
    simp [lt]
    norm_num
  · rw [Ne, (C18_accepts_iff _).2.2.1, ← pairwise_iff_allPairs]
    simp [lt]
    norm_num

/-! ## C19 -/

theorem sandwichMask_fin (mmin mmax m1 m2 : ℝ) :
    sandwichMask mmin mmax (fin m1) (fin m2) = true ↔ 0 < mmin ∧ mmin ≤ m2 ∧ m2 ≤ m1 ∧ m1 ≤ mmax := by
  simp only [sandwichMask, Bool.and_eq_true, decide_eq_true_eq, and_assoc]
  rfl

/-- **C19.**  `mass_sandwich` accepts exactly `0 < mmin ≤ m2 ≤ m1 ≤ mmax`. -/
theorem C19_sandwich_iff (mmin mmax m1 m2 : ℝ) :
    (Leaf.massSandwich mmin mmax).check [fin m1, fin m2] = .ok true ↔ 0 < mmin ∧ mmin ≤ m2 ∧ m2 ≤ m1 ∧ m1 ≤ mmax := by
  simp only [Leaf.check, Except.ok.injEq, sandwichMask_fin]

/-- **C19.**  `mass_ratio_mass_sandwich` accepts `(m1, q)` exactly when `mass_sandwich` accepts `(m1, m1*q)`, for all floats. -/
theorem C19_same_set (mmin mmax : ℝ) (m1 q : XR) :
    (Leaf.massRatioSandwich mmin mmax).check [m1, q] = (Leaf.massSandwich mmin mmax).check [m1, m1 * q] := rfl

/-- **C19.**  …and exactly when `0 < mmin ≤ m1 ≤ mmax` and `mmin/m1 ≤ q ≤ 1`. -/
theorem C19_ratio_iff (mmin mmax m1 q : ℝ) :
    (Leaf.massRatioSandwich mmin mmax).check [fin m1, fin q] = .ok true ↔
      0 < mmin ∧ mmin ≤ m1 ∧ m1 ≤ mmax ∧ mmin / m1 ≤ q ∧ q ≤ 1 := by
  rw [C19_same_set, mul_fin_fin, C19_sandwich_iff]
  constructor
  · rintro ⟨h0, h1, h2, h3⟩
    have hm : 0 < m1 := by linarith
    exact ⟨h0, by linarith, h3, (div_le_iff₀ hm).2 (by linarith), by nlinarith⟩
  · rintro ⟨h0, h1, h2, h3, h4⟩
    have hm : 0 < m1 := by linarith
    rw [div_le_iff₀ hm] at h3
    exact ⟨h0, by linarith, by nlinarith, h2⟩

/-- **C19.**  Nothing with a NaN or an infinity is accepted by either. -/
theorem C19_finite_only (mmin mmax : ℝ) (a b : XR) (h : (Leaf.massSandwich mmin mmax).check [a, b] = .ok true) :
    ∃ m1 m2 : ℝ, a = fin m1 ∧ b = fin m2 := by
  simp only [Leaf.check, sandwichMask, Except.ok.injEq, Bool.and_eq_true, decide_eq_true_eq] at h
  cases a <;> cases b <;> simp_all [le]

/-- **C19.**  Both feasible points are feasible whenever `0 < mmin ≤ mmax`. -/
theorem C19_feasible (mmin mmax : ℝ) (h0 : 0 < mmin) (h : mmin ≤ mmax) :
    (∃ x, (Leaf.massSandwich mmin mmax).feasible 2 = .ok x ∧ x.length = 2 ∧ (Leaf.massSandwich mmin mmax).check x = .ok true) ∧
    (∃ x, (Leaf.massRatioSandwich mmin mmax).feasible 2 = .ok x ∧ x.length = 2 ∧
      (Leaf.massRatioSandwich mmin mmax).check x = .ok true) := by
  constructor
  · refine ⟨_, rfl, by simp, ?_⟩
    exact (C19_sandwich_iff _ _ _ _).2 ⟨h0, by linarith, by linarith, by linarith⟩
  · have hm : 0 < (mmin + mmax) * (1 / 2) := by linarith
    have hq0 : 0 ≤ mmin / ((mmin + mmax) * (1 / 2)) := div_nonneg h0.le hm.le
    have hq1 : mmin / ((mmin + mmax) * (1 / 2)) ≤ 1 := (div_le_one hm).2 (by linarith)
    have hc : clip01 (fin mmin / fin ((mmin + mmax) * (1 / 2))) = fin (mmin / ((mmin + mmax) * (1 / 2))) := by
      rw [div_fin_of_ne _ hm.ne']
      show XR.min (XR.max (fin _) (fin 0)) (fin 1) = _
      rw [max_fin_fin, min_fin_fin, max_eq_left hq0, min_eq_left hq1]
    refine ⟨[fin ((mmin + mmax) * (1 / 2)), clip01 (fin mmin / fin ((mmin + mmax) * (1 / 2)))], rfl, rfl, ?_⟩
    rw [hc]
    exact (C19_ratio_iff _ _ _ _).2 ⟨h0, by linarith, by linarith, le_refl _, hq1⟩

/-- **C19 (errors).**  An event that does not have two coordinates raises, and so does asking the ratio form for such a feasible point. -/
theorem C19_wrong_length (mmin mmax : ℝ) (x : List XR) (n : Nat) (h : x.length ≠ 2) (hn : n ≠ 2) :
    (Leaf.massSandwich mmin mmax).check x = .error .valueError ∧ (Leaf.massRatioSandwich mmin mmax).check x = .error .valueError ∧
    (Leaf.massRatioSandwich mmin mmax).feasible n = .error .assertion := by
  refine ⟨?_, ?_, by simp [Leaf.feasible, hn]⟩ <;> match x with
    | [] => rfl
    | [_] => rfl
    | [_, _] => simp at h
    | _ :: _ :: _ :: _ => rfl

example : (Leaf.massRatioSandwich 5 50).check [fin 30, fin (1 / 2)] = .ok true ∧
    (Leaf.massRatioSandwich 5 50).check [fin 30, fin (1 / 10)] ≠ .ok true := by
  rw [Ne, C19_ratio_iff, C19_ratio_iff]
  norm_num

/-! ## C20 -/

/-- The blocks of an event selected by a list of slices, all of them inside the event: integers address one coordinate from the front,
pairs a half-open range. -/
def Slice.Inside (n : Nat) : Slice → Prop
  | .idx i => 0 ≤ i ∧ i < n
  | .range a b => 0 ≤ a ∧ a ≤ b ∧ b ≤ n

/-- The coordinates `x[i]` for the positions named by a slice (specification). -/
def Slice.block (x : List XR) : Slice → List XR
  | .idx i => (x[i.toNat]?).toList
  | .range a b => (x.drop a.toNat).take (b.toNat - a.toNat)

/-- A slice inside the event selects exactly the coordinates it names. -/
theorem get_inside (x : List XR) (s : Slice) (h : s.Inside x.length) : s.get x = .ok (s.block x) := by
  cases s with
  | idx i =>
    obtain ⟨h0, h1⟩ := h
    have hi : i.toNat < x.length := by omega
    have e1 : ¬((1 : Int) < 0 ∨ (x.length : Int) < 1) := by omega
    have e2 : max 0 (min i ((x.length : Int) - 1)) = i := by omega
    simp only [Slice.get, dynSlice, if_neg e1, if_neg (not_lt.2 h0), e2, Slice.block, List.getElem?_eq_getElem hi, Option.toList]
    rw [List.drop_eq_getElem_cons hi]
    rfl
  | range a b =>
    obtain ⟨h0, h1, h2⟩ := h
    have e1 : ¬(b - a < 0 ∨ (x.length : Int) < b - a) := by omega
    have e2 : max 0 (min a ((x.length : Int) - (b - a))) = a := by omega
    simp only [Slice.get, dynSlice, if_neg e1, if_neg (not_lt.2 h0), e2, Slice.block]
    congr 2
    omega

theorem allLoop_some {C : Type} (o : Ops C) (x : List XR) : ∀ (l : List (C × Slice)) (m : Bool),
    (∀ p ∈ l, p.2.Inside x.length) → (∀ p ∈ l, ∃ b, o.check p.1 (p.2.block x) = .ok b) →
    ∃ b, allLoop o x l (some m) = .ok (some b) ∧ (b = true ↔ m = true ∧ ∀ p ∈ l, o.check p.1 (p.2.block x) = .ok true)
  | [], m, _, _ => ⟨m, rfl, by simp⟩
  | (c, s) :: rest, m, h1, h2 => by
    obtain ⟨b0, hb0⟩ := h2 (c, s) (by simp)
    obtain ⟨b, hb, hiff⟩ := allLoop_some o x rest (m && b0) (fun p hp => h1 p (by simp [hp])) (fun p hp => h2 p (by simp [hp]))
    refine ⟨b, ?_, ?_⟩
    · simp only [allLoop, get_inside x s (h1 (c, s) (by simp)), bind, Except.bind, hb0]
      exact hb
    · rw [hiff]
      simp only [List.forall_mem_cons, hb0, Except.ok.injEq, Bool.and_eq_true]
      tauto

/-- **C20.**  `all_constraint` accepts an event iff every part accepts its own block, for any number of parts and any slices inside the event
(the parts being checks that do not raise on their block). -/
theorem C20_all_iff {C : Type} (o : Ops C) (a : AllC C) (x : List XR) (hne : a.constraints ≠ []) (hlen : a.constraints.length = a.slices.length)
    (hin : ∀ s ∈ a.slices, s.Inside x.length)
    (hok : ∀ i : Nat, ∀ (h1 : i < a.constraints.length) (h2 : i < a.slices.length), ∃ b, o.check a.constraints[i] (a.slices[i].block x) = .ok b) :
    ∃ b, a.check o x = .ok (some b) ∧
      (b = true ↔ ∀ i : Nat, ∀ (h1 : i < a.constraints.length) (h2 : i < a.slices.length),
        o.check a.constraints[i] (a.slices[i].block x) = .ok true) := by
  obtain ⟨cs, ss⟩ := a
  match cs, ss, hne, hlen with
  | c :: cs, s :: ss, _, hlen =>
    have hz : ∀ P : C × Slice → Prop, (∀ p ∈ (c :: cs).zip (s :: ss), P p) ↔
        ∀ i : Nat, ∀ (h1 : i < (c :: cs).length) (h2 : i < (s :: ss).length), P ((c :: cs)[i], (s :: ss)[i]) := by
      intro P
      constructor
      · intro h i h1 h2
        exact h _ (List.mem_iff_getElem.2 ⟨i, by simp at h1 h2 ⊢; omega, by rw [List.getElem_zip]⟩)
      · intro h p hp
        obtain ⟨i, hi, rfl⟩ := List.mem_iff_getElem.1 hp
        have h1 : i < (c :: cs).length := by simp at hi ⊢; omega
        have h2 : i < (s :: ss).length := by simp at hi ⊢; omega
        have := h i h1 h2
        rwa [List.getElem_zip]
    have hin' : ∀ p ∈ (c :: cs).zip (s :: ss), p.2.Inside x.length := fun p hp => hin _ (List.of_mem_zip hp).2
    have hok' := (hz (fun p => ∃ b, o.check p.1 (p.2.block x) = .ok b)).2 hok
    obtain ⟨b0, hb0⟩ := hok' (c, s) (by simp)
    obtain ⟨b, hb, hiff⟩ := allLoop_some o x (cs.zip ss) b0 (fun p hp => hin' p (by simp [hp])) (fun p hp => hok' p (by simp [hp]))
    refine ⟨b, ?_, ?_⟩
    · simp only [AllC.check, List.zip_cons_cons, allLoop, get_inside x s (hin s (by simp)), bind, Except.bind, hb0]
      exact hb
    · rw [hiff, ← hz (fun p => o.check p.1 (p.2.block x) = .ok true)]
      simp only [List.zip_cons_cons, List.forall_mem_cons, hb0, Except.ok.injEq]

/-- **C20.**  A different number of constraints and slices is rejected when the constraint is built. -/
theorem C20_all_length {C : Type} (cs : List C) (ss : List Slice) :
    (∃ a, mkAll cs ss = .ok a ∧ a.constraints = cs ∧ a.slices = ss) ↔ cs.length = ss.length := by
  unfold mkAll
  split
  · simp_all
  · simp_all

/-- **C20 (out of range).**  A slice that runs past the end is not an error: it is moved back so that it fits, and the constraint is then
checked on coordinates other than the ones it names. -/
theorem C20_out_of_range_violated :
    (Slice.range 1 3).get [fin 1, fin 2] = .ok [fin 1, fin 2] ∧ ((Slice.idx 5).get [fin 1, fin 2] = .ok [fin 2]) ∧
    ¬ (Slice.idx 5).Inside 2 := by
  refine ⟨?_, ?_, by simp [Slice.Inside]⟩ <;> simp [Slice.get, dynSlice]

/-- **C20 (negative positions).**  As in Python, a negative position counts from the end: `-1` is the last coordinate, and a pair `(-k, -k + m)` with `m ≤ k` selects
the `m` coordinates from the `k`-th last on. -/
theorem C20_negative_position (x : List XR) (k m : Nat) (hk : 0 < k) (hkx : k ≤ x.length) (hm : m ≤ k) :
    (Slice.idx (-k)).get x = .ok [x[x.length - k]'(by omega)] ∧ (Slice.range (-k) (-k + m)).get x = .ok ((x.drop (x.length - k)).take m) := by
  have hi : x.length - k < x.length := by omega
  constructor
  · have e1 : ¬((1 : Int) < 0 ∨ (x.length : Int) < 1) := by omega
    have e0 : (-(k : Int)) < 0 := by omega
    have e2 : (max 0 (min (-(k : Int) + x.length) ((x.length : Int) - 1))).toNat = x.length - k := by omega
    simp only [Slice.get, dynSlice, if_neg e1, if_pos e0, e2]
    rw [List.drop_eq_getElem_cons hi]
    rfl
  · have es : (-(k : Int) + m) - -(k : Int) = m := by omega
    have e1 : ¬((m : Int) < 0 ∨ (x.length : Int) < m) := by omega
    have e0 : (-(k : Int)) < 0 := by omega
    have e2 : (max 0 (min (-(k : Int) + x.length) ((x.length : Int) - m))).toNat = x.length - k := by omega
    simp only [Slice.get, es, dynSlice, if_neg e1, if_pos e0, e2, Int.toNat_natCast]

/-- The last two coordinates of three, and the last one. -/
example : (Slice.idx (-1)).get [fin 1, fin 2, fin 3] = .ok [fin 3] ∧ (Slice.range (-2) 0).get [fin 1, fin 2, fin 3] = .ok [fin 2, fin 3] :=
  ⟨(C20_negative_position [fin 1, fin 2, fin 3] 1 1 (by simp) (by simp) (by simp)).1, (C20_negative_position [fin 1, fin 2, fin 3] 2 2 (by simp) (by simp) (by simp)).2⟩

theorem anyFold {C : Type} (o : Ops C) (x : List XR) : ∀ (cs : List C) (m : Bool), (∀ c ∈ cs, ∃ b, o.check c x = .ok b) →
    ∃ b, cs.foldlM (fun m c => (do let m' ← o.check c x; return m || m' : Except Err Bool)) m = .ok b ∧
      (b = true ↔ m = true ∨ ∃ c ∈ cs, o.check c x = .ok true)
  | [], m, _ => ⟨m, rfl, by simp⟩
  | c :: cs, m, h => by
    obtain ⟨b0, hb0⟩ := h c (by simp)
    obtain ⟨b, hb, hiff⟩ := anyFold o x cs (m || b0) (fun d hd => h d (by simp [hd]))
    refine ⟨b, ?_, ?_⟩
    · rw [List.foldlM_cons]
      simp only [bind, Except.bind, hb0, pure, Except.pure] at hb ⊢
      exact hb
    · rw [hiff]
      simp only [List.mem_cons, exists_eq_or_imp, hb0, Except.ok.injEq, Bool.or_eq_true]
      tauto

/-- **C20.**  `any_constraint` accepts iff at least one part accepts; an empty list of parts raises. -/
theorem C20_any_iff {C : Type} (o : Ops C) (cs : List C) (x : List XR) (hok : ∀ c ∈ cs, ∃ b, o.check c x = .ok b) :
    (cs ≠ [] → ∃ b, anyCheck o cs x = .ok b ∧ (b = true ↔ ∃ c ∈ cs, o.check c x = .ok true)) ∧
    (cs = [] → anyCheck o cs x = .error .index ∧ anyFeasible o cs x.length = .error .index) := by
  constructor
  · intro hne
    match cs, hne with
    | c :: cs, _ =>
      obtain ⟨b0, hb0⟩ := hok c (by simp)
      obtain ⟨b, hb, hiff⟩ := anyFold o x cs b0 (fun d hd => hok d (by simp [hd]))
      refine ⟨b, ?_, ?_⟩
      · simp only [anyCheck, bind, Except.bind, hb0] at hb ⊢
        exact hb
      · rw [hiff]
        simp only [List.mem_cons, exists_eq_or_imp, hb0, Except.ok.injEq]
  · rintro rfl
    exact ⟨rfl, rfl⟩

/-- **C20.**  The feasible point of `any_constraint` is accepted, when the first part's feasible point is accepted by that part. -/
theorem C20_any_feasible {C : Type} (o : Ops C) (c : C) (cs : List C) (n : Nat) (y : List XR) (hf : o.feasible c n = .ok y)
    (hc : o.check c y = .ok true) (hok : ∀ d ∈ cs, ∃ b, o.check d y = .ok b) :
    anyFeasible o (c :: cs) n = .ok y ∧ anyCheck o (c :: cs) y = .ok true := by
  refine ⟨hf, ?_⟩
  obtain ⟨b, hb, hiff⟩ := (C20_any_iff o (c :: cs) y (by
    intro d hd
    rcases List.mem_cons.1 hd with rfl | hd
    · exact ⟨_, hc⟩
    · exact hok d hd)).1 (by simp)
  rw [hb, hiff.2 ⟨c, by simp, hc⟩]

/-- Specification of the pull-back: applying the inverses of `ts` from the last to the first, every intermediate point being in the codomain
of the transform about to be inverted. -/
inductive PullsBack {T : Type} (t : TOps T) : List T → List XR → List XR → Prop where
  | nil (y) : PullsBack t [] y y
  | snoc (ts f y x) : t.codomain f y = .ok true → PullsBack t ts (t.inv f y) x → PullsBack t (ts ++ [f]) y x

theorem pullLoop_iff {T : Type} (t : TOps T) (hok : ∀ f y, ∃ b, t.codomain f y = .ok b) : ∀ (rs : List T) (m : Bool) (y : List XR),
    ∃ b x, pullLoop t rs (m, y) = .ok (b, x) ∧ ((b = true ↔ m = true ∧ PullsBack t rs.reverse y x) ∧
      ∀ x', PullsBack t rs.reverse y x' → x' = x)
  | [], m, y => ⟨m, y, rfl, by simp [PullsBack.nil y], by
      intro x' h
      generalize hl : ([] : List T).reverse = l at h
      cases h with
      | nil => rfl
      | snoc ts f y x _ _ => simp at hl⟩
  | f :: rs, m, y => by
    obtain ⟨b0, hb0⟩ := hok f y
    obtain ⟨b, x, hb, hiff, huniq⟩ := pullLoop_iff t hok rs (m && b0) (t.inv f y)
    refine ⟨b, x, ?_, ?_, ?_⟩
    · simp only [pullLoop, bind, Except.bind, hb0]
      exact hb
    · rw [hiff]
      simp only [Bool.and_eq_true, List.reverse_cons]
      constructor
      · rintro ⟨⟨h1, h2⟩, h3⟩
        exact ⟨h1, .snoc _ _ _ _ (by rw [hb0, h2]) h3⟩
      · rintro ⟨h1, h2⟩
        generalize hl : rs.reverse ++ [f] = l at h2
        cases h2 with
        | nil => simp at hl
        | snoc ts g y x hc hp =>
          obtain ⟨rfl, hg⟩ := List.append_inj' hl rfl
          cases hg
          rw [hb0] at hc
          cases hc
          exact ⟨⟨h1, rfl⟩, hp⟩
    · intro x' h
      rw [List.reverse_cons] at h
      generalize hl : rs.reverse ++ [f] = l at h
      cases h with
      | nil => simp at hl
      | snoc ts g y x hc hp =>
        obtain ⟨rfl, hg⟩ := List.append_inj' hl rfl
        cases hg
        exact huniq _ hp

/-- **C20.**  `transform_constraint` accepts `y` iff `y` lies in every codomain on the way back and its pull-back is in the base support. -/
theorem C20_transform_iff {C T : Type} (o : Ops C) (t : TOps T) (base : C) (ts : List T) (y : List XR)
    (hok : ∀ f y, ∃ b, t.codomain f y = .ok b) (hbase : ∀ x, ∃ b, o.check base x = .ok b) :
    transformedCheck o t base ts y = .ok true ↔ ∃ x, PullsBack t ts y x ∧ o.check base x = .ok true := by
  obtain ⟨b, x, hb, hiff, huniq⟩ := pullLoop_iff t hok ts.reverse true y
  rw [List.reverse_reverse] at hiff huniq
  obtain ⟨c, hc⟩ := hbase x
  simp only [transformedCheck, bind, Except.bind, hb, hc, pure, Except.pure, Except.ok.injEq, Bool.and_eq_true]
  constructor
  · rintro ⟨h1, h2⟩
    exact ⟨x, (hiff.1 h1).2, by rw [hc, h2]⟩
  · rintro ⟨x', h1, h2⟩
    have := huniq x' h1
    subst this
    rw [hc] at h2
    cases h2
    exact ⟨hiff.2 ⟨rfl, h1⟩, rfl⟩

/-- Pushing a point forward through `ts`, each of them inverting on that point and landing in its codomain (specification). -/
inductive PushesForward {T : Type} (t : TOps T) : List T → List XR → List XR → Prop where
  | nil (x) : PushesForward t [] x x
  | cons (f ts x y) : t.codomain f (t.fwd f x) = .ok true → t.inv f (t.fwd f x) = x → PushesForward t ts (t.fwd f x) y →
      PushesForward t (f :: ts) x y

theorem pullsBack_cons {T : Type} (t : TOps T) (f : T) : ∀ (ts : List T) (y x : List XR), PullsBack t ts y x →
    t.codomain f x = .ok true → PullsBack t (f :: ts) y (t.inv f x) := by
  intro ts y x h
  induction h with
  | nil y =>
    intro hc
    exact PullsBack.snoc [] f y _ hc (.nil _)
  | snoc ts g y x hg hp ih =>
    intro hc
    exact PullsBack.snoc (f :: ts) g y _ hg (ih hc)

theorem pushes_pulls {T : Type} (t : TOps T) (ts : List T) (x y : List XR) (h : PushesForward t ts x y) :
    y = ts.foldl (fun y f => t.fwd f y) x ∧ PullsBack t ts y x := by
  induction h with
  | nil x => exact ⟨rfl, .nil x⟩
  | cons f ts x y hc hi hp ih =>
    refine ⟨ih.1, ?_⟩
    have := pullsBack_cons t f ts _ _ ih.2 hc
    rwa [hi] at this

/-- **C20.**  The feasible point of `transform_constraint` is accepted, when the base's feasible point is in the base support and each transform
maps the point it receives into its codomain and back. -/
theorem C20_transform_feasible {C T : Type} (o : Ops C) (t : TOps T) (base : C) (ts : List T) (n : Nat) (x y : List XR)
    (hok : ∀ f y, ∃ b, t.codomain f y = .ok b) (hbase : ∀ x, ∃ b, o.check base x = .ok b) (hf : o.feasible base n = .ok x)
    (hx : o.check base x = .ok true) (hp : PushesForward t ts x y) :
    transformedFeasible o t base ts n = .ok y ∧ transformedCheck o t base ts y = .ok true := by
  obtain ⟨rfl, hb⟩ := pushes_pulls t ts x y hp
  refine ⟨by simp only [transformedFeasible, bind, Except.bind, hf, pure, Except.pure], ?_⟩
  exact (C20_transform_iff o t base ts _ hok hbase).2 ⟨x, hb, hx⟩

/-- The parts' `eq` is sound: equal parts accept the same points. -/
def SoundEq {C : Type} (o : Ops C) : Prop := ∀ c d, o.eq c d = true → ∀ x, o.check c x = o.check d x

theorem zip_eq {C : Type} (o : Ops C) (ho : SoundEq o) : ∀ (a b : List C), a.length = b.length →
    ((a.zip b).all fun p => o.eq p.1 p.2) = true → ∀ x, a.map (fun c => o.check c x) = b.map (fun c => o.check c x)
  | [], [], _, _, _ => rfl
  | c :: a, d :: b, hl, h, x => by
    simp only [List.zip_cons_cons, List.all_cons, Bool.and_eq_true] at h
    rw [List.map_cons, List.map_cons, ho c d h.1 x, zip_eq o ho a b (by simpa using hl) h.2 x]

theorem allLoop_congr {C : Type} (o : Ops C) (ho : SoundEq o) (x : List XR) : ∀ (a b : List C) (ss : List Slice) (m : Option Bool),
    a.length = b.length → ((a.zip b).all fun p => o.eq p.1 p.2) = true → allLoop o x (a.zip ss) m = allLoop o x (b.zip ss) m
  | [], [], _, _, _, _ => rfl
  | _ :: _, _ :: _, [], _, _, _ => rfl
  | c :: a, d :: b, s :: ss, m, hl, h => by
    simp only [List.zip_cons_cons, List.all_cons, Bool.and_eq_true] at h
    simp only [List.zip_cons_cons, allLoop, bind, Except.bind]
    cases s.get x with
    | error e => rfl
    | ok xs =>
      simp only [ho c d h.1 xs]
      cases o.check d xs with
      | error e => rfl
      | ok m' => exact allLoop_congr o ho x a b ss _ (by simpa using hl) h.2

/-- **C20 (partial).**  Two composite constraints that compare equal accept the same points, provided they have the same number of parts and
(for `all_constraint`) the same slices.  Without that the claim is false: see the next two theorems. -/
theorem C20_eq_sound_partial {C T : Type} (o : Ops C) (t : TOps T) (ho : SoundEq o)
    (ht : ∀ f g, t.eq f g = true → (∀ x, t.inv f x = t.inv g x) ∧ ∀ x, t.codomain f x = t.codomain g x) (x : List XR) :
    (∀ a b : AllC C, a.slices = b.slices → a.constraints.length = b.constraints.length → a.eq o b = true → a.check o x = b.check o x) ∧
    (∀ a b : List C, a.length = b.length → anyEq o a b = true → anyCheck o a x = anyCheck o b x) ∧
    (∀ (b1 b2 : C) (t1 t2 : List T), transformedEq o t b1 b2 t1 t2 = true → transformedCheck o t b1 t1 x = transformedCheck o t b2 t2 x) := by
  refine ⟨?_, ?_, ?_⟩
  · rintro ⟨a, sa⟩ ⟨b, sb⟩ rfl hl h
    exact allLoop_congr o ho x a b _ none hl h
  · intro a b hl h
    have hm := zip_eq o ho a b hl h
    match a, b, hl with
    | [], [], _ => rfl
    | c :: a, d :: b, hl =>
      have h0 : ∀ x, o.check c x = o.check d x := fun x => (List.cons.inj (hm x)).1
      have hrest : ∀ (a b : List C) (m : Bool), a.map (fun c => o.check c x) = b.map (fun c => o.check c x) →
          a.foldlM (fun m c => (do let m' ← o.check c x; return m || m' : Except Err Bool)) m =
          b.foldlM (fun m c => (do let m' ← o.check c x; return m || m' : Except Err Bool)) m := by
        intro a
        induction a with
        | nil => intro b m h; cases b with
          | nil => rfl
          | cons => simp at h
        | cons c a ih => intro b m h; cases b with
          | nil => simp at h
          | cons d b =>
            simp only [List.map_cons, List.cons.injEq] at h
            rw [List.foldlM_cons, List.foldlM_cons, h.1]
            cases hd : o.check d x with
            | error e => rfl
            | ok m' => exact ih b _ h.2
      have := hrest a b
      simp only [anyCheck, h0 x]
      cases o.check d x with
      | error e => rfl
      | ok m => exact this m (List.cons.inj (hm x)).2
  · intro b1 b2 t1 t2 h
    unfold transformedEq at h
    split at h
    · simp at h
    · rename_i hl
      simp only [bne_iff_ne, ne_eq, not_not, Bool.and_eq_true] at hl h
      obtain ⟨hb, hts⟩ := h
      have key : ∀ (u v : List T), (List.Forall₂ (fun f g => t.eq f g = true) u v) → ∀ s, pullLoop t u s = pullLoop t v s := by
        intro u v huv
        induction huv with
        | nil => intro s; rfl
        | cons hfg _ ih =>
          rintro ⟨m, y⟩
          have := ht _ _ hfg
          simp only [pullLoop, this.1, this.2, ih]
      have hf2 : List.Forall₂ (fun f g => t.eq f g = true) t1 t2 := by
        rw [List.forall₂_iff_zip]
        refine ⟨hl, fun {f g} hfg => ?_⟩
        simp only [List.all_eq_true] at hts
        exact hts (f, g) hfg
      have hr := key _ _ (List.rel_reverse hf2)
      simp only [transformedCheck, hr, ho _ _ hb]

theorem leafOps_sound : SoundEq leafOps := by
  intro c d h x
  have : c = d := by simpa [leafOps, Leaf.eq] using h
  rw [this]

theorem positive_one (a : ℝ) : Leaf.positive.check [fin a] = .ok (decide (0 < a)) := by
  simp only [Leaf.check, allPositive, List.all_cons, List.all_nil, Bool.and_true]
  rfl

/-- **C20 (equality is unsound: lengths).**  `all_constraint([positive], [0])` and `all_constraint([positive, positive], [0, 1])` compare equal, in
both directions, but `(1, -1)` is accepted by the first only.  Likewise `any_constraint([increasing])` and
`any_constraint([increasing, decreasing])`. -/
theorem C20_eq_length_violated :
    (∃ (a b : AllC Leaf) (x : List XR), a.eq leafOps b = true ∧ b.eq leafOps a = true ∧
      a.check leafOps x = .ok (some true) ∧ b.check leafOps x = .ok (some false)) ∧
    (∃ (a b : List Leaf) (x : List XR), anyEq leafOps a b = true ∧ anyEq leafOps b a = true ∧
      anyCheck leafOps a x = .ok false ∧ anyCheck leafOps b x = .ok true) := by
  constructor
  · refine ⟨⟨[.positive], [.idx 0]⟩, ⟨[.positive, .positive], [.idx 0, .idx 1]⟩, [fin 1, fin (-1)], ?_, ?_, ?_, ?_⟩
    · simp [AllC.eq, leafOps, Leaf.eq]
    · simp [AllC.eq, leafOps, Leaf.eq]
    · simp [AllC.check, allLoop, leafOps, positive_one, Slice.get, dynSlice, bind, Except.bind]
    · simp [AllC.check, allLoop, leafOps, positive_one, Slice.get, dynSlice, bind, Except.bind]
  · refine ⟨[.increasing], [.increasing, .decreasing], [fin 2, fin 1], ?_, ?_, ?_, ?_⟩
    · simp [anyEq, leafOps, Leaf.eq]
    · simp [anyEq, leafOps, Leaf.eq]
    · simp [anyCheck, leafOps, Leaf.check, allNeighbours, bind, Except.bind, le, List.dropLast, pure, Except.pure]
    · simp [anyCheck, leafOps, Leaf.check, allNeighbours, bind, Except.bind, le, List.dropLast, pure, Except.pure]

/-- **C20 (equality is unsound: slices).**  The slices take no part in the comparison: `all_constraint([positive], [0])` equals
`all_constraint([positive], [1])`. -/
theorem C20_eq_slices_violated : ∃ (a b : AllC Leaf) (x : List XR), a.eq leafOps b = true ∧
    a.check leafOps x = .ok (some true) ∧ b.check leafOps x = .ok (some false) := by
  refine ⟨⟨[.positive], [.idx 0]⟩, ⟨[.positive], [.idx 1]⟩, [fin 1, fin (-1)], ?_, ?_, ?_⟩
  · simp [AllC.eq, leafOps, Leaf.eq]
  · simp [AllC.check, allLoop, leafOps, positive_one, Slice.get, dynSlice, bind, Except.bind]
  · simp [AllC.check, allLoop, leafOps, positive_one, Slice.get, dynSlice, bind, Except.bind]

/-- The slices, in order, are consecutive blocks starting at `k` and ending at `n` (specification). -/
def Consecutive : Nat → List Slice → Nat → Prop
  | k, [], n => k = n
  | k, .idx i :: rest, n => i = k ∧ Consecutive (k + 1) rest n
  | k, .range a b :: rest, n => a = k ∧ a ≤ b ∧ Consecutive b.toNat rest n

theorem consecutive_le : ∀ (ss : List Slice) (k n : Nat), Consecutive k ss n → k ≤ n
  | [], _, _, h => le_of_eq h
  | .idx _ :: rest, k, n, h => by have := consecutive_le rest _ n h.2; omega
  | .range a b :: rest, k, n, h => by
    obtain ⟨h1, h2, h3⟩ := h
    have := consecutive_le rest _ n h3
    omega

/-- Consecutive slices are inside the event, and their blocks are exactly what was concatenated. -/
theorem consecutive_blocks (o : Ops C) : ∀ (l : List (C × Slice)) (k n : Nat) (parts : List (List XR)) (pre : List XR),
    Consecutive k (l.map (·.2)) n → parts.length = l.length → pre.length = k →
    (∀ i : Nat, ∀ (h1 : i < l.length) (h2 : i < parts.length), parts[i].length = l[i].2.size) →
    ∀ i : Nat, ∀ (h1 : i < l.length) (h2 : i < parts.length), l[i].2.Inside n ∧ l[i].2.block (pre ++ parts.flatten) = parts[i] ∧
      (pre ++ parts.flatten).length = n
  | [], _, _, _, _, _, _, _, _, i, h1, _ => by simp at h1
  | (c, s) :: l, k, n, [], _, _, hp, _, _, _, _, _ => by simp at hp
  | (c, s) :: l, k, n, p :: parts, pre, hc, hp, hpre, hsz, i, h1, h2 => by
    have hp0 : p.length = s.size := hsz 0 (by simp) (by simp)
    -- the state after the first slice
    have hnext : Consecutive (k + s.size) (l.map (·.2)) n ∧ s.Inside n ∧ s.block (pre ++ (p :: parts).flatten) = p := by
      cases s with
      | idx j =>
        obtain ⟨hj, hr⟩ := hc
        have := consecutive_le _ _ _ hr
        refine ⟨hr, ⟨by omega, by omega⟩, ?_⟩
        obtain ⟨a, rfl⟩ := List.length_eq_one_iff.1 hp0
        subst hpre
        simp only [Slice.block, hj, Int.toNat_natCast, List.flatten_cons, List.singleton_append]
        rw [List.getElem?_append_right (le_refl _)]
        simp
      | range a b =>
        obtain ⟨ha, hab, hr⟩ := hc
        have hle := consecutive_le _ _ _ hr
        have hsb : k + (Slice.range a b).size = b.toNat := by simp [Slice.size]; omega
        refine ⟨by rw [hsb]; exact hr, ⟨by omega, by omega, by omega⟩, ?_⟩
        subst hpre
        simp only [Slice.block, ha, Int.toNat_natCast, List.flatten_cons]
        rw [List.drop_left, List.take_left' (by rw [hp0]; simp [Slice.size]; omega)]
    match i with
    | 0 =>
      refine ⟨hnext.2.1, hnext.2.2, ?_⟩
      cases l with
      | nil =>
        have : parts = [] := by simpa using hp
        subst this
        have := hnext.1
        simp [Consecutive] at this
        simp [hpre, hp0, this]
      | cons q l =>
        obtain ⟨p', parts', rfl⟩ := List.exists_cons_of_length_pos (l := parts) (by simp at hp; omega)
        have := consecutive_blocks o (q :: l) (k + s.size) n (p' :: parts') (pre ++ p) hnext.1 (by simpa using hp)
          (by simp [hpre, hp0]) (fun i h1 h2 => hsz (i + 1) (by simp at h1 ⊢; omega) (by simp at h2 ⊢; omega)) 0 (by simp) (by simp)
        simpa using this.2.2
    | i + 1 =>
      have := consecutive_blocks o l (k + s.size) n parts (pre ++ p) hnext.1 (by simpa using hp)
        (by simp [hpre, hp0]) (fun i h1 h2 => hsz (i + 1) (by simp at h1 ⊢; omega) (by simp at h2 ⊢; omega)) i
        (by simp at h1; omega) (by simp at h2; omega)
      simpa using this

theorem mapM_feasible {C : Type} (o : Ops C) (x : List XR) : ∀ (l : List (C × Slice)),
    (∀ p ∈ l, p.2.Inside x.length) →
    (∀ p ∈ l, ∃ y, o.feasible p.1 p.2.size = .ok y ∧ y.length = p.2.size ∧ o.check p.1 y = .ok true) →
    ∃ parts : List (List XR), (l.mapM fun (c, s) => (do let p ← s.get x; o.feasible c p.length : Except Err (List XR))) = .ok parts ∧
      parts.length = l.length ∧ ∀ i : Nat, ∀ (h1 : i < l.length) (h2 : i < parts.length),
        parts[i].length = l[i].2.size ∧ o.check l[i].1 parts[i] = .ok true
  | [], _, _ => ⟨[], rfl, rfl, by intro i h1; simp at h1⟩
  | (c, s) :: l, hin, hf => by
    obtain ⟨parts, hm, hlen, hall⟩ := mapM_feasible o x l (fun p hp => hin p (by simp [hp])) (fun p hp => hf p (by simp [hp]))
    obtain ⟨y, hy, hyl, hyc⟩ := hf (c, s) (by simp)
    have hb := get_inside x s (hin (c, s) (by simp))
    have hbl : (s.block x).length = s.size := by
      have := hin (c, s) (by simp)
      cases s with
      | idx i =>
        obtain ⟨h0, h1⟩ := this
        have hi : i.toNat < x.length := by omega
        simp [Slice.block, Slice.size, List.getElem?_eq_getElem hi]
      | range a b =>
        obtain ⟨h0, h1, h2⟩ := this
        simp only [Slice.block, Slice.size, List.length_take, List.length_drop]
        omega
    refine ⟨y :: parts, ?_, by simp [hlen], ?_⟩
    · rw [List.mapM_cons]
      simp only [bind, Except.bind, hb, hbl, hy, pure, Except.pure] at hm ⊢
      rw [hm]
    · intro i h1 h2
      match i with
      | 0 => exact ⟨hyl, hyc⟩
      | i + 1 => exact hall i (by simpa using h1) (by simpa using h2)

/-- **C20 (partial).**  The feasible point of `all_constraint` is accepted when the slices are listed in order, cover the event without gap or
overlap, and each part's own feasible point has the right size and is accepted by that part.  For slices listed in another order it is
false: see `C20_feasible_order_violated`. -/
theorem C20_all_feasible_partial {C : Type} (o : Ops C) (a : AllC C) (prototype : List XR) (hne : a.constraints ≠ [])
    (hlen : a.constraints.length = a.slices.length) (hcons : Consecutive 0 a.slices prototype.length)
    (hin : ∀ s ∈ a.slices, s.Inside prototype.length)
    (hf : ∀ p ∈ a.constraints.zip a.slices, ∃ y, o.feasible p.1 p.2.size = .ok y ∧ y.length = p.2.size ∧ o.check p.1 y = .ok true) :
    ∃ y, a.feasible o prototype = .ok y ∧ y.length = prototype.length ∧ a.check o y = .ok (some true) := by
  obtain ⟨parts, hm, hpl, hall⟩ := mapM_feasible o prototype (a.constraints.zip a.slices) (fun p hp => hin _ (List.of_mem_zip hp).2) hf
  have hsnd : (a.constraints.zip a.slices).map (·.2) = a.slices := List.map_snd_zip (by omega)
  have hblocks := consecutive_blocks o (a.constraints.zip a.slices) 0 prototype.length parts [] (by rw [hsnd]; exact hcons) hpl rfl
    (fun i h1 h2 => (hall i h1 h2).1)
  simp only [List.nil_append] at hblocks
  have hzl : (a.constraints.zip a.slices).length = a.constraints.length := by simp; omega
  have hpos : 0 < a.constraints.length := List.length_pos_iff.2 hne
  have hyl : parts.flatten.length = prototype.length := (hblocks 0 (by omega) (by omega)).2.2
  refine ⟨parts.flatten, ?_, hyl, ?_⟩
  · simp only [AllC.feasible, bind, Except.bind, pure, Except.pure] at hm ⊢
    rw [hm]
  · have hchk : ∀ i : Nat, ∀ (h1 : i < a.constraints.length) (h2 : i < a.slices.length),
        o.check a.constraints[i] (a.slices[i].block parts.flatten) = .ok true := by
      intro i h1 h2
      have h3 := hblocks i (by omega) (by omega)
      have h4 := (hall i (by omega) (by omega)).2
      simp only [List.getElem_zip] at h3 h4
      rw [h3.2.1]
      exact h4
    obtain ⟨b, hb, hiff⟩ := C20_all_iff o a parts.flatten hne hlen (by rw [hyl]; exact hin) (fun i h1 h2 => ⟨_, hchk i h1 h2⟩)
    rw [hb, hiff.2 hchk]

/-- **C20 (feasible point with slices listed out of order).**  `feasible_like` concatenates the blocks in the order of the list, not at the
positions the slices name.  Two unit intervals, `[10, 20]` for coordinate 1 and `[0, 1]` for coordinate 0: the returned point is `(15, 1/2)`,
which the constraint rejects. -/
theorem C20_feasible_order_violated : ∃ (a : AllC Leaf) (x y : List XR), (∀ s ∈ a.slices, s.Inside x.length) ∧
    a.feasible leafOps x = .ok y ∧ a.check leafOps y = .ok (some false) := by
  refine ⟨⟨[.intervals [10] [20], .intervals [0] [1]], [.idx 1, .idx 0]⟩, [fin 0, fin 0], [fin 15, fin (1 / 2)], ?_, ?_, ?_⟩
  · simp [Slice.Inside]
  · simp [AllC.feasible, leafOps, Leaf.feasible, Slice.get, dynSlice, bind, Except.bind, pure, Except.pure]
    norm_num
  · simp [AllC.check, allLoop, leafOps, Leaf.check, Slice.get, dynSlice, allWithin, bind, Except.bind, le]

/-- A joint support with a two-mass block and a redshift meets the hypotheses of `C20_all_iff` and of `C20_all_feasible_partial`. -/
example : ∃ y, (AllC.mk [Leaf.massSandwich 5 50, Leaf.intervals [0] [2]] [.range 0 2, .idx 2]).feasible leafOps [1, 1, 1] = .ok y ∧
    y.length = 3 ∧
    (AllC.mk [Leaf.massSandwich 5 50, Leaf.intervals [0] [2]] [.range 0 2, .idx 2]).check leafOps y = .ok (some true) := by
  apply C20_all_feasible_partial
  · simp
  · simp
  · simp [Consecutive]
  · simp [Slice.Inside]
  · intro p hp
    simp only [List.zip_cons_cons, List.zip_nil_right, List.mem_cons, List.not_mem_nil, or_false] at hp
    rcases hp with rfl | rfl
    · obtain ⟨x, h1, h2, h3⟩ := (C19_feasible 5 50 (by norm_num) (by norm_num)).1
      exact ⟨x, h1, h2, h3⟩
    · refine ⟨[fin ((0 + 2) / 2)], rfl, rfl, ?_⟩
      simp [leafOps, Leaf.check, allWithin, le]

end GW.Constraints
