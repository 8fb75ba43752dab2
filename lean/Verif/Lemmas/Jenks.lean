import Verif.Spec.Jenks
import Mathlib.Tactic.Linarith
import Mathlib.Tactic.Ring
import Mathlib.Tactic.Positivity
import Mathlib.Tactic.FieldSimp
import Mathlib.Algebra.BigOperators.Group.List.Basic
import Mathlib.Algebra.Order.Field.Basic

namespace GW.Jenks

theorem le_maxOf {l : List Nat} {a : Nat} (h : a ∈ l) : a ≤ maxOf l := by
  induction l with
  | nil => cases h
  | cons b l ih =>
    simp only [maxOf, List.foldr_cons]
    rcases List.mem_cons.1 h with rfl | h
    · omega
    · have := ih h; simp only [maxOf] at this; omega

theorem maxOf_mem {l : List Nat} (h : l ≠ []) : maxOf l ∈ l ∨ maxOf l = 0 := by
  induction l with
  | nil => exact absurd rfl h
  | cons b l ih =>
    by_cases hl : l = []
    · subst hl; left; simp [maxOf]
    · have := ih hl
      simp only [maxOf, List.foldr_cons] at this ⊢
      rcases Nat.le_total b (List.foldr max 0 l) with hle | hle
      · rw [Nat.max_eq_right hle]
        rcases this with h | h
        · left; simp [h]
        · right; exact h
      · rw [Nat.max_eq_left hle]; left; simp

theorem sum_le_length_mul_maxOf (l : List Nat) : l.sum ≤ l.length * maxOf l := by
  have : ∀ (l : List Nat) m, (∀ a ∈ l, a ≤ m) → l.sum ≤ l.length * m := by
    intro l
    induction l with
    | nil => simp
    | cons a l ih =>
      intro m h
      have h1 := h a (by simp)
      have h2 := ih m fun b hb => h b (by simp [hb])
      simp only [List.sum_cons, List.length_cons]
      rw [Nat.add_mul]; omega
  exact this l _ fun a ha => le_maxOf ha

theorem searchRight_mono (data : List Nat) {v w : Nat} (h : v ≤ w) : searchRight data v ≤ searchRight data w := by
  unfold searchRight
  induction data with
  | nil => simp
  | cons a data ih =>
    simp only [List.filter_cons]
    split_ifs with h1 h2
    · simpa using ih
    · simp only [decide_eq_true_eq] at h1 h2; omega
    · simp; omega
    · exact ih

theorem searchRight_le (data : List Nat) (v : Nat) : searchRight data v ≤ data.length :=
  List.length_filter_le _ _

theorem rightMostAll_ok {data bs r : List Nat} (h : rightMostAll data bs = .ok r) :
    r.map (· + 1) = bs.map (searchRight data) := by
  induction bs generalizing r with
  | nil => simp [rightMostAll] at h; subst h; rfl
  | cons b bs ih =>
    simp only [rightMostAll, bind, Except.bind, pure, Except.pure] at h
    cases h1 : rightMostIndex data b with
    | error e => rw [h1] at h; cases h
    | ok i =>
      rw [h1] at h
      cases h2 : rightMostAll data bs with
      | error e => simp only [h2] at h; cases h
      | ok r' =>
        simp only [h2, Except.ok.injEq] at h
        subst h
        simp only [List.map_cons, ih h2, List.cons.injEq, and_true]
        unfold rightMostIndex at h1
        simp only at h1
        split_ifs at h1 with hc
        simp only [Except.ok.injEq] at h1
        simp only [Bool.or_eq_true, decide_eq_true_eq, not_or] at hc
        omega

theorem setLast_getLast? : ∀ (l : List Nat) (v : Nat), l ≠ [] → (setLast l v).getLast? = some v
  | [], _, h => absurd rfl h
  | [_], _, _ => rfl
  | a :: b :: l, v, _ => by
    rw [setLast]
    have := setLast_getLast? (b :: l) v (by simp)
    rw [List.getLast?_cons, this]
    rfl

theorem setLast_mem : ∀ (l : List Nat) (v x : Nat), x ∈ setLast l v → x ∈ l ∨ x = v
  | [], _, _, h => by simp [setLast] at h
  | [_], _, _, h => by simp [setLast] at h; right; exact h
  | a :: b :: l, v, x, h => by
    rw [setLast] at h
    rcases List.mem_cons.1 h with rfl | h
    · left; simp
    · rcases setLast_mem (b :: l) v x h with h | h
      · left; simp [List.mem_cons.1 h]
      · right; exact h

theorem setLast_sorted : ∀ (l : List Nat) (v : Nat), l.Pairwise (· ≤ ·) → (∀ a ∈ l, a ≤ v) →
    (setLast l v).Pairwise (· ≤ ·)
  | [], _, _, _ => by simp [setLast]
  | [_], _, _, _ => by simp [setLast]
  | a :: b :: l, v, h, hv => by
    rw [setLast]
    rw [List.pairwise_cons] at h ⊢
    refine ⟨fun x hx => ?_, setLast_sorted (b :: l) v h.2 fun c hc => hv c (by simp [List.mem_cons.1 hc])⟩
    rcases setLast_mem _ _ _ hx with hx | rfl
    · exact h.1 x hx
    · exact hv a (by simp)

theorem naturalBreaks_ok {orc : Oracle} (ho : OracleSorted orc) {data : List Nat} (hs : data.Pairwise (· ≤ ·))
    {n : Nat} {idx : List Nat} (h : naturalBreaks orc data n = .ok idx) (h2 : getSubsets data idx ≠ []) :
    Boundaries idx data.length := by
  unfold naturalBreaks at h
  simp only [bind, Except.bind, pure, Except.pure, throw, throwThe, MonadExceptOf.throw] at h
  split_ifs at h with hn h1
  · cases h3 : rightMostAll data (List.drop 1 [data.headD 0, data.getLastD 0]) with
    | error e => rw [h3] at h; cases h
    | ok r =>
      rw [h3] at h
      have hr := rightMostAll_ok h3
      simp only [Except.ok.injEq] at h
      rw [hr] at h
      have hsorted : (0 :: List.map (searchRight data) (List.drop 1 [data.headD 0, data.getLastD 0])).Pairwise
          (· ≤ ·) := by simp
      have hle : ∀ a ∈ (0 :: List.map (searchRight data) (List.drop 1 [data.headD 0, data.getLastD 0])),
          a ≤ data.length := by
        simp [searchRight_le]
      subst h
      split_ifs with hc
      · exact ⟨rfl, setLast_getLast? _ _ (by simp), setLast_sorted _ _ hsorted hle⟩
      · refine ⟨rfl, ?_, hsorted⟩
        simp only [ne_eq, not_not] at hc
        simpa using hc
  · cases h4 : orc data n with
    | error e => rw [h4] at h; cases h
    | ok bs =>
      rw [h4] at h
      simp only at h
      cases h3 : rightMostAll data (bs.drop 1) with
      | error e => rw [h3] at h; cases h
      | ok r =>
        rw [h3] at h
        have hr := rightMostAll_ok h3
        simp only [Except.ok.injEq] at h
        rw [hr] at h
        have hbs := (ho data n bs hs h4).sublist (List.drop_sublist 1 bs)
        have hsorted : (0 :: List.map (searchRight data) (bs.drop 1)).Pairwise (· ≤ ·) := by
          rw [List.pairwise_cons]
          refine ⟨by simp, ?_⟩
          rw [List.pairwise_map]
          exact hbs.imp fun h => searchRight_mono data h
        have hle : ∀ a ∈ (0 :: List.map (searchRight data) (bs.drop 1)), a ≤ data.length := by
          intro a ha
          simp only [List.mem_cons, List.mem_map] at ha
          rcases ha with rfl | ⟨b, _, rfl⟩
          · omega
          · exact searchRight_le _ _
        subst h
        cases hd : bs.drop 1 with
        | nil =>
          exfalso
          apply h2
          rw [hd]
          simp only [List.map_nil]
          split_ifs <;> rfl
        | cons c cs =>
          rw [hd] at hsorted hle
          split_ifs with hc
          · exact ⟨rfl, setLast_getLast? _ _ (by simp), setLast_sorted _ _ hsorted hle⟩
          · refine ⟨rfl, ?_, hsorted⟩
            simp only [ne_eq, not_not] at hc
            rw [← hc]
            simp [List.getLast?_cons]

theorem partitionForBucket_ok {orc : Oracle} (ho : OracleSorted orc) {data : List Nat} (hs : data.Pairwise (· ≤ ·))
    {n : Nat} {idx : List Nat} {l : ℚ}
    (h : partitionForBucket orc data n = .ok (idx, l)) :
    Boundaries idx data.length ∧ l = totalLoss (getSubsets data idx) := by
  unfold partitionForBucket at h
  simp only [bind, Except.bind, pure, Except.pure, throw, throwThe, MonadExceptOf.throw] at h
  cases h1 : naturalBreaks orc data n with
  | error e => rw [h1] at h; cases h
  | ok i =>
    rw [h1] at h
    simp only at h
    split_ifs at h with h2
    simp only [Except.ok.injEq, Prod.mk.injEq] at h
    obtain ⟨rfl, rfl⟩ := h
    exact ⟨naturalBreaks_ok ho hs h1 (by simpa using h2), rfl⟩

theorem sorted_le_getLast {data : List Nat} (hs : data.Pairwise (· ≤ ·)) (a : Nat) (ha : a ∈ data) :
    a ≤ data.getLastD 0 := by
  induction data generalizing a with
  | nil => cases ha
  | cons b data ih =>
    rw [List.pairwise_cons] at hs
    cases data with
    | nil => simp at ha; subst ha; simp
    | cons c data =>
      have h1 := fun a ha => ih hs.2 a ha
      have hlast : (b :: c :: data).getLastD 0 = (c :: data).getLastD 0 := by simp
      rw [hlast]
      rcases List.mem_cons.1 ha with rfl | ha
      · exact Nat.le_trans (hs.1 c (by simp)) (h1 c (by simp))
      · exact h1 a ha

/-- With one bucket the boundaries are `[0, n]`, for every oracle. -/
theorem partitionForBucket_one (orc : Oracle) {data : List Nat} (hne : data ≠ []) (hs : data.Pairwise (· ≤ ·)) :
    ∃ l, partitionForBucket orc data 1 = .ok ([0, data.length], l) := by
  have hlen : 1 ≤ data.length := List.length_pos_iff.2 hne
  have hsr : searchRight data (data.getLastD 0) = data.length := by
    unfold searchRight
    rw [List.filter_eq_self.2]
    intro a ha
    simpa using sorted_le_getLast hs a ha
  have hlast : data[data.length - 1]? = some (data.getLastD 0) := by
    rw [← List.getLast?_eq_getElem?]
    cases data with
    | nil => exact absurd rfl hne
    | cons a l => simp [List.getLast?_cons]
  have hr : rightMostIndex data (data.getLastD 0) = .ok (data.length - 1) := by
    unfold rightMostIndex
    simp only [hsr]
    rw [if_neg]
    simp only [Bool.or_eq_true, decide_eq_true_eq, hlast, bne_self_eq_false, Bool.false_eq_true, or_false]
    omega
  refine ⟨totalLoss (getSubsets data [0, data.length]), ?_⟩
  have hn : naturalBreaks orc data 1 = .ok [0, data.length] := by
    unfold naturalBreaks
    rw [if_neg (by omega)]
    simp only [pure, Except.pure, bind, Except.bind, if_true, List.drop_succ_cons, List.drop_zero, rightMostAll, hr,
      List.map_cons, List.map_nil]
    have : data.length - 1 + 1 = data.length := by omega
    rw [this]
    simp
  unfold partitionForBucket
  simp only [hn, bind, Except.bind, pure, Except.pure, getSubsets]
  simp

theorem autoLosses_spec {orc : Oracle} {data : List Nat} :
    ∀ (fuel c : Nat) (ls : List ℚ), autoLosses orc data fuel c = .ok ls →
      ls.length ≤ fuel ∧
      (∀ (i : Nat) l, ls[i]? = some l → ∃ idx, partitionForBucket orc data (c + i) = .ok (idx, l)) ∧
      (ls.length = fuel ∨ partitionForBucket orc data (c + ls.length) = .error .valueError) := by
  intro fuel
  induction fuel with
  | zero =>
    intro c ls h
    simp only [autoLosses, Except.ok.injEq] at h
    subst h
    simp
  | succ fuel ih =>
    intro c ls h
    rw [autoLosses] at h
    cases hp : partitionForBucket orc data c with
    | error e =>
      rw [hp] at h
      cases e with
      | valueError => simp only [Except.ok.injEq] at h; subst h; simp [hp]
      | other => cases h
    | ok r =>
      obtain ⟨idx, l⟩ := r
      rw [hp] at h
      simp only [bind, Except.bind, pure, Except.pure] at h
      cases h1 : autoLosses orc data fuel (c + 1) with
      | error e => rw [h1] at h; cases h
      | ok ls' =>
        rw [h1] at h
        simp only [Except.ok.injEq] at h
        subst h
        obtain ⟨i1, i2, i3⟩ := ih (c + 1) ls' h1
        refine ⟨by simpa using i1, ?_, ?_⟩
        · intro i l' hl
          cases i with
          | zero => simp only [List.getElem?_cons_zero, Option.some.injEq] at hl; subst hl; exact ⟨idx, hp⟩
          | succ i =>
            obtain ⟨idx', h'⟩ := i2 i l' (by simpa using hl)
            exact ⟨idx', by rwa [show c + 1 + i = c + (i + 1) by omega] at h'⟩
        · rcases i3 with h | h
          · left; simp [h]
          · right
            rw [List.length_cons, show c + (ls'.length + 1) = c + 1 + ls'.length by omega]; exact h

theorem reductions_length (ls : List ℚ) : (reductions ls).length = ls.length - 1 := by
  induction ls with
  | nil => rfl
  | cons a ls ih =>
    cases ls with
    | nil => rfl
    | cons b r => rw [reductions, List.length_cons, ih]; simp

theorem reductions_get (ls : List ℚ) (i : Nat) (a b : ℚ) (ha : ls[i]? = some a) (hb : ls[i + 1]? = some b) :
    (reductions ls)[i]? = some (a - b) := by
  induction ls generalizing i with
  | nil => simp at ha
  | cons c ls ih =>
    cases ls with
    | nil => simp at hb
    | cons d r =>
      cases i with
      | zero =>
        simp only [List.getElem?_cons_zero, Option.some.injEq, Nat.zero_add, List.getElem?_cons_succ] at ha hb
        subst ha; subst hb; simp [reductions]
      | succ i =>
        rw [reductions, List.getElem?_cons_succ]
        exact ih i (by simpa using ha) (by simpa using hb)

theorem getSubsets_flatten {β} (xs : List β) : ∀ (idx : List Nat) (a : Nat), idx.head? = some a →
    idx.Pairwise (· ≤ ·) → idx.getLast? = some xs.length → (getSubsets xs idx).flatten = xs.drop a
  | [], _, h, _, _ => by simp at h
  | [b], a, h, _, hl => by
    simp only [List.head?_cons, Option.some.injEq] at h
    simp only [List.getLast?_singleton, Option.some.injEq] at hl
    subst h; subst hl
    simp [getSubsets]
  | b :: c :: r, a, h, hs, hl => by
    simp only [List.head?_cons, Option.some.injEq] at h
    subst h
    rw [List.pairwise_cons] at hs
    rw [getSubsets, List.flatten_cons, getSubsets_flatten xs (c :: r) c rfl hs.2 (by simpa using hl)]
    have hbc : b ≤ c := hs.1 c (by simp)
    conv_rhs => rw [← List.take_append_drop c xs]
    rw [List.drop_append]
    by_cases hc : c ≤ xs.length
    · have : b - (List.take c xs).length = 0 := by simp; omega
      rw [this, List.drop_zero]
    · rw [List.drop_eq_nil_of_le (show xs.length ≤ c by omega)]; simp

theorem getSubsets_map {β γ} (f : β → γ) (xs : List β) : ∀ idx : List Nat,
    getSubsets (xs.map f) idx = (getSubsets xs idx).map (List.map f)
  | [] => rfl
  | [_] => rfl
  | a :: b :: r => by
    rw [getSubsets, getSubsets, List.map_cons, getSubsets_map f xs (b :: r)]
    simp [List.map_take, List.map_drop]

theorem getSubsets_length {β} (xs : List β) : ∀ idx : List Nat, (getSubsets xs idx).length = idx.length - 1
  | [] => rfl
  | [_] => rfl
  | a :: b :: r => by rw [getSubsets, List.length_cons, getSubsets_length xs (b :: r)]; simp

theorem unpad_replicate {α} (l p : List α) :
    unpad (l ++ p) (List.replicate l.length true ++ List.replicate p.length false) = l := by
  unfold unpad
  rw [List.zip_append (by simp), List.filter_append, List.map_append]
  have h1 : (l.zip (List.replicate l.length true)).filter (·.2) = l.map fun a => (a, true) := by
    induction l with
    | nil => rfl
    | cons a l ih => simp [List.replicate_succ, ih]
  have h2 : (p.zip (List.replicate p.length false)).filter (·.2) = [] := by
    induction p with
    | nil => rfl
    | cons a p ih => simpa [List.replicate_succ] using ih
  rw [h1, h2]
  simp [List.map_map, Function.comp_def]

end GW.Jenks
