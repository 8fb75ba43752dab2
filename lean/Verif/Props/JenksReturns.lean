import Verif.Props.Jenks

/-! # C08, C09: which buckets are made -/

namespace GW.Jenks

theorem filter_le_split {data : List Nat} (hs : data.Pairwise (· ≤ ·)) (v : Nat) : data = data.filter (· ≤ v) ++ data.filter (fun a => !decide (a ≤ v)) := by
  induction data with
  | nil => rfl
  | cons a l ih =>
    rw [List.pairwise_cons] at hs
    by_cases h : a ≤ v
    · simp only [List.filter_cons, h, decide_true, if_true, Bool.not_true, List.cons_append]
      rw [if_neg (by simp), ← ih hs.2]
    · have h0 : l.filter (· ≤ v) = [] := List.filter_eq_nil_iff.2 fun b hb => by have := hs.1 b hb; simp; omega
      have h1 : l.filter (fun a => !decide (a ≤ v)) = l := List.filter_eq_self.2 fun b hb => by have := hs.1 b hb; simp; omega
      simp only [List.filter_cons, h, decide_false, Bool.not_false, if_true, h0, h1]
      simp

theorem take_searchRight {data : List Nat} (hs : data.Pairwise (· ≤ ·)) (v : Nat) : data.take (searchRight data v) = data.filter (· ≤ v) := by
  have h := List.take_left (l₁ := data.filter (· ≤ v)) (l₂ := data.filter (fun a => !decide (a ≤ v)))
  rw [← filter_le_split hs v] at h
  exact h

theorem drop_searchRight {data : List Nat} (hs : data.Pairwise (· ≤ ·)) (v : Nat) : data.drop (searchRight data v) = data.filter (fun a => !decide (a ≤ v)) := by
  have h := List.drop_left (l₁ := data.filter (· ≤ v)) (l₂ := data.filter (fun a => !decide (a ≤ v)))
  rw [← filter_le_split hs v] at h
  exact h

/-- A cut that separates smaller from larger sizes. -/
def StrictCut (data : List Nat) (b : Nat) : Prop := ∀ x ∈ data.take b, ∀ y ∈ data.drop b, x < y

theorem strictCut_searchRight {data : List Nat} (hs : data.Pairwise (· ≤ ·)) (v : Nat) : StrictCut data (searchRight data v) := by
  intro x hx y hy
  rw [take_searchRight hs] at hx
  rw [drop_searchRight hs] at hy
  simp only [List.mem_filter, decide_eq_true_eq, Bool.not_eq_true', decide_eq_false_iff_not] at hx hy
  omega

theorem strictCut_length (data : List Nat) : StrictCut data data.length := by intro x _ y hy; simp at hy

theorem strictCut_zero (data : List Nat) : StrictCut data 0 := by intro x hx; simp at hx

theorem searchRight_lt {data : List Nat} (hs : data.Pairwise (· ≤ ·)) {v w : Nat} (h : v < w) (hw : w ∈ data) : searchRight data v < searchRight data w := by
  by_contra hle
  have h1 : w ∈ data.take (searchRight data w) := by rw [take_searchRight hs]; simp [hw]
  have h2 : w ∈ data.take (searchRight data v) := (List.take_subset_take_left data (by omega)) h1
  rw [take_searchRight hs] at h2
  simp only [List.mem_filter, decide_eq_true_eq] at h2
  omega

theorem searchRight_pos {data : List Nat} {v : Nat} (hv : v ∈ data) : 0 < searchRight data v :=
  List.length_pos_of_mem (a := v) (by simp [hv])

theorem rightMostIndex_mem {data : List Nat} (hs : data.Pairwise (· ≤ ·)) {v : Nat} (hv : v ∈ data) : rightMostIndex data v = .ok (searchRight data v - 1) := by
  have h0 := searchRight_pos hv
  have hle := searchRight_le data v
  have hmem : v ∈ data.take (searchRight data v) := by rw [take_searchRight hs]; simp [hv]
  obtain ⟨i, hi, he⟩ := List.getElem_of_mem hmem
  rw [List.getElem_take] at he
  rw [List.length_take] at hi
  have hlast : data[searchRight data v - 1]'(by omega) = v := by
    apply Nat.le_antisymm
    · have : data[searchRight data v - 1]'(by omega) ∈ data.take (searchRight data v) := by
        rw [List.mem_take_iff_getElem]
        exact ⟨searchRight data v - 1, by omega, rfl⟩
      rw [take_searchRight hs] at this
      simpa using (List.mem_filter.1 this).2
    · rw [List.pairwise_iff_getElem] at hs
      rcases Nat.lt_or_ge i (searchRight data v - 1) with h | h
      · exact he.symm.le.trans (hs i (searchRight data v - 1) _ _ h)
      · have : i = searchRight data v - 1 := by omega
        subst this
        exact he.ge
  unfold rightMostIndex
  simp only
  rw [if_neg]
  rw [List.getElem?_eq_getElem (by omega), hlast]
  simp
  omega

theorem rightMostAll_mem {data : List Nat} (hs : data.Pairwise (· ≤ ·)) : ∀ bs : List Nat, (∀ b ∈ bs, b ∈ data) → ∃ r, rightMostAll data bs = .ok r
  | [], _ => ⟨[], rfl⟩
  | b :: bs, h => by
    obtain ⟨r, hr⟩ := rightMostAll_mem hs bs fun b hb => h b (by simp [hb])
    refine ⟨(searchRight data b - 1) :: r, ?_⟩
    simp only [rightMostAll, bind, Except.bind, pure, Except.pure, rightMostIndex_mem hs (h b (by simp)), hr]

theorem setLast_length : ∀ (l : List Nat) (v : Nat), (setLast l v).length = l.length
  | [], _ => rfl
  | [_], _ => rfl
  | a :: b :: l, v => by rw [setLast, List.length_cons, setLast_length (b :: l) v]; rfl

theorem setLast_strict : ∀ (l : List Nat) (v : Nat), l.Pairwise (· < ·) → (∀ a ∈ l, a ≤ v) → (setLast l v).Pairwise (· < ·)
  | [], _, _, _ => by simp [setLast]
  | [_], _, _, _ => by simp [setLast]
  | a :: b :: l, v, h, hv => by
    rw [setLast]
    rw [List.pairwise_cons] at h ⊢
    refine ⟨fun x hx => ?_, setLast_strict (b :: l) v h.2 fun a ha => hv a (by simp [ha])⟩
    rcases setLast_mem (b :: l) v x hx with hx | rfl
    · exact h.1 x hx
    · exact Nat.lt_of_lt_of_le (h.1 b (by simp)) (hv b (by simp))

theorem naturalBreaks_cuts {orc : Oracle} {data : List Nat} (hs : data.Pairwise (· ≤ ·)) {n : Nat} {idx : List Nat} (h : naturalBreaks orc data n = .ok idx) : ∀ b ∈ idx, StrictCut data b := by
  unfold naturalBreaks at h
  simp only [bind, Except.bind, pure, Except.pure, throw, throwThe, MonadExceptOf.throw] at h
  have key : ∀ r bs, rightMostAll data bs = .ok r → ∀ b ∈ 0 :: r.map (· + 1), StrictCut data b := by
    intro r bs hr b hb
    rw [rightMostAll_ok hr] at hb
    rcases List.mem_cons.1 hb with rfl | hb
    · exact strictCut_zero data
    · obtain ⟨v, -, rfl⟩ := List.mem_map.1 hb
      exact strictCut_searchRight hs v
  have key2 : ∀ r bs, rightMostAll data bs = .ok r →
      ∀ b ∈ (if (0 :: r.map (· + 1)).getLastD 0 ≠ data.length then setLast (0 :: r.map (· + 1)) data.length else 0 :: r.map (· + 1)), StrictCut data b := by
    intro r bs hr b hb
    split_ifs at hb
    · rcases setLast_mem _ _ _ hb with hb | rfl
      · exact key r bs hr b hb
      · exact strictCut_length data
    · exact key r bs hr b hb
  split_ifs at h with hn h1
  · cases h3 : rightMostAll data (List.drop 1 [data.headD 0, data.getLastD 0]) with
    | error e => rw [h3] at h; cases h
    | ok r =>
      rw [h3] at h
      simp only [Except.ok.injEq] at h
      subst h
      exact key2 r _ h3
  · cases h2 : orc data n with
    | error e => rw [h2] at h; cases h
    | ok bs =>
      rw [h2] at h
      simp only at h
      cases h3 : rightMostAll data (List.drop 1 bs) with
      | error e => rw [h3] at h; cases h
      | ok r =>
        rw [h3] at h
        simp only [Except.ok.injEq] at h
        subst h
        exact key2 r _ h3

theorem partitionForBucket_inv {orc : Oracle} {data : List Nat} {n : Nat} {idx : List Nat} {l : ℚ} (h : partitionForBucket orc data n = .ok (idx, l)) : naturalBreaks orc data n = .ok idx := by
  unfold partitionForBucket at h
  simp only [bind, Except.bind, pure, Except.pure, throw, throwThe, MonadExceptOf.throw] at h
  cases h1 : naturalBreaks orc data n with
  | error e => rw [h1] at h; cases h
  | ok i =>
    rw [h1] at h
    simp only at h
    split_ifs at h
    simp only [Except.ok.injEq, Prod.mk.injEq] at h
    rw [h.1]

theorem getSubsets_mem {β} (xs : List β) : ∀ (b : Nat) (idx : List Nat), (b :: idx).Pairwise (· ≤ ·) → ∀ g ∈ getSubsets xs (b :: idx), ∀ x ∈ g, x ∈ xs.drop b
  | _, [], _, g, hg, _, _ => by simp [getSubsets] at hg
  | a, b :: rest, hp, g, hg, x, hx => by
    rw [getSubsets] at hg
    rw [List.pairwise_cons] at hp
    rcases List.mem_cons.1 hg with rfl | hg
    · have : (xs.take b).drop a = (xs.drop a).take (b - a) := by rw [List.drop_take]
      rw [this] at hx
      exact List.mem_of_mem_take hx
    · have := getSubsets_mem xs b rest hp.2 g hg x hx
      exact (List.drop_subset_drop_left xs (hp.1 b (by simp))) this

theorem getSubsets_strict {data : List Nat} : ∀ idx : List Nat, idx.Pairwise (· ≤ ·) → (∀ b ∈ idx, StrictCut data b) → (getSubsets data idx).Pairwise fun g g' => ∀ x ∈ g, ∀ y ∈ g', x < y
  | [], _, _ => by simp [getSubsets]
  | [_], _, _ => by simp [getSubsets]
  | a :: b :: rest, hp, hc => by
    rw [getSubsets, List.pairwise_cons]
    rw [List.pairwise_cons] at hp
    refine ⟨fun g' hg' x hx y hy => ?_, getSubsets_strict (b :: rest) hp.2 fun c h => hc c (by simp [h])⟩
    exact hc b (by simp) x (List.mem_of_mem_drop hx) y (getSubsets_mem data b rest hp.2 g' hg' y hy)

/-- **C09.**  Whatever the clustering library answers, every size in a bucket is smaller than every size in a later bucket: events of equal size are in the same bucket. -/
theorem C09_equal_sizes_together (orc : Oracle) (ho : OracleSorted orc) (data : List Nat) (hs : data.Pairwise (· ≤ ·)) (nb : Option Nat) (thr : ℚ) (idx : List Nat)
    (h : partitionData orc data nb thr = .ok idx) : (getSubsets data idx).Pairwise fun g g' => ∀ x ∈ g, ∀ y ∈ g', x < y := by
  rcases eq_or_ne data [] with rfl | hne
  · simp [partitionData] at h
    subst h
    simp [getSubsets]
  have hb := (C09_boundaries_partition orc ho data hne hs nb thr idx h).1
  refine getSubsets_strict idx hb.sorted ?_
  have triv : ∀ b ∈ [0, data.length], StrictCut data b := by
    intro b hb
    simp only [List.mem_cons, List.not_mem_nil, or_false] at hb
    rcases hb with rfl | rfl
    · exact strictCut_zero data
    · exact strictCut_length data
  unfold partitionData at h
  have hl : data.length ≠ 0 := by simpa using hne
  simp only [hl, if_false] at h
  split_ifs at h with h1
  · simp only [Except.ok.injEq] at h; subst h; exact triv
  · cases nb with
    | some n =>
      simp only [bind, Except.bind, pure, Except.pure] at h
      cases hp : partitionForBucket orc data (if data.dedup.length < n then data.dedup.length else n) with
      | error e => rw [hp] at h; cases h
      | ok r =>
        obtain ⟨i, l⟩ := r
        rw [hp] at h
        simp only [Except.ok.injEq] at h
        subst h
        exact naturalBreaks_cuts hs (partitionForBucket_inv hp)
    | none =>
      simp only [bind, Except.bind, pure, Except.pure, throw, throwThe, MonadExceptOf.throw] at h
      cases ha : autoLosses orc data data.dedup.length 1 with
      | error e => rw [ha] at h; cases h
      | ok ls =>
        rw [ha] at h
        simp only at h
        split_ifs at h with h2 h3
        · simp only [Except.ok.injEq] at h; subst h; exact triv
        · cases hp : partitionForBucket orc data (chooseBuckets ls thr) with
          | error e => rw [hp] at h; cases h
          | ok r =>
            obtain ⟨i, l⟩ := r
            rw [hp] at h
            simp only [Except.ok.injEq] at h
            subst h
            exact naturalBreaks_cuts hs (partitionForBucket_inv hp)

theorem partitionForBucket_returns {orc : Oracle} (ho : OracleBreaks orc) {data : List Nat} (hne : data ≠ []) (hs : data.Pairwise (· ≤ ·)) {n : Nat} (h1 : 1 ≤ n) (hn : n ≤ data.dedup.length) :
    ∃ idx l, partitionForBucket orc data n = .ok (idx, l) ∧ idx.length = n + 1 ∧ idx.Pairwise (· < ·) := by
  have hlen : 1 ≤ data.length := List.length_pos_iff.2 hne
  rcases Nat.lt_or_ge 1 n with h2 | h2
  · obtain ⟨low, ups, ho1, ho2, ho3, ho4⟩ := ho data n hs h2 hn
    obtain ⟨r, hr⟩ := rightMostAll_mem hs ups ho4
    have hr' := rightMostAll_ok hr
    have hle : n ≤ data.length := hn.trans (List.dedup_sublist data).length_le
    have hstrict : (0 :: r.map (· + 1)).Pairwise (· < ·) := by
      rw [List.pairwise_cons]
      refine ⟨by simp, ?_⟩
      rw [hr', List.pairwise_map]
      exact List.Pairwise.imp_of_mem (fun _ hb h => searchRight_lt hs h (ho4 _ hb)) ho3
    have hbound : ∀ a ∈ 0 :: r.map (· + 1), a ≤ data.length := by
      rw [hr']
      intro a ha
      rcases List.mem_cons.1 ha with rfl | ha
      · omega
      · obtain ⟨v, -, rfl⟩ := List.mem_map.1 ha
        exact searchRight_le data v
    have hrl : (0 :: r.map (· + 1)).length = n + 1 := by rw [hr']; simp [ho2]
    have hnb : naturalBreaks orc data n = .ok (if (0 :: r.map (· + 1)).getLastD 0 ≠ data.length then setLast (0 :: r.map (· + 1)) data.length else 0 :: r.map (· + 1)) := by
      unfold naturalBreaks
      simp only [bind, Except.bind, pure, Except.pure, throw, throwThe, MonadExceptOf.throw]
      rw [if_neg (by omega), if_neg (by omega)]
      simp only [ho1, List.drop_succ_cons, List.drop_zero, hr]
    set idx := if (0 :: r.map (· + 1)).getLastD 0 ≠ data.length then setLast (0 :: r.map (· + 1)) data.length else 0 :: r.map (· + 1) with hidx
    have hil : idx.length = n + 1 := by rw [hidx]; split_ifs <;> simp only [setLast_length, hrl]
    refine ⟨idx, totalLoss (getSubsets data idx), ?_, hil, ?_⟩
    · unfold partitionForBucket
      simp only [bind, Except.bind, pure, Except.pure, throw, throwThe, MonadExceptOf.throw, hnb]
      rw [if_neg]
      have := getSubsets_length data idx
      rw [List.isEmpty_iff_length_eq_zero]
      omega
    · rw [hidx]
      split_ifs
      · exact setLast_strict _ _ hstrict hbound
      · exact hstrict
  · have : n = 1 := by omega
    subst this
    obtain ⟨l, hl⟩ := partitionForBucket_one orc hne hs
    exact ⟨_, l, hl, rfl, by simp; omega⟩

theorem autoLosses_returns {orc : Oracle} (ho : OracleBreaks orc) {data : List Nat} (hne : data ≠ []) (hs : data.Pairwise (· ≤ ·)) :
    ∀ fuel c : Nat, 1 ≤ c → c + fuel ≤ data.dedup.length + 1 → ∃ ls, autoLosses orc data fuel c = .ok ls ∧ ls.length = fuel
  | 0, _, _, _ => ⟨[], rfl, rfl⟩
  | fuel + 1, c, hc, h => by
    obtain ⟨idx, l, hp, -, -⟩ := partitionForBucket_returns ho hne hs hc (by omega)
    obtain ⟨ls, h1, h2⟩ := autoLosses_returns ho hne hs fuel (c + 1) (by omega) (by omega)
    refine ⟨l :: ls, ?_, by simp [h2]⟩
    simp only [autoLosses, hp, bind, Except.bind, pure, Except.pure, h1]

theorem chooseBuckets_le (ls : List ℚ) (thr : ℚ) (h : 1 ≤ ls.length) : 1 ≤ chooseBuckets ls thr ∧ chooseBuckets ls thr ≤ ls.length := by
  unfold chooseBuckets
  split
  · exact ⟨h, le_rfl⟩
  · rename_i i hi
    have h1 := (List.findIdx?_eq_some_iff_getElem.1 hi).1
    rw [reductions_length] at h1
    omega

theorem dedup_pos {data : List Nat} (hne : data ≠ []) : 1 ≤ data.dedup.length := by
  obtain ⟨a, l, rfl⟩ := List.exists_cons_of_ne_nil hne
  exact List.length_pos_of_mem (a := a) (by simp)

/-- **C09.**  A requested number of buckets is what one gets — capped at the number of distinct sizes, since events of equal size stay together — and no bucket is empty. -/
theorem C09_requested_number (orc : Oracle) (ho : OracleBreaks orc) (data : List Nat) (hne : data ≠ []) (hs : data.Pairwise (· ≤ ·)) (n : Nat) (hn : 1 ≤ n) (thr : ℚ) :
    ∃ idx, partitionData orc data (some n) thr = .ok idx ∧ (getSubsets data idx).length = min n data.dedup.length ∧ idx.Pairwise (· < ·) := by
  have hl : data.length ≠ 0 := by simpa using hne
  have hd := dedup_pos hne
  unfold partitionData
  simp only [hl, if_false]
  split_ifs with h1 h2
  · refine ⟨_, rfl, ?_, by simp; omega⟩
    rw [getSubsets_length, h1]
    simp
    omega
  · obtain ⟨idx, l, hp, h3, h4⟩ := partitionForBucket_returns ho hne hs hd le_rfl
    refine ⟨idx, ?_, ?_, h4⟩
    · simp only [bind, Except.bind, pure, Except.pure, hp]
    · rw [getSubsets_length, h3]; omega
  · obtain ⟨idx, l, hp, h3, h4⟩ := partitionForBucket_returns ho hne hs hn (by omega)
    refine ⟨idx, ?_, ?_, h4⟩
    · simp only [bind, Except.bind, pure, Except.pure, hp]
    · rw [getSubsets_length, h3]; omega

/-- **C09.**  No buckets cannot be asked for (unless all sizes are equal, when the request is ignored). -/
theorem C09_zero_rejected (orc : Oracle) (data : List Nat) (hne : data ≠ []) (h1 : data.dedup.length ≠ 1) (thr : ℚ) : partitionData orc data (some 0) thr = .error .valueError := by
  have hl : data.length ≠ 0 := by simpa using hne
  simp [partitionData, hl, h1, partitionForBucket, naturalBreaks, bind, Except.bind, throw, throwThe, MonadExceptOf.throw]

/-- **C09.**  The automatic choice always returns, with between one bucket and as many as there are distinct sizes, none of them empty. -/
theorem C09_automatic_returns (orc : Oracle) (ho : OracleBreaks orc) (data : List Nat) (hne : data ≠ []) (hs : data.Pairwise (· ≤ ·)) (thr : ℚ) :
    ∃ idx, partitionData orc data none thr = .ok idx ∧ 1 ≤ (getSubsets data idx).length ∧ (getSubsets data idx).length ≤ data.dedup.length ∧ idx.Pairwise (· < ·) := by
  have hl : data.length ≠ 0 := by simpa using hne
  have hd := dedup_pos hne
  obtain ⟨ls, ha, hls⟩ := autoLosses_returns ho hne hs data.dedup.length 1 le_rfl (by omega)
  unfold partitionData
  simp only [hl, if_false]
  split_ifs with h1
  · refine ⟨_, rfl, ?_, ?_, by simp; omega⟩ <;> rw [getSubsets_length] <;> simp
    omega
  · simp only [bind, Except.bind, pure, Except.pure, throw, throwThe, MonadExceptOf.throw, ha]
    rw [if_neg (by omega)]
    obtain ⟨c1, c2⟩ := chooseBuckets_le ls thr (by omega)
    rw [if_neg (by omega)]
    obtain ⟨idx, l, hp, h3, h4⟩ := partitionForBucket_returns ho hne hs c1 (by omega)
    refine ⟨idx, by simp only [hp], ?_, ?_, h4⟩ <;> rw [getSubsets_length, h3] <;> omega

/-- **C08.**  On valid arguments `pad_and_stack` returns. -/
theorem C08_returns {α : Type} (orc : Oracle) (ho : OracleBreaks orc) (zero : Nat → α) (first : List (Arr α)) (rest : List (List (Arr α))) (hlen : ∀ a ∈ rest, a.length = first.length) (nb : Option Nat)
    (hnb : nb ≠ some 0) (thr : ℚ) (h0 : 0 ≤ thr) (h1 : thr ≤ 100) : ∃ r, padAndStack orc zero (first :: rest) nb thr = .ok r := by
  have hall : ((first :: rest).all fun a => first.length == a.length) = true := by
    rw [List.all_eq_true]
    intro a ha
    rcases List.mem_cons.1 ha with rfl | ha
    · simp
    · simp [hlen a ha]
  unfold padAndStack
  rw [if_neg (by simp [h0, h1])]
  simp only
  rw [if_neg (by simp only [hall, not_true_eq_false, not_false_eq_true])]
  split_ifs with hn
  · exact ⟨_, rfl⟩
  · set sizes := (sortedIndexSize (first :: rest) first.length).map (·.2) with hsz
    have hne : sizes ≠ [] := by
      intro h
      have := congrArg List.length h
      rw [hsz] at this
      simp [sortedIndexSize, List.length_insertionSort] at this
      exact hn (by simp [this])
    have hs : sizes.Pairwise (· ≤ ·) := by
      rw [hsz, List.pairwise_map]
      have hr : Std.Total fun a b : Nat × Nat => a.2 ≤ b.2 := ⟨fun a b => le_total _ _⟩
      have ht : IsTrans (Nat × Nat) fun a b => a.2 ≤ b.2 := ⟨fun _ _ _ => le_trans⟩
      exact List.pairwise_insertionSort _ _
    have : ∃ idx, partitionData orc sizes nb thr = .ok idx := by
      cases nb with
      | none => obtain ⟨idx, h, -⟩ := C09_automatic_returns orc ho sizes hne hs thr; exact ⟨idx, h⟩
      | some n =>
        have : 1 ≤ n := Nat.one_le_iff_ne_zero.2 fun h => hnb (by rw [h])
        obtain ⟨idx, h, -⟩ := C09_requested_number orc ho sizes hne hs n this thr
        exact ⟨idx, h⟩
    obtain ⟨idx, h⟩ := this
    simp only [bind, Except.bind, pure, Except.pure, h]
    exact ⟨_, rfl⟩

/-! ## Examples -/

/-- A clustering that meets the contract: the smallest values each in a class of their own. -/
def lowOracle : Oracle := fun data n => .ok (data.headD 0 :: (data.dedup.insertionSort (· ≤ ·)).take n)

theorem lowOracle_breaks : OracleBreaks lowOracle := by
  intro data n hs h2 hn
  refine ⟨_, _, rfl, ?_, ?_, ?_⟩
  · rw [List.length_take, List.length_insertionSort]; omega
  · have h1 := List.pairwise_insertionSort (· ≤ ·) data.dedup
    have h2 : (data.dedup.insertionSort (· ≤ ·)).Nodup := (List.perm_insertionSort (· ≤ ·) data.dedup).nodup_iff.2 (List.nodup_dedup data)
    have h3 : (data.dedup.insertionSort (· ≤ ·)).Pairwise (· < ·) := (h1.and h2).imp fun ⟨a, b⟩ => lt_of_le_of_ne a b
    exact h3.sublist (List.take_sublist _ _)
  · intro x hx
    have := (List.perm_insertionSort (· ≤ ·) data.dedup).mem_iff.1 (List.mem_of_mem_take hx)
    exact List.mem_dedup.1 this

example : partitionData lowOracle [1, 1, 4, 9, 9] (some 2) 3 = .ok [0, 2, 5] ∧ partitionData lowOracle [1, 1, 4, 9, 9] (some 7) 3 = .ok [0, 2, 3, 5] := by
  decide +kernel

end GW.Jenks
