import Verif.Lemmas.Jenks

/-!
# C08, C09: bucketing and padding
-/

namespace GW.Jenks

/-- **C09.** Whenever bucket boundaries are returned for a non-empty sorted list of sizes, they start at 0, end at
the number of events, are non-decreasing, and cut *any* sequence of that many events into consecutive
groups which concatenate back to it (one group fewer than boundaries). -/
theorem C09_boundaries_partition (orc : Oracle) (ho : OracleSorted orc) (data : List Nat) (hne : data ≠ [])
    (hs : data.Pairwise (· ≤ ·)) (nb : Option Nat) (thr : ℚ) (idx : List Nat)
    (h : partitionData orc data nb thr = .ok idx) :
    Boundaries idx data.length ∧
    ∀ {β : Type} (xs : List β), xs.length = data.length →
      (getSubsets xs idx).flatten = xs ∧ (getSubsets xs idx).length + 1 = idx.length := by
  have hb : Boundaries idx data.length := by
    have triv : Boundaries [0, data.length] data.length := ⟨rfl, rfl, by simp⟩
    unfold partitionData at h
    have hl : data.length ≠ 0 := by simpa using hne
    simp only [hl, if_false] at h
    split_ifs at h with h1
    · simp only [Except.ok.injEq] at h; subst h; exact triv
    · cases nb with
      | some n =>
        simp only [bind, Except.bind, pure, Except.pure] at h
        cases hp : partitionForBucket orc data (if data.dedup.length < n then data.dedup.length else n) with
        | error e => rw [hp] at h; cases h
        | ok r =>
          obtain ⟨i, l⟩ := r
          rw [hp] at h
          simp only [Except.ok.injEq] at h
          subst h
          exact (partitionForBucket_ok ho hs hp).1
      | none =>
        simp only [bind, Except.bind, pure, Except.pure, throw, throwThe, MonadExceptOf.throw] at h
        cases ha : autoLosses orc data data.dedup.length 1 with
        | error e => rw [ha] at h; cases h
        | ok ls =>
          rw [ha] at h
          simp only at h
          split_ifs at h with h2 h3
          · simp only [Except.ok.injEq] at h; subst h; exact triv
          · cases hp : partitionForBucket orc data (chooseBuckets ls thr) with
            | error e => rw [hp] at h; cases h
            | ok r =>
              obtain ⟨i, l⟩ := r
              rw [hp] at h
              simp only [Except.ok.injEq] at h
              subst h
              exact (partitionForBucket_ok ho hs hp).1
  refine ⟨hb, fun xs hx => ⟨?_, ?_⟩⟩
  · have := getSubsets_flatten xs idx 0 hb.starts hb.sorted (by rw [hx]; exact hb.ends)
    simpa using this
  · rw [getSubsets_length]
    have : idx ≠ [] := by
      intro e; rw [e] at hb; have := hb.starts; simp at this
    have := List.length_pos_iff.2 this
    omega

/-- **C09.** Both losses are percentages: between 0 and 100. -/
theorem C09_losses_are_percentages (bucket : List Nat) (subsets : List (List Nat)) :
    (0 ≤ loss bucket ∧ loss bucket ≤ 100) ∧ (0 ≤ totalLoss subsets ∧ totalLoss subsets ≤ 100) := by
  have frac : ∀ a b : Nat, a ≤ b → b ≠ 0 → 0 ≤ (1 - (a : ℚ) / (b : ℚ)) * 100 ∧ (1 - (a : ℚ) / (b : ℚ)) * 100 ≤ 100 := by
    intro a b hab hb
    have hb' : (0 : ℚ) < b := by exact_mod_cast Nat.pos_of_ne_zero hb
    have h1 : (a : ℚ) / b ≤ 1 := by rw [div_le_one hb']; exact_mod_cast hab
    have h2 : (0 : ℚ) ≤ (a : ℚ) / b := by positivity
    constructor <;> linarith
  constructor
  · unfold loss
    split_ifs with h1 h2
    · norm_num
    · norm_num
    · have h1' : bucket.length ≠ 0 := by simpa using h1
      have := frac bucket.sum (bucket.length * maxOf bucket) (sum_le_length_mul_maxOf bucket)
        (Nat.mul_ne_zero h1' h2)
      push_cast at this
      exact this
  · unfold totalLoss
    simp only
    split_ifs with h
    · norm_num
    · refine frac _ _ ?_ h
      generalize subsets.filter (fun s => !s.isEmpty) = l
      induction l with
      | nil => simp
      | cons s l ih =>
        simp only [List.map_cons, List.sum_cons]
        have := sum_le_length_mul_maxOf s
        omega

/-- **C09.** Automatic choice (`n_buckets=None`, at least two distinct sizes): the number of buckets used is the
*first* count `k` whose improvement `loss(k) - loss(k+1)` is below the threshold; it is at least 1 and at most the number of
distinct sizes; a count for which no next loss exists (last one, or the clustering of the next count fails) also stops. -/
theorem C09_automatic_choice (orc : Oracle) (data : List Nat) (hne : data ≠ []) (hs : data.Pairwise (· ≤ ·))
    (h1 : data.dedup.length ≠ 1) (thr : ℚ) (idx : List Nat)
    (h : partitionData orc data none thr = .ok idx) :
    ∃ k l, 1 ≤ k ∧ k ≤ data.dedup.length ∧ partitionForBucket orc data k = .ok (idx, l) ∧
      (∀ j, 1 ≤ j → j < k → ∃ i a i' b, partitionForBucket orc data j = .ok (i, a) ∧
        partitionForBucket orc data (j + 1) = .ok (i', b) ∧ thr ≤ a - b) ∧
      (k = data.dedup.length ∨ partitionForBucket orc data (k + 1) = .error .valueError ∨
        ∃ i b, partitionForBucket orc data (k + 1) = .ok (i, b) ∧ l - b < thr) := by
  unfold partitionData at h
  have hl : data.length ≠ 0 := by simpa using hne
  have hu : 1 ≤ data.dedup.length := by
    have : data.dedup ≠ [] := by simpa using hne
    exact List.length_pos_iff.2 this
  simp only [hl, h1, if_false, bind, Except.bind, pure, Except.pure, throw, throwThe, MonadExceptOf.throw] at h
  cases ha : autoLosses orc data data.dedup.length 1 with
  | error e => rw [ha] at h; cases h
  | ok ls =>
    rw [ha] at h
    simp only at h
    obtain ⟨s1, s2, s3⟩ := autoLosses_spec _ _ _ ha
    obtain ⟨l₁, hone⟩ := partitionForBucket_one orc hne hs
    split_ifs at h with h2 h3
    · simp only [Except.ok.injEq] at h
      subst h
      refine ⟨1, l₁, Nat.le_refl _, hu, hone, fun j hj hj' => by omega, ?_⟩
      rcases s3 with s3 | s3
      · left; omega
      · have : ls.length = 1 := by
          rcases Nat.lt_or_ge ls.length 1 with hlt | hge
          · have h0 : ls.length = 0 := by omega
            rw [h0, Nat.add_zero] at s3
            rw [hone] at s3; cases s3
          · omega
        rw [this] at s3
        right; left; exact s3
    · cases hp : partitionForBucket orc data (chooseBuckets ls thr) with
      | error e => rw [hp] at h; cases h
      | ok r =>
        obtain ⟨i, l⟩ := r
        rw [hp] at h
        simp only [Except.ok.injEq] at h
        subst h
        have hget : ∀ j, 1 ≤ j → j ≤ ls.length → ∃ i a, ls[j - 1]? = some a ∧
            partitionForBucket orc data j = .ok (i, a) := by
          intro j h1 h2
          have hj := List.getElem?_eq_getElem (l := ls) (i := j - 1) (by omega)
          obtain ⟨i, hi⟩ := s2 (j - 1) _ hj
          exact ⟨i, _, hj, by rwa [show 1 + (j - 1) = j by omega] at hi⟩
        have hstep : ∀ j, 1 ≤ j → j < ls.length → ∃ i a i' b, partitionForBucket orc data j = .ok (i, a) ∧
            partitionForBucket orc data (j + 1) = .ok (i', b) ∧ (reductions ls)[j - 1]? = some (a - b) := by
          intro j h1 h2
          obtain ⟨i, a, e1, e2⟩ := hget j h1 (by omega)
          obtain ⟨i', b, e3, e4⟩ := hget (j + 1) (by omega) (by omega)
          refine ⟨i, a, i', b, e2, e4, reductions_get ls (j - 1) a b e1 ?_⟩
          rwa [show j - 1 + 1 = j + 1 - 1 by omega]
        unfold chooseBuckets at hp h3
        cases hf : (reductions ls).findIdx? (· < thr) with
        | none =>
          rw [hf] at hp
          simp only at hp
          refine ⟨ls.length, l, by omega, s1, hp, ?_, ?_⟩
          · intro j hj hj'
            obtain ⟨i, a, i', b, e1, e2, e3⟩ := hstep j hj hj'
            refine ⟨i, a, i', b, e1, e2, ?_⟩
            rw [List.findIdx?_eq_none_iff] at hf
            have := hf (a - b) (List.mem_of_getElem? e3)
            simpa using this
          · rcases s3 with s3 | s3
            · left; exact s3
            · right; left; rwa [Nat.add_comm]
        | some q =>
          rw [hf] at hp
          simp only at hp
          rw [List.findIdx?_eq_some_iff_getElem] at hf
          obtain ⟨hq, hq1, hq2⟩ := hf
          rw [reductions_length] at hq
          refine ⟨q + 1, l, by omega, by omega, hp, ?_, ?_⟩
          · intro j hj hj'
            obtain ⟨i, a, i', b, e1, e2, e3⟩ := hstep j hj (by omega)
            refine ⟨i, a, i', b, e1, e2, ?_⟩
            have := hq2 (j - 1) (by omega)
            rw [List.getElem?_eq_some_iff] at e3
            obtain ⟨_, e3⟩ := e3
            rw [e3] at this
            simpa using this
          · right; right
            obtain ⟨i', a, i'', b, e1, e2, e3⟩ := hstep (q + 1) (by omega) (by omega)
            rw [hp] at e1
            simp only [Except.ok.injEq, Prod.mk.injEq] at e1
            obtain ⟨rfl, rfl⟩ := e1
            refine ⟨i'', b, e2, ?_⟩
            rw [List.getElem?_eq_some_iff] at e3
            obtain ⟨_, e3⟩ := e3
            simp only [Nat.add_sub_cancel] at e3
            rw [e3] at hq1
            simpa using hq1

/-- An oracle meeting the contract: two classes, split at the minimum. -/
def exOracle : Oracle := fun data n => if n = 2 then .ok [data.headD 0, data.headD 0, data.getLastD 0] else .error .valueError

/-- Non-vacuity of C09: sizes 1,1,5,5 with the example oracle give two buckets. -/
example : partitionData exOracle [1, 1, 5, 5] none 3 = .ok [0, 2, 4] ∧ [1, 1, 5, 5].dedup.length ≠ 1 ∧
    [1, 1, 5, 5].Pairwise (· ≤ ·) := by
  refine ⟨by decide +kernel, by decide, by decide⟩

/-- The maximum number of rows of the events `g` in the sequence `arr`. -/
def groupMax {α} (arr : List (Arr α)) (g : List Nat) : Nat := maxOf (g.map fun i => (pick arr i).rows.length)

/-- **C08.** Whenever `pad_and_stack` returns for `n ≥ 1` events, there is one ordering `perm` of the events
(a permutation, by non-decreasing total size) cut into consecutive groups such that for *every* input sequence the `b`-th
stacked bucket consists of the events of group `b` in order, each padded with zeros to the longest of the group, and the
masks mark exactly the original rows of the first sequence. So no event is lost, duplicated or misaligned. -/
theorem C08_buckets_are_the_events {α : Type} (orc : Oracle) (ho : OracleSorted orc) (zero : Nat → α)
    (first : List (Arr α)) (rest : List (List (Arr α))) (hn : first ≠ []) (nb : Option Nat) (thr : ℚ)
    (padded : List (List (List (List α)))) (masks : List (List (List Bool)))
    (h : padAndStack orc zero (first :: rest) nb thr = .ok (padded, masks)) :
    ∃ (perm : List Nat) (groups : List (List Nat)),
      perm.Perm (List.range first.length) ∧ groups.flatten = perm ∧
      (perm.map fun i => ((first :: rest).map fun arr => (pick arr i).size).sum).Pairwise (· ≤ ·) ∧
      padded = (first :: rest).map (fun arr => groups.map fun g => g.map fun i =>
        padTo (groupMax arr g) (zero (pick arr i).width) (pick arr i).rows) ∧
      masks = groups.map (fun g => g.map fun i =>
        padTo (groupMax first g) false (List.replicate (pick first i).rows.length true)) ∧
      (∀ a ∈ rest, a.length = first.length) := by
  unfold padAndStack at h
  split_ifs at h with ht
  simp only at h
  split_ifs at h with hall h0
  · exact absurd h0 (by simpa using hn)
  · simp only [bind, Except.bind, pure, Except.pure] at h
    set S := sortedIndexSize (first :: rest) first.length with hS
    cases hp : partitionData orc (S.map (·.2)) nb thr with
    | error e => rw [hp] at h; cases h
    | ok idx =>
      rw [hp] at h
      simp only [Except.ok.injEq, Prod.mk.injEq] at h
      obtain ⟨h1, h2⟩ := h
      set size := fun i => ((first :: rest).map fun arr => (pick arr i).size).sum with hsize
      have hperm : S.Perm ((List.range first.length).map fun i => (i, size i)) := List.perm_insertionSort _ _
      have hmem : ∀ p ∈ S, p.2 = size p.1 := by
        intro p hp
        have := hperm.mem_iff.1 hp
        simp only [List.mem_map] at this
        obtain ⟨i, _, rfl⟩ := this
        rfl
      have hsz : S.map (·.2) = (S.map (·.1)).map size := by
        rw [List.map_map]
        exact List.map_congr_left fun p hp => hmem p hp
      have hsorted : (S.map (·.2)).Pairwise (· ≤ ·) := by
        rw [List.pairwise_map]
        have : Std.Total (fun (a b : Nat × Nat) => a.2 ≤ b.2) := ⟨fun a b => Nat.le_total _ _⟩
        have : IsTrans (Nat × Nat) (fun (a b : Nat × Nat) => a.2 ≤ b.2) := ⟨fun a b c => Nat.le_trans⟩
        exact List.pairwise_insertionSort (fun (a b : Nat × Nat) => a.2 ≤ b.2) _
      have hSne : S.map (·.2) ≠ [] := by
        intro e
        have := hperm.length_eq
        rw [List.map_eq_nil_iff] at e
        rw [e] at this
        simp at this
        exact hn (List.eq_nil_of_length_eq_zero this.symm)
      have hflat := ((C09_boundaries_partition orc ho _ hSne hsorted nb thr idx hp).2 (S.map (·.1)) (by simp)).1
      have hmaxr : ∀ (arr : List (Arr α)) (g : List Nat), maxRows (g.map (pick arr)) = groupMax arr g := by
        intro arr g
        simp [maxRows, groupMax, List.map_map, Function.comp_def]
      refine ⟨S.map (·.1), getSubsets (S.map (·.1)) idx, ?_, hflat, ?_, ?_, ?_, ?_⟩
      · have := hperm.map Prod.fst
        rwa [List.map_map, show (Prod.fst ∘ fun i => (i, size i)) = id from rfl, List.map_id] at this
      · rw [← hsz]; exact hsorted
      · rw [← h1, List.map_map, List.map_map]
        refine List.map_congr_left fun arr _ => ?_
        simp only [Function.comp_apply]
        rw [getSubsets_map, List.map_map]
        refine List.map_congr_left fun g _ => ?_
        simp only [Function.comp_apply, padAndStackBucket, hmaxr, padTo, List.map_map]
        rfl
      · rw [← h2, getSubsets_map, List.map_map]
        refine List.map_congr_left fun g _ => ?_
        simp only [Function.comp_apply, bucketMask, hmaxr, padTo, List.map_map, List.length_replicate]
        rfl
      · intro a ha
        simp only [List.all_eq_true, List.mem_cons, beq_iff_eq,
          forall_eq_or_imp, true_and] at hall
        exact (hall a ha).symm

/-- **C08.** Selecting with the mask gives back each event's own rows, for every sequence whose events have as
many rows as those of the first sequence. -/
theorem C08_mask_recovers_events {α : Type} (zero : α) (first arr : List (Arr α)) (g : List Nat) (i : Nat)
    (hi : i ∈ g) (hrows : ∀ j, (pick arr j).rows.length = (pick first j).rows.length) :
    unpad (padTo (groupMax arr g) zero (pick arr i).rows)
      (padTo (groupMax first g) false (List.replicate (pick first i).rows.length true)) = (pick arr i).rows ∧
    (padTo (groupMax arr g) zero (pick arr i).rows).length = groupMax arr g := by
  have hg : groupMax arr g = groupMax first g := by
    unfold groupMax; congr 1; exact List.map_congr_left fun j _ => hrows j
  constructor
  · rw [hg, ← hrows]
    unfold padTo
    have := unpad_replicate (pick arr i).rows (List.replicate (groupMax first g - (pick arr i).rows.length) zero)
    simpa using this
  · have : (pick arr i).rows.length ≤ groupMax arr g :=
      le_maxOf (List.mem_map.2 ⟨i, hi, rfl⟩)
    simp [padTo]
    omega

/-- **C08.** Bad arguments raise `ValueError`: threshold outside [0,100], no sequences, or sequences of different
lengths. -/
theorem C08_bad_arguments_rejected {α : Type} (orc : Oracle) (zero : Nat → α) (arrays : List (List (Arr α)))
    (nb : Option Nat) (thr : ℚ)
    (h : thr < 0 ∨ 100 < thr ∨ arrays = [] ∨ ∃ a ∈ arrays, ∃ b ∈ arrays, a.length ≠ b.length) :
    padAndStack orc zero arrays nb thr = .error .valueError := by
  unfold padAndStack
  split_ifs with ht
  · rcases h with h | h | rfl | ⟨a, ha, b, hb, hab⟩
    · exact absurd ht.1 (not_le.2 h)
    · exact absurd ht.2 (not_le.2 h)
    · rfl
    · cases arrays with
      | nil => cases ha
      | cons first rest =>
        simp only
        rw [if_pos]
        intro hall
        simp only [List.all_eq_true, beq_iff_eq] at hall
        exact hab ((hall a ha).symm.trans (hall b hb))
  · rfl

/-- **C08.** No events: one empty list per sequence and no masks. -/
theorem C08_no_events {α : Type} (orc : Oracle) (zero : Nat → α) (k : Nat) (nb : Option Nat) (thr : ℚ)
    (ht : 0 ≤ thr ∧ thr ≤ 100) :
    padAndStack orc zero (List.replicate (k + 1) []) nb thr = .ok (List.replicate (k + 1) [], []) := by
  unfold padAndStack
  rw [if_neg (by simpa using ht)]
  simp [List.replicate_succ]

/-- The example oracle meets the contract. -/
theorem exOracle_sorted : OracleSorted exOracle := by
  intro data n bs hs h
  unfold exOracle at h
  split_ifs at h
  simp only [Except.ok.injEq] at h
  subst h
  cases data with
  | nil => simp
  | cons a l =>
    have := sorted_le_getLast hs a (by simp)
    simp only [List.pairwise_cons, List.mem_cons, List.not_mem_nil, or_false, forall_eq_or_imp, forall_eq,
      List.headD_cons, Nat.le_refl, IsEmpty.forall_iff, implies_true, List.Pairwise.nil, this, and_self]

/-- Non-vacuity: `pad_and_stack` succeeds on three events in two sequences. -/
example : (padAndStack exOracle (fun _ => (0 : Nat))
    [[⟨[1, 2, 3], 2⟩, ⟨[4], 2⟩, ⟨[5, 6], 2⟩], [⟨[1, 2, 3], 1⟩, ⟨[4], 1⟩, ⟨[5, 6], 1⟩]] (some 2) 3).toOption =
    some ([[[[4]], [[5, 6, 0], [1, 2, 3]]], [[[4]], [[5, 6, 0], [1, 2, 3]]]],
        [[[true]], [[true, true, false], [true, true, true]]]) := by
  decide +kernel

end GW.Jenks
