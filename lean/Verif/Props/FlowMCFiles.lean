import Verif.Lemmas.FlowMCFiles

/-!
# C103: a flowMC run that is stopped leaves files that say what it has done

`after … n` is the run when it has called `n` strategies of its schedule, with its files; a run that is killed between two strategies leaves those files.
-/

namespace GW.FlowMC

section
variable (nLocal localThin nGlobal globalThin nTraining nProduction nChains : Nat)

local notation "L" => nLocal / localThin
local notation "G" => nGlobal / globalThin
local notation "moment" => after nLocal localThin nGlobal globalThin nTraining nProduction nChains

theorem length_executed : (executed (strategyOrder nTraining nProduction)).length = 6 * nTraining + 2 + 4 * nProduction := by
  rw [executed_strategyOrder]
  simp only [List.length_append, List.length_map, length_flatten_replicate]
  rfl

theorem after_min (n : Nat) : moment n = moment (min n (6 * nTraining + 2 + 4 * nProduction)) := by
  unfold after
  rcases Nat.le_total n (6 * nTraining + 2 + 4 * nProduction) with h | h
  · rw [min_eq_left h]
  · rw [min_eq_right h, List.take_of_length_le (by rw [length_executed]; exact h), List.take_of_length_le (by rw [length_executed])]

theorem calls_min (n : Nat) (s : Strat) : calls nTraining nProduction n s = calls nTraining nProduction (min n (6 * nTraining + 2 + 4 * nProduction)) s := by
  unfold calls
  rcases Nat.le_total n (6 * nTraining + 2 + 4 * nProduction) with h | h
  · rw [min_eq_left h]
  · rw [min_eq_right h, List.take_of_length_le (by rw [length_strategyOrder]; exact h), List.take_of_length_le (by rw [length_strategyOrder])]

/-- **C103 (chains).**  At every moment of every run, entry after entry, the buffers of the positions hold exactly the steps made so far: the local steps of
a loop are there when its local stepper has been called, its global steps when its global stepper has been called, and everything else is still empty;
steps of the training never reach the production buffer. -/
theorem C103_chains_at_any_moment (n : Nat) :
    (moment n).st.trainBuf = filled L G 0 nTraining (calls nTraining nProduction n .localStepper) (calls nTraining nProduction n .globalStepper) ∧
    (moment n).st.prodBuf = filled L G nTraining nProduction (calls nTraining nProduction n .localStepper - nTraining)
      (calls nTraining nProduction n .globalStepper - nTraining) := by
  rw [after_min, calls_min, calls_min _ _ n .globalStepper]
  obtain ⟨tl, tg, pl, pg, g, a, b, h1, h2, h3, h4, -⟩ := good_after nLocal localThin nGlobal globalThin nTraining nProduction nChains
    (min n (6 * nTraining + 2 + 4 * nProduction)) (min_le_right _ _)
  rw [a, b, g.train, g.prod]
  exact ⟨filled_of_le (by omega) (by omega), filled_of_le (by omega) (by omega)⟩

/-- **C103 (acceptances).**  The local acceptances have an entry at the local steps made so far and at no other place, the global ones at the global steps. -/
theorem C103_acceptances_at_any_moment (n : Nat) :
    (moment n).accs.trainLocal = filled L G 0 nTraining (calls nTraining nProduction n .localStepper) 0 ∧
    (moment n).accs.trainGlobal = filled L G 0 nTraining 0 (calls nTraining nProduction n .globalStepper) ∧
    (moment n).accs.prodLocal = filled L G nTraining nProduction (calls nTraining nProduction n .localStepper - nTraining) 0 ∧
    (moment n).accs.prodGlobal = filled L G nTraining nProduction 0 (calls nTraining nProduction n .globalStepper - nTraining) := by
  rw [after_min, calls_min, calls_min _ _ n .globalStepper]
  obtain ⟨tl, tg, pl, pg, g, a, b, h1, h2, h3, h4, -⟩ := good_after nLocal localThin nGlobal globalThin nTraining nProduction nChains
    (min n (6 * nTraining + 2 + 4 * nProduction)) (min_le_right _ _)
  rw [a, b, g.trainL, g.trainG, g.prodL, g.prodG]
  exact ⟨filled_of_le (by omega) rfl, filled_of_le rfl (by omega), filled_of_le (by omega) rfl, filled_of_le rfl (by omega)⟩

/-- The strategy with number `n`, and its saves. -/
theorem strategy_at (n : Nat) (hn : n < 6 * nTraining + 2 + 4 * nProduction) :
    ∃ s, moment (n + 1) = (moment n).next L G nChains s ∧
      ((n < 6 * nTraining ∧ s.2 = .training) ∨ (6 * nTraining ≤ n ∧ n < 6 * nTraining + 2 ∧ s.2 = .nothing ∧ s.1 ≠ .localStepper ∧ s.1 ≠ .globalStepper) ∨
        (6 * nTraining + 2 ≤ n ∧ s.2 = .production ∧ s.1 ∈ productionPhase)) := by
  have hl : n < (executed (strategyOrder nTraining nProduction)).length := by rw [length_executed]; exact hn
  refine ⟨(executed (strategyOrder nTraining nProduction))[n], ?_, ?_⟩
  · unfold after
    rw [List.take_succ, List.getElem?_eq_getElem hl, Option.toList_some, List.foldl_append]
    rfl
  · have e := executed_strategyOrder nTraining nProduction
    have ht : ((List.replicate nTraining trainingPhase).flatten.map (·, Saves.training)).length = 6 * nTraining := by
      rw [List.length_map, length_flatten_replicate]; rfl
    have hx : (executed (strategyOrder nTraining nProduction))[n]? = some ((executed (strategyOrder nTraining nProduction))[n]) := List.getElem?_eq_getElem hl
    generalize (executed (strategyOrder nTraining nProduction))[n] = s at hx ⊢
    rw [e, List.append_assoc] at hx
    by_cases h1 : n < 6 * nTraining
    · rw [List.getElem?_append_left (by omega)] at hx
      have := List.mem_of_getElem? hx
      rw [List.mem_map] at this
      obtain ⟨t, -, rfl⟩ := this
      exact .inl ⟨h1, rfl⟩
    · rw [List.getElem?_append_right (by omega), ht] at hx
      by_cases h2 : n < 6 * nTraining + 2
      · rw [List.getElem?_append_left (by simp; omega)] at hx
        have := List.mem_of_getElem? hx
        simp only [List.mem_cons, List.not_mem_nil, or_false] at this
        refine .inr (.inl ⟨by omega, h2, ?_⟩)
        rcases this with rfl | rfl <;> simp
      · rw [List.getElem?_append_right (by simp; omega)] at hx
        have := List.mem_of_getElem? hx
        rw [List.mem_map] at this
        obtain ⟨t, ht', rfl⟩ := this
        refine .inr (.inr ⟨by omega, rfl, ?_⟩)
        rw [List.mem_flatten] at ht'
        obtain ⟨p, hp, hm⟩ := ht'
        rw [List.mem_replicate] at hp
        rw [hp.2] at hm
        exact hm

theorem train_kept {m : Moment} (l g c : Nat) (s : Strat × Saves) (h : m.st.training = false ∨ (s.1 ≠ .localStepper ∧ s.1 ≠ .globalStepper)) :
    (m.next l g c s).st.trainBuf = m.st.trainBuf ∧ (m.next l g c s).accs.trainLocal = m.accs.trainLocal ∧
      (m.next l g c s).accs.trainGlobal = m.accs.trainGlobal := by
  obtain ⟨s, v⟩ := s
  rcases h with h | ⟨h1, h2⟩
  · cases s <;> simp [Moment.next, step, accStep, St.store, h]
  · cases s <;> simp_all [Moment.next, step, accStep]

theorem others_kept {m : Moment} (l g c : Nat) (s : Strat × Saves) (h : s.1 ≠ .localStepper ∧ s.1 ≠ .globalStepper) :
    (m.next l g c s).st.prodBuf = m.st.prodBuf ∧ (m.next l g c s).accs = m.accs := by
  obtain ⟨s, v⟩ := s
  obtain ⟨h1, h2⟩ := h
  cases s <;> simp_all [Moment.next, step, accStep]

theorem files_current (n : Nat) (hn : n ≤ 6 * nTraining + 2 + 4 * nProduction) :
    (moment n).disk.trainChains = (if n = 0 ∨ nTraining = 0 then none else some (moment n).st.trainBuf) ∧
    (moment n).disk.prodChains = (if n ≤ 6 * nTraining + 2 then none else some (moment n).st.prodBuf) ∧
    (moment n).disk.samples = (if n ≤ 6 * nTraining + 2 then none else
      some (savedSamples L G (fun r => r.2.isNone) ((List.range nChains).map fun c => (moment n).st.prodBuf.map fun r => (c, r)))) ∧
    (moment n).disk.localAccs = (if n = 0 ∨ (nTraining = 0 ∧ n ≤ 2) then none else
      some (accColumns (moment n).accs.trainLocal (moment n).accs.prodLocal)) ∧
    (moment n).disk.globalAccs = (if n = 0 ∨ (nTraining = 0 ∧ n ≤ 2) then none else
      some (accColumns (moment n).accs.trainGlobal (moment n).accs.prodGlobal)) := by
  induction n with
  | zero => simp [after, start]
  | succ n ih =>
    obtain ⟨i1, i2, i3, i4, i5⟩ := ih (by omega)
    obtain ⟨s, e, hs⟩ := strategy_at nLocal localThin nGlobal globalThin nTraining nProduction nChains n (by omega)
    have htr : 6 * nTraining + 2 ≤ n → (moment n).st.training = false := by
      obtain ⟨-, -, -, -, -, -, -, -, -, -, -, h⟩ := good_after nLocal localThin nGlobal globalThin nTraining nProduction nChains n (by omega)
      exact h
    rcases hs with ⟨h1, h2⟩ | ⟨h0, h1, h2, h3, h4⟩ | ⟨h1, h2, h3⟩
    · have ed : (moment (n + 1)).disk = save L G nChains (moment (n + 1)).st (moment (n + 1)).accs (moment n).disk .training := by
        rw [e, ← h2]; rfl
      rw [ed]
      have hT : ¬ nTraining = 0 := by omega
      simp only [save, i2, i3, hT, false_and, or_false, Nat.add_eq_zero_iff, one_ne_zero, and_false, if_false, if_pos (show n ≤ 6 * nTraining + 2 by omega),
        if_pos (show n + 1 ≤ 6 * nTraining + 2 by omega), and_self]
    · have ed : (moment (n + 1)).disk = (moment n).disk := by
        have : (moment (n + 1)).disk = save L G nChains (moment (n + 1)).st (moment (n + 1)).accs (moment n).disk s.2 := by rw [e]; rfl
        rw [this, h2]; rfl
      have hk := train_kept L G nChains s (m := moment n) (.inr ⟨h3, h4⟩)
      have ho := others_kept L G nChains s (m := moment n) ⟨h3, h4⟩
      rw [← e] at hk ho
      rw [ed, i1, i2, i3, i4, i5, hk.1, ho.1, ho.2]
      have c1 : (n = 0 ∨ nTraining = 0) ↔ (n + 1 = 0 ∨ nTraining = 0) := by omega
      have c2 : (n = 0 ∨ nTraining = 0 ∧ n ≤ 2) ↔ (n + 1 = 0 ∨ nTraining = 0 ∧ n + 1 ≤ 2) := by omega
      simp only [c1, c2, if_pos (show n ≤ 6 * nTraining + 2 by omega), if_pos (show n + 1 ≤ 6 * nTraining + 2 by omega), and_self]
    · have ed : (moment (n + 1)).disk = save L G nChains (moment (n + 1)).st (moment (n + 1)).accs (moment n).disk .production := by
        rw [e, ← h2]; rfl
      have hk := train_kept L G nChains s (m := moment n) (.inl (htr h1))
      rw [← e] at hk
      rw [ed]
      have c1 : (n = 0 ∨ nTraining = 0) ↔ (n + 1 = 0 ∨ nTraining = 0) := by omega
      have c2 : ¬ (n + 1 = 0 ∨ nTraining = 0 ∧ n + 1 ≤ 2) := by omega
      simp only [save, i1, c1, c2, hk.1, if_neg (show ¬ n + 1 ≤ 6 * nTraining + 2 by omega), if_false, and_self]

/-- **C103 (files are up to date).**  When a strategy has ended and its files are written, no file is behind: the files of the training chains are there from
the first training strategy on, and those of the production chains from the first production strategy on, and they hold the buffers of that moment. -/
theorem C103_chain_files (n : Nat) (hn : n ≤ 6 * nTraining + 2 + 4 * nProduction) :
    (moment n).disk.trainChains = (if n = 0 ∨ nTraining = 0 then none else
      some (filled L G 0 nTraining (calls nTraining nProduction n .localStepper) (calls nTraining nProduction n .globalStepper))) ∧
    (moment n).disk.prodChains = (if n ≤ 6 * nTraining + 2 then none else
      some (filled L G nTraining nProduction (calls nTraining nProduction n .localStepper - nTraining)
        (calls nTraining nProduction n .globalStepper - nTraining))) := by
  obtain ⟨h1, h2, -⟩ := files_current nLocal localThin nGlobal globalThin nTraining nProduction nChains n hn
  obtain ⟨a, b⟩ := C103_chains_at_any_moment nLocal localThin nGlobal globalThin nTraining nProduction nChains n
  rw [h1, h2, a, b]
  exact ⟨rfl, rfl⟩

theorem filter_filled (first N a : Nat) (c : Nat) : (((List.range N).map fun i =>
      ((List.range L).map fun j => ((c, if i < a then some (⟨true, first + i, j⟩ : Row) else none) : Nat × Option Row))).flatten).filter (fun r => !r.2.isNone) =
    ((List.range (min a N)).map fun i => (List.range L).map fun j => (c, some (⟨true, first + i, j⟩ : Row))).flatten := by
  induction N with
  | zero => simp
  | succ N ih =>
    rw [List.range_succ, List.map_append, List.flatten_append, List.filter_append, ih]
    by_cases h : N < a
    · rw [min_eq_right (show N ≤ a by omega), min_eq_right (show N + 1 ≤ a by omega), List.range_succ, List.map_append, List.flatten_append]
      congr 1
      simp only [List.map_cons, List.map_nil, List.flatten_cons, List.flatten_nil, List.append_nil, h, if_true]
      rw [List.filter_eq_self]
      intro x hx
      rw [List.mem_map] at hx
      obtain ⟨j, -, rfl⟩ := hx
      rfl
    · rw [min_eq_left (show a ≤ N by omega), min_eq_left (show a ≤ N + 1 by omega)]
      simp only [List.map_cons, List.map_nil, List.flatten_cons, List.flatten_nil, List.append_nil, h, if_false]
      rw [List.filter_eq_nil_iff.2, List.append_nil]
      intro x hx
      rw [List.mem_map] at hx
      obtain ⟨j, -, rfl⟩ := hx
      simp

/-- **C103 (posterior samples).**  There is no sample file before the first strategy of the production.  From then on, whenever the run is stopped, the file holds, for
every chain, exactly the local steps of the production loops whose local stepper has been called, in order: no empty row, no global step, no step of the
training. -/
theorem C103_samples_at_any_moment (n : Nat) (hn : n ≤ 6 * nTraining + 2 + 4 * nProduction) :
    (moment n).disk.samples = if n ≤ 6 * nTraining + 2 then none else
      some (sampleRows L nTraining nChains (calls nTraining nProduction n .localStepper - nTraining)) := by
  obtain ⟨-, -, h3, -⟩ := files_current nLocal localThin nGlobal globalThin nTraining nProduction nChains n hn
  obtain ⟨-, b⟩ := C103_chains_at_any_moment nLocal localThin nGlobal globalThin nTraining nProduction nChains n
  obtain ⟨tl, tg, pl, pg, g, hl, hg, k1, k2, k3, k4, -⟩ := good_after nLocal localThin nGlobal globalThin nTraining nProduction nChains n hn
  have hle : calls nTraining nProduction n .localStepper ≤ nTraining + nProduction := by
    have : calls nTraining nProduction n .localStepper ≤ (strategyOrder nTraining nProduction).count .localStepper := by
      unfold calls
      exact List.Sublist.count_le _ (List.take_sublist _ _)
    refine le_trans this ?_
    unfold strategyOrder
    rw [List.count_append, List.count_append, count_replicate, count_replicate]
    have c1 : trainingPhase.count .localStepper = 1 := by decide
    have c2 : productionPhase.count .localStepper = 1 := by decide
    have c3 : [Strat.resetSteppers, Strat.updateState].count .localStepper = 0 := by decide
    rw [c1, c2, c3]; omega
  rw [h3, b]
  split
  · rfl
  · congr 1
    have hle' : calls nTraining nProduction n .localStepper - nTraining ≤ nProduction := by omega
    generalize calls nTraining nProduction n .localStepper - nTraining = a at hle' ⊢
    generalize calls nTraining nProduction n .globalStepper - nTraining = b'
    have hp := C38_saved_rows_are_local_rows L G nProduction (fun r : Nat × Option Row => r.2.isNone)
      ((List.range nChains).map fun c => (List.range nProduction).map fun i =>
        (((List.range L).map fun j => ((c, if i < a then some (⟨true, nTraining + i, j⟩ : Row) else none) : Nat × Option Row)),
         ((List.range G).map fun j => ((c, if i < b' then some (⟨false, nTraining + i, j⟩ : Row) else none) : Nat × Option Row))))
      (by intro c hc; rw [List.mem_map] at hc; obtain ⟨x, -, rfl⟩ := hc; simp)
      (by
        intro c hc l hl
        rw [List.mem_map] at hc
        obtain ⟨x, -, rfl⟩ := hc
        rw [List.mem_map] at hl
        obtain ⟨i, -, rfl⟩ := hl
        simp)
    have e1 : ((List.range nChains).map fun c => (filled L G nTraining nProduction a b').map fun r => (c, r)) =
        (((List.range nChains).map fun c => (List.range nProduction).map fun i =>
        (((List.range L).map fun j => ((c, if i < a then some (⟨true, nTraining + i, j⟩ : Row) else none) : Nat × Option Row)),
         ((List.range G).map fun j => ((c, if i < b' then some (⟨false, nTraining + i, j⟩ : Row) else none) : Nat × Option Row)))).map
          fun c => (c.map fun l => l.1 ++ l.2).flatten) := by
      rw [List.map_map]
      apply List.map_congr_left
      intro c _
      simp only [filled, Function.comp_def, List.map_flatten, List.map_map, List.map_append]
    rw [e1, hp, sampleRows, List.filter_flatten, List.map_map, List.map_map]
    congr 1
    apply List.map_congr_left
    intro c _
    simp only [Function.comp_def, List.map_map]
    rw [filter_filled]
    rw [min_eq_left hle']

/-- **C103 (acceptance files).**  The two acceptance files have one row per step of the longer phase; the row of a step that has been made holds its acceptance, a row of a
step not made yet, or of the other kind, is empty, and the column of the shorter phase is filled up.  They are there from the first saved strategy on. -/
theorem C103_acceptance_files (n : Nat) (hn : n ≤ 6 * nTraining + 2 + 4 * nProduction) :
    (moment n).disk.localAccs = (if n = 0 ∨ (nTraining = 0 ∧ n ≤ 2) then none else
      some ((List.range (max ((L + G) * nTraining) ((L + G) * nProduction))).map fun i =>
        ((filled L G 0 nTraining (calls nTraining nProduction n .localStepper) 0)[i]?,
         (filled L G nTraining nProduction (calls nTraining nProduction n .localStepper - nTraining) 0)[i]?))) ∧
    (moment n).disk.globalAccs = (if n = 0 ∨ (nTraining = 0 ∧ n ≤ 2) then none else
      some ((List.range (max ((L + G) * nTraining) ((L + G) * nProduction))).map fun i =>
        ((filled L G 0 nTraining 0 (calls nTraining nProduction n .globalStepper))[i]?,
         (filled L G nTraining nProduction 0 (calls nTraining nProduction n .globalStepper - nTraining))[i]?))) := by
  obtain ⟨-, -, -, h4, h5⟩ := files_current nLocal localThin nGlobal globalThin nTraining nProduction nChains n hn
  obtain ⟨a1, a2, a3, a4⟩ := C103_acceptances_at_any_moment nLocal localThin nGlobal globalThin nTraining nProduction nChains n
  have key : ∀ t p : List (Option Row), accColumns t p = (List.range (max t.length p.length)).map fun i => (t[i]?, p[i]?) := by
    intro t p
    have hpad : ∀ (m : Nat) (x : List (Option Row)), x.length ≤ m → padTo m x = (List.range m).map fun i => x[i]? := by
      intro m x hx
      apply List.ext_getElem?
      intro i
      unfold padTo
      rw [List.getElem?_append, List.getElem?_replicate]
      simp only [List.length_map, List.getElem?_map, List.getElem?_range]
      by_cases hi : i < x.length
      · rw [if_pos hi, List.getElem?_range (by omega)]
        simp [hi]
      · rw [if_neg hi]
        by_cases hm : i < m
        · rw [List.getElem?_range hm, if_pos (by omega)]
          simp [List.getElem?_eq_none (by omega : x.length ≤ i)]
        · rw [if_neg (by omega), List.getElem?_eq_none (by simp; omega)]
          rfl
    show (padTo (max t.length p.length) t).zip (padTo (max t.length p.length) p) = _
    rw [hpad _ t (le_max_left _ _), hpad _ p (le_max_right _ _), List.zip_map']
  rw [h4, h5, a1, a2, a3, a4, key, key]
  simp only [length_filled, and_self]

/-- **C103 (calls).**  In training loop `i` the local stepper is the first strategy and the global stepper the fifth; in production loop `i` they are the first and the third. -/
theorem C103_calls :
    (∀ i j, i < nTraining → 1 ≤ j → j ≤ 6 → calls nTraining nProduction (6 * i + j) .localStepper = i + 1 ∧
      calls nTraining nProduction (6 * i + j) .globalStepper = if j < 5 then i else i + 1) ∧
    (∀ i j, i < nProduction → 1 ≤ j → j ≤ 4 → calls nTraining nProduction (6 * nTraining + 2 + 4 * i + j) .localStepper = nTraining + i + 1 ∧
      calls nTraining nProduction (6 * nTraining + 2 + 4 * i + j) .globalStepper = if j < 3 then nTraining + i else nTraining + i + 1) := by
  have cl : trainingPhase.count .localStepper = 1 := by decide
  have cg : trainingPhase.count .globalStepper = 1 := by decide
  have dl : productionPhase.count .localStepper = 1 := by decide
  have dg : productionPhase.count .globalStepper = 1 := by decide
  constructor
  · intro i j hi h1 h2
    unfold calls
    rw [(take_order_train nTraining nProduction i j h2 (.inl hi)).1, List.count_append, List.count_append, count_replicate, count_replicate, cl, cg]
    interval_cases j <;> simp [trainingPhase] <;> decide
  · intro i j hi h1 h2
    unfold calls
    rw [show 6 * nTraining + 2 + 4 * i + j = 6 * nTraining + 2 + (4 * i + j) by omega, (take_order_prod nTraining nProduction i j h2 (.inl hi)).1]
    simp only [List.count_append, count_replicate, cl, cg, dl, dg]
    interval_cases j <;> simp [productionPhase] <;> first | omega | (refine ⟨?_, ?_⟩ <;> decide) | skip

theorem sum_map_const (f : Nat → Nat) (c : Nat) (h : ∀ i, f i = c) (l : List Nat) : (l.map f).sum = l.length * c := by
  induction l with
  | nil => simp
  | cons x l ih => rw [List.map_cons, List.sum_cons, ih, h, List.length_cons]; ring

/-- **C103 (how many samples).**  A run stopped inside production loop `i`, after its local stepper, leaves `nChains * (i + 1) * L` posterior samples. -/
theorem C103_number_of_samples (i j : Nat) (hi : i < nProduction) (h1 : 1 ≤ j) (h2 : j ≤ 4) :
    ((moment (6 * nTraining + 2 + 4 * i + j)).disk.samples.map List.length) = some (nChains * ((i + 1) * L)) := by
  rw [C103_samples_at_any_moment _ _ _ _ _ _ _ _ (by omega), if_neg (by omega), ((C103_calls nTraining nProduction).2 i j hi h1 h2).1]
  rw [show nTraining + i + 1 - nTraining = i + 1 by omega]
  simp only [Option.map_some, sampleRows, List.length_flatten, List.map_map, Function.comp_def, List.length_map, List.length_range, Option.some.injEq]
  rw [sum_map_const _ ((i + 1) * L), List.length_range]
  intro c
  rw [sum_map_const _ L (fun _ => rfl), List.length_range]

/-- Four local and two global steps per loop, thinned to two and one, two training loops and three production loops, two chains: stopped in the second
production loop, between the local and the global stepper. -/
example : (after 4 2 2 2 2 3 2 (6 * 2 + 2 + 4 * 1 + 2)).disk.samples = some
      [(0, some ⟨true, 2, 0⟩), (0, some ⟨true, 2, 1⟩), (0, some ⟨true, 3, 0⟩), (0, some ⟨true, 3, 1⟩),
       (1, some ⟨true, 2, 0⟩), (1, some ⟨true, 2, 1⟩), (1, some ⟨true, 3, 0⟩), (1, some ⟨true, 3, 1⟩)] ∧
    (after 4 2 2 2 2 3 2 (6 * 2 + 2 + 4 * 1 + 2)).disk.prodChains = some
      [some ⟨true, 2, 0⟩, some ⟨true, 2, 1⟩, some ⟨false, 2, 0⟩, some ⟨true, 3, 0⟩, some ⟨true, 3, 1⟩, none, none, none, none] := by
  decide

example : (after 4 2 2 2 2 3 2 8).disk.localAccs = some
    [(some (some ⟨true, 0, 0⟩), some none), (some (some ⟨true, 0, 1⟩), some none), (some none, some none), (some (some ⟨true, 1, 0⟩), some none),
     (some (some ⟨true, 1, 1⟩), some none), (some none, some none), (none, some none), (none, some none), (none, some none)] ∧
    (after 4 2 2 2 2 3 2 8).disk.samples = none := by
  decide

end

end GW.FlowMC
