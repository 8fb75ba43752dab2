import Verif.Lemmas.FlowMC
import Mathlib.Tactic.NormNum

/-!
# C36, C38: the flowMC schedule and the saved chains
-/

namespace GW.FlowMC

/-! ## C36 -/

/-- **C36 (schedule).**  `Sampler.sample` calls exactly the strategies of `strategy_order`, in that order, each once per
occurrence: the training loops (saving training chains), the transition (saving nothing), the production loops (saving
production chains and samples).  The count of loops that it derives from the length of the list is the configured one. -/
theorem C36_schedule_executed (nTraining nProduction : Nat) :
    (executed (strategyOrder nTraining nProduction)).map Prod.fst = strategyOrder nTraining nProduction ∧
    executed (strategyOrder nTraining nProduction) =
      (List.replicate nTraining
        [Strat.localStepper, .updateGlobalStep, .modelTrainer, .updateModel, .globalStepper, .updateLocalStep]).flatten.map
          (·, Saves.training) ++
      [(.resetSteppers, .nothing), (.updateState, .nothing)] ++
      (List.replicate nProduction
        [Strat.localStepper, .updateGlobalStep, .globalStepper, .updateLocalStep]).flatten.map (·, Saves.production) := by
  refine ⟨?_, executed_strategyOrder nTraining nProduction⟩
  rw [executed_strategyOrder]
  have hid : ∀ (s : Saves) (l : List Strat), (l.map (·, s)).map Prod.fst = l := by
    intro s l; rw [List.map_map]; exact List.map_id _
  simp only [List.map_append, hid, strategyOrder, List.map_cons, List.map_nil]

/-- **C36 (buffers).**  With `L` stored local rows and `G` stored global rows per loop, a run leaves in the training buffer, loop
after loop, the `L` rows of that loop's local steps followed by the `G` rows of its global steps, and in the production buffer
likewise the rows of the production loops (whose stepper calls are numbered after those of training).  No row is lost,
overwritten or left empty, and both buffers are exactly full. -/
theorem C36_buffers (nLocal localThin nGlobal globalThin nTraining nProduction : Nat) :
    let L := nLocal / localThin
    let G := nGlobal / globalThin
    let final := run nLocal localThin nGlobal globalThin nTraining nProduction
    let loopRows : Nat → List (Option Row) := fun call =>
      (List.range L).map (fun j => some ⟨true, call, j⟩) ++ (List.range G).map (fun j => some ⟨false, call, j⟩)
    final.trainBuf = ((List.range nTraining).map loopRows).flatten ∧
    final.prodBuf = ((List.range nProduction).map fun i => loopRows (nTraining + i)).flatten ∧
    final.trainBuf.length = (L + G) * nTraining ∧ final.prodBuf.length = (L + G) * nProduction := by
  obtain ⟨h1, h2⟩ := run_spec nLocal localThin nGlobal globalThin nTraining nProduction
  refine ⟨?_, ?_, ?_, ?_⟩
  · rw [h1]; simp [blocks, rows]
  · rw [h2]; simp [blocks, rows]
  · rw [h1, length_blocks]
  · rw [h2, length_blocks]

/-- Two training loops and one production loop. -/
example : (executed (strategyOrder 2 1)).length = 18 ∧
    (run 4 2 1 1 2 1).prodBuf = [some ⟨true, 2, 0⟩, some ⟨true, 2, 1⟩, some ⟨false, 2, 0⟩] := by
  decide +kernel

/-! ## C38 -/

/-- **C38 (selection).**  If every chain consists of loops of `L` local rows followed by `G` global rows, all chains with the
same number of loops, the saved samples are the local rows of chain 0, loop by loop, then those of chain 1, and so on, without
the rows that contain `-inf`. -/
theorem C38_saved_rows_are_local_rows {α : Type} (L G n : Nat) (bad : α → Bool) (chains : List (List (List α × List α)))
    (hn : ∀ c ∈ chains, c.length = n) (hl : ∀ c ∈ chains, ∀ l ∈ c, l.1.length = L ∧ l.2.length = G) :
    savedSamples L G bad (chains.map fun c => (c.map fun l => l.1 ++ l.2).flatten) =
      ((chains.map fun c => (c.map Prod.fst).flatten).flatten).filter fun r => !bad r := by
  unfold savedSamples
  congr 2
  rw [List.map_map]
  apply List.map_congr_left
  intro c hc
  have hlen : ∀ c ∈ chains, ((c.map fun l => l.1 ++ l.2).flatten).length = (L + G) * n := by
    intro c hc
    rw [List.length_flatten, List.map_map]
    have : c.map (List.length ∘ fun l => l.1 ++ l.2) = List.replicate n (L + G) := by
      rw [List.eq_replicate_iff]
      refine ⟨by simp [hn c hc], ?_⟩
      intro b hb
      obtain ⟨a, ha, rfl⟩ := List.mem_map.1 hb
      have := hl c hc a ha
      simp [this.1, this.2]
    rw [this]; simp [Nat.mul_comm]
  have h0 : ((chains.map fun c => (c.map fun l => l.1 ++ l.2).flatten).map List.length).head?.getD 0 = (L + G) * n := by
    cases chains with
    | nil => simp at hc
    | cons c' cs => simpa using hlen c' (by simp)
  rw [h0]
  have := select_loops L G c (hl c hc)
  rw [hn c hc] at this
  exact this

/-- **C38 (end to end).**  After a whole run, the rows selected from the production buffer are exactly the stored local steps of
the production loops, in order. -/
theorem C38_run_selects_production_local_steps (nLocal localThin nGlobal globalThin nTraining nProduction : Nat) :
    savedSamples (nLocal / localThin) (nGlobal / globalThin) (fun _ => false)
        [(run nLocal localThin nGlobal globalThin nTraining nProduction).prodBuf] =
      ((List.range nProduction).map fun i =>
        (List.range (nLocal / localThin)).map fun j => some (⟨true, nTraining + i, j⟩ : Row)).flatten := by
  have h := C38_saved_rows_are_local_rows (nLocal / localThin) (nGlobal / globalThin) nProduction (fun _ : Option Row => false)
    [(List.range nProduction).map fun i =>
      (rows true (nTraining + i) (nLocal / localThin), rows false (nTraining + i) (nGlobal / globalThin))]
    (by simp) (by
      intro c hc l hl
      rw [List.mem_singleton] at hc
      subst hc
      obtain ⟨i, _, rfl⟩ := List.mem_map.1 hl
      simp [rows])
  rw [(run_spec nLocal localThin nGlobal globalThin nTraining nProduction).2]
  simpa [blocks, Function.comp_def, rows] using h

/-- **C38 (padding).**  Padding to a length that is at least the array's keeps every value at its place, fills the rest with NaN
and gives exactly that length. -/
theorem C38_padding {α : Type} (length : Nat) (a : List α) (h : a.length ≤ length) :
    (padTo length a).length = length ∧
    (∀ i, i < a.length → (padTo length a)[i]? = a[i]?.map some) ∧
    (∀ i, a.length ≤ i → i < length → (padTo length a)[i]? = some none) := by
  refine ⟨by simp [padTo]; omega, ?_, ?_⟩
  · intro i hi
    rw [padTo, List.getElem?_append_left (by simpa using hi), List.getElem?_map]
  · intro i h1 h2
    rw [padTo, List.getElem?_append_right (by simpa using h1), List.length_map, List.getElem?_replicate, if_pos (by omega)]

/-- **C38 (names).**  The chain files of a phase have pairwise distinct names, one per chain, and their lexicographic order is the
chain order. -/
theorem C38_chain_files_sorted (stem : String) (nChains : Nat) :
    (chainFiles stem nChains).length = nChains ∧ (chainFiles stem nChains).Pairwise (· < ·) ∧
      (chainFiles stem nChains).Nodup := by
  have hp : (chainFiles stem nChains).Pairwise (· < ·) := by
    unfold chainFiles
    rw [List.pairwise_map]
    refine List.Pairwise.imp_of_mem ?_ List.pairwise_lt_range
    intro a b ha hb hab
    rw [List.mem_range] at ha hb
    have hpos : 1 ≤ (Nat.toDigits 10 (nChains - 1)).length := Nat.length_toDigits_pos
    have hbound : ∀ x, x < nChains → x < 10 ^ (Nat.toDigits 10 (nChains - 1)).length := by
      intro x hx
      have : nChains - 1 < 10 ^ (Nat.toDigits 10 (nChains - 1)).length :=
        (Nat.length_toDigits_le_iff (by norm_num) hpos).1 le_rfl
      omega
    set w := (Nat.toDigits 10 (nChains - 1)).length
    rw [String.lt_iff]
    simp only [String.toList_append, zfill, String.toList_ofList]
    rw [(fixed_eq w a hpos (hbound a ha)).2, (fixed_eq w b hpos (hbound b hb)).2]
    have hlt := fixed_lt w a b (hbound b hb) hab
    have hlen : (fixed w a).length = (fixed w b).length := by rw [length_fixed, length_fixed]
    have happ : ∀ (x y t : List Char), x.length = y.length → x < y → x ++ t < y ++ t := by
      intro x
      induction x with
      | nil =>
        intro y t hl hlt
        cases y with
        | nil => exact absurd hlt (by simp)
        | cons _ _ => simp at hl
      | cons c x ih =>
        intro y t hl hlt
        cases y with
        | nil => simp at hl
        | cons d y =>
          rw [List.cons_lt_cons_iff] at hlt
          rw [List.cons_append, List.cons_append, List.cons_lt_cons_iff]
          rcases hlt with h | ⟨h1, h2⟩
          · exact Or.inl h
          · exact Or.inr ⟨h1, ih y t (by simpa using hl) h2⟩
    have hpre : ∀ (s x y : List Char), x < y → s ++ x < s ++ y := by
      intro s x y h
      induction s with
      | nil => exact h
      | cons c s ih =>
        rw [List.cons_append, List.cons_append, List.cons_lt_cons_iff]
        exact Or.inr ⟨rfl, ih⟩
    exact happ _ _ _ (by simp [hlen]) (hpre _ _ _ hlt)
  refine ⟨by simp [chainFiles], hp, ?_⟩
  refine List.Pairwise.imp (fun {a b} h => ?_) hp
  rintro rfl
  exact String.lt_irrefl _ h

example : chainFiles "prod_chains_" 11 = ["prod_chains_00.dat", "prod_chains_01.dat", "prod_chains_02.dat",
    "prod_chains_03.dat", "prod_chains_04.dat", "prod_chains_05.dat", "prod_chains_06.dat", "prod_chains_07.dat",
    "prod_chains_08.dat", "prod_chains_09.dat", "prod_chains_10.dat"] := by
  decide +kernel

example : savedSamples 2 1 (· == 99) [[1, 2, 3, 4, 5, 6], [7, 99, 8, 9, 10, 11]] = [1, 2, 4, 5, 7, 9, 10] ∧
    padTo 3 [1, 2] = [some 1, some 2, none] := by
  decide +kernel

end GW.FlowMC
