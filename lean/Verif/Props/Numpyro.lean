import Verif.Model.Numpyro
import Verif.Lemmas.Names
import Verif.Lemmas.PyDict
import Mathlib.Tactic.Ring

/-!
# C39: NumPyro chains are each run and saved once, in order
-/

namespace GW.Numpyro
open PyDict (Dict get?)
open GW.Tools (Err)

variable {V : Type}

/-- The file name of chain `i`. -/
def chainFile (i : Nat) : String := "chain_" ++ toString i ++ ".dat"

theorem chainFile_inj {i j : Nat} (h : chainFile i = chainFile j) : i = j := by
  unfold chainFile at h
  have h' := congrArg String.toList h
  simp only [String.toList_append, List.append_assoc] at h'
  have h2 := List.append_cancel_right (List.append_cancel_left h')
  exact toString_nat_inj (String.toList_inj.1 h2)

theorem get?_writeChains (labels : List String) (samples : List (List (String → V))) (start : Nat) (fs : Files V) (f : String) :
    get? (writeChains labels start samples fs) f =
      (match samples.zipIdx.find? (fun p => f = chainFile (start + p.2)) with
        | some p => some (.header labels :: chainRows labels p.1)
        | none => get? fs f) := by
  induction samples generalizing start fs with
  | nil => rfl
  | cons c cs ih =>
    rw [writeChains, ih]
    have hz : (c :: cs).zipIdx = (c, 0) :: (cs.zipIdx).map (fun p => (p.1, p.2 + 1)) := by
      rw [List.zipIdx_cons, List.zipIdx_succ]
    rw [hz, List.find?_cons]
    by_cases hf : f = chainFile start
    · have hnone : cs.zipIdx.find? (fun p => f = chainFile (start + 1 + p.2)) = none := by
        rw [List.find?_eq_none]
        intro p _ hp
        have := chainFile_inj ((of_decide_eq_true hp).symm.trans hf)
        omega
      rw [hnone]
      simp only [Nat.add_zero, hf, decide_true]
      exact PyDict.get?_set_self _ _ _
    · simp only [Nat.add_zero, hf, decide_false, List.find?_map]
      have he : ((fun p : List (String → V) × Nat => decide (f = chainFile (start + p.2))) ∘ fun p : List (String → V) × Nat => (p.1, p.2 + 1)) =
          fun p : List (String → V) × Nat => decide (f = chainFile (start + 1 + p.2)) := by
        funext p
        simp only [Function.comp]
        rw [show start + (p.2 + 1) = start + 1 + p.2 by ring]
      rw [he]
      cases hq : cs.zipIdx.find? (fun p => f = chainFile (start + 1 + p.2)) with
      | none => simp only [Option.map_none]; exact PyDict.get?_set_ne _ _ hf
      | some p => rfl

theorem get?_writeChains_mem (labels : List String) (samples : List (List (String → V))) (start : Nat) (fs : Files V) (i : Nat)
    (hi : i < samples.length) :
    get? (writeChains labels start samples fs) (chainFile (start + i)) =
      some (.header labels :: chainRows labels samples[i]) := by
  rw [get?_writeChains]
  have : samples.zipIdx.find? (fun p => chainFile (start + i) = chainFile (start + p.2)) = some (samples[i], i) := by
    rw [List.find?_eq_some_iff_getElem]
    refine ⟨by simp, i, by simpa using hi, by simp, ?_⟩
    intro j hj
    simp only [Bool.not_eq_true', decide_eq_false_iff_not]
    intro h
    have := chainFile_inj h
    simp at this
    omega
  rw [this]

theorem get?_writeChains_not (labels : List String) (samples : List (List (String → V))) (start : Nat) (fs : Files V) (f : String)
    (h : ∀ i < samples.length, f ≠ chainFile (start + i)) :
    get? (writeChains labels start samples fs) f = get? fs f := by
  rw [get?_writeChains]
  have : samples.zipIdx.find? (fun p => f = chainFile (start + p.2)) = none := by
    rw [List.find?_eq_none]
    intro p hp hd
    obtain ⟨x, k⟩ := p
    have hk : k < samples.length := by
      have := List.snd_lt_of_mem_zipIdx hp; simpa using this
    exact h k hk (of_decide_eq_true hd)
  rw [this]

theorem combined_ne (i : Nat) : "samples.dat" ≠ chainFile i := by
  intro h
  have := congrArg (fun s => s.toList.head?) h
  simp [chainFile] at this

/-- Number of derivation steps of a key. -/
def depth : Key → Nat
  | .seed _ => 0
  | .sub k _ => depth k + 1

/-- What holds after some batches. -/
structure Inv (sampler : Key → Nat → List (List (String → V))) (labels : List String) (fs : Files V) (st : St V) : Prop where
  idx : st.chainIdx = (st.calls.map Prod.snd).sum
  combined : 0 < st.chainIdx → get? st.files "samples.dat" =
    some (.header labels :: (((st.calls.map fun c => sampler c.1 c.2).flatten).map (chainRows labels)).flatten)
  nothing : st.chainIdx = 0 → st.calls = []
  chains : ∀ i, ∀ hi : i < ((st.calls.map fun c => sampler c.1 c.2).flatten).length,
    get? st.files (chainFile i) = some (.header labels :: chainRows labels ((st.calls.map fun c => sampler c.1 c.2).flatten)[i])
  others : ∀ f, f ≠ "samples.dat" → (∀ i < st.chainIdx, f ≠ chainFile i) → get? st.files f = get? fs f
  keys : (st.calls.map Prod.fst).Nodup ∧ ∀ c ∈ st.calls, depth c.1 ≤ depth st.key

theorem length_chains (sampler : Key → Nat → List (List (String → V))) (hs : ∀ k n, (sampler k n).length = n) (calls : List (Key × Nat)) :
    ((calls.map fun c => sampler c.1 c.2).flatten).length = (calls.map Prod.snd).sum := by
  rw [List.length_flatten, List.map_map]
  congr 1
  apply List.map_congr_left
  intro c _
  exact hs c.1 c.2

theorem inv_batch (sampler : Key → Nat → List (List (String → V))) (hs : ∀ k n, (sampler k n).length = n) (labels : List String)
    (fs : Files V) (size : Nat) (hsize : 0 < size) (st : St V) (h : Inv sampler labels fs st) :
    Inv sampler labels fs (runBatch sampler "samples.dat" labels size st) := by
  have hlen := length_chains sampler hs st.calls
  rw [← h.idx] at hlen
  constructor
  · simp only [runBatch, List.map_append, List.map_cons, List.map_nil, List.sum_append, List.sum_cons, List.sum_nil, Nat.add_zero]
    rw [h.idx]
  · intro _
    simp only [runBatch, save]
    rw [get?_writeChains_not _ _ _ _ _ (fun i _ => combined_ne _)]
    by_cases h0 : st.chainIdx = 0
    · rw [if_pos h0, PyDict.get?_set_self, h.nothing h0]
      simp
    · rw [if_neg h0, PyDict.get?_set_self, h.combined (by omega)]
      simp
  · intro h0
    simp only [runBatch] at h0
    omega
  · intro i hi
    simp only [runBatch, List.map_append, List.map_cons, List.map_nil, List.flatten_append, List.flatten_cons,
      List.flatten_nil, List.append_nil] at hi ⊢
    simp only [save]
    by_cases hlt : i < st.chainIdx
    · rw [List.getElem_append_left (by omega), get?_writeChains_not _ _ _ _ _ (by
        intro j _ hc
        have := chainFile_inj hc
        omega)]
      have := h.chains i (by omega)
      rw [← this]
      split_ifs <;> exact PyDict.get?_set_ne _ _ (combined_ne i).symm
    · rw [List.getElem_append_right (by omega)]
      rw [List.length_append] at hi
      have := get?_writeChains_mem labels (sampler (Key.sub st.key 1) size) st.chainIdx
        (if st.chainIdx = 0 then PyDict.set st.files "samples.dat"
            (.header labels :: ((sampler (Key.sub st.key 1) size).map (chainRows labels)).flatten)
          else PyDict.set st.files "samples.dat" ((get? st.files "samples.dat").getD [] ++
            ((sampler (Key.sub st.key 1) size).map (chainRows labels)).flatten)) (i - st.chainIdx) (by omega)
      rw [show st.chainIdx + (i - st.chainIdx) = i by omega] at this
      rw [this]
      simp only [hlen]
  · intro f hf hi
    simp only [runBatch, save] at hi ⊢
    rw [get?_writeChains_not _ _ _ _ _ (fun i hi' => hi _ (by rw [hs] at hi'; omega))]
    rw [← h.others f hf (fun i hi' => hi i (by omega))]
    split_ifs <;> exact PyDict.get?_set_ne _ _ hf
  · obtain ⟨h1, h2⟩ := h.keys
    simp only [runBatch, List.map_append, List.map_cons, List.map_nil]
    refine ⟨?_, ?_⟩
    · rw [List.nodup_append]
      refine ⟨h1, by simp, ?_⟩
      intro a ha b hb hab
      rw [List.mem_singleton] at hb
      subst hb
      obtain ⟨c, hc, hca⟩ := List.mem_map.1 ha
      have := h2 c hc
      rw [hca, hab] at this
      simp only [depth] at this
      omega
    · intro c hc
      rcases List.mem_append.1 hc with hc | hc
      · have := h2 c hc
        simp only [depth]; omega
      · rw [List.mem_singleton] at hc
        subst hc
        simp [depth]

theorem inv_batches (sampler : Key → Nat → List (List (String → V))) (hs : ∀ k n, (sampler k n).length = n) (labels : List String)
    (fs : Files V) (size : Nat) (hsize : 0 < size) (n : Nat) (st : St V) (h : Inv sampler labels fs st) :
    Inv sampler labels fs (runBatches sampler "samples.dat" labels size n st) ∧
      (runBatches sampler "samples.dat" labels size n st).chainIdx = st.chainIdx + n * size ∧
      ∀ c ∈ (runBatches sampler "samples.dat" labels size n st).calls, c ∈ st.calls ∨ c.2 = size := by
  induction n generalizing st with
  | zero => exact ⟨h, by simp [runBatches], fun c hc => Or.inl hc⟩
  | succ n ih =>
    obtain ⟨a, b, c⟩ := ih _ (inv_batch sampler hs labels fs size hsize st h)
    refine ⟨a, ?_, ?_⟩
    · rw [runBatches, b]; simp only [runBatch]; ring
    · intro x hx
      rcases c x hx with h' | h'
      · simp only [runBatch, List.mem_append, List.mem_singleton] at h'
        rcases h' with h' | h'
        · exact Or.inl h'
        · exact Or.inr (by rw [h'])
      · exact Or.inr h'

/-- **C39.**  For every chain method, every device count and number of chains that are at least one, and every sampler that returns as
many chains as it is asked for, the run succeeds.  The sizes of the batches sum to the number of chains, and no batch has more chains
than there are devices unless the vectorised method is in force.  Let `chains` be the concatenation of the batches' chains in the
order in which they were run.  Then `chains` has one entry per chain; file `chain_i.dat` is the header followed by the rows of the
`i`-th of them; the combined file is the header followed by the rows of all of them in index order; and every other file is as
before.  Every batch uses its own key. -/
theorem C39_every_chain_saved_once (sampler : Key → Nat → List (List (String → V))) (hs : ∀ k n, (sampler k n).length = n)
    (labels : List String) (key : Key) (chainMethod : String) (nDevices nChains : Nat) (hd : 1 ≤ nDevices) (hc : 1 ≤ nChains)
    (fs : Files V) :
    ∃ st, runMcmc sampler "samples.dat" labels key chainMethod nDevices nChains fs = .ok st ∧
      (st.calls.map Prod.snd).sum = nChains ∧
      (∀ c ∈ st.calls, 1 ≤ c.2 ∧ (c.2 ≤ nDevices ∨ (chainMethod = "vectorized" ∧ nDevices = 1))) ∧
      (st.calls.map Prod.fst).Nodup ∧
      ∃ chains, chains = (st.calls.map fun c => sampler c.1 c.2).flatten ∧ chains.length = nChains ∧
        (∀ i, ∀ hi : i < chains.length, get? st.files ("chain_" ++ toString i ++ ".dat") =
          some (.header labels :: chains[i].map fun draw => .row (labels.map draw))) ∧
        get? st.files "samples.dat" =
          some (.header labels :: (chains.map fun chain => chain.map fun draw => .row (labels.map draw)).flatten) ∧
        (∀ f, f ≠ "samples.dat" → (∀ i < nChains, f ≠ "chain_" ++ toString i ++ ".dat") → get? st.files f = get? fs f) := by
  have hsize : 0 < batchSize chainMethod nDevices nChains := by
    unfold batchSize; split_ifs <;> omega
  have hle : batchSize chainMethod nDevices nChains ≤ nDevices ∨ (chainMethod = "vectorized" ∧ nDevices = 1) := by
    unfold batchSize effectiveMethod
    split_ifs with h1 h2 h2
    · exact absurd h2 (by decide)
    · exact Or.inl (min_le_right _ _)
    · subst h2
      exact Or.inr ⟨rfl, by by_contra hne; exact h1 ⟨by decide, by omega⟩⟩
    · exact Or.inl (min_le_right _ _)
  unfold runMcmc
  simp only
  rw [if_neg (by omega)]
  generalize hsz : batchSize chainMethod nDevices nChains = size at *
  have h0 : Inv sampler labels fs { key, chainIdx := 0, files := fs } := by
    constructor <;> simp
  obtain ⟨a, b, c⟩ := inv_batches sampler hs labels fs size hsize (nChains / size) _ h0
  simp only [Nat.zero_add] at b
  have hdm := Nat.div_add_mod nChains size
  have hmod := Nat.mod_lt nChains hsize
  rw [Nat.mul_comm] at hdm
  set st0 := runBatches sampler "samples.dat" labels size (nChains / size) { key, chainIdx := 0, files := fs } with hst0
  have fin : ∀ st, Inv sampler labels fs st → st.chainIdx = nChains →
      (∀ c ∈ st.calls, 1 ≤ c.2 ∧ (c.2 ≤ nDevices ∨ (chainMethod = "vectorized" ∧ nDevices = 1))) →
      (st.calls.map Prod.snd).sum = nChains ∧
      (∀ c ∈ st.calls, 1 ≤ c.2 ∧ (c.2 ≤ nDevices ∨ (chainMethod = "vectorized" ∧ nDevices = 1))) ∧
      (st.calls.map Prod.fst).Nodup ∧
      ∃ chains, chains = (st.calls.map fun c => sampler c.1 c.2).flatten ∧ chains.length = nChains ∧
        (∀ i, ∀ hi : i < chains.length, get? st.files ("chain_" ++ toString i ++ ".dat") =
          some (.header labels :: chains[i].map fun draw => .row (labels.map draw))) ∧
        get? st.files "samples.dat" =
          some (.header labels :: (chains.map fun chain => chain.map fun draw => .row (labels.map draw)).flatten) ∧
        (∀ f, f ≠ "samples.dat" → (∀ i < nChains, f ≠ "chain_" ++ toString i ++ ".dat") → get? st.files f = get? fs f) := by
    intro st hi hx hcs
    refine ⟨by rw [← hi.idx, hx], hcs, hi.keys.1, _, rfl, by rw [length_chains sampler hs, ← hi.idx, hx], hi.chains,
      hi.combined (by omega), ?_⟩
    intro f hf hff
    exact hi.others f hf (by rw [hx]; exact hff)
  have hcalls : ∀ c ∈ st0.calls, 1 ≤ c.2 ∧ (c.2 ≤ nDevices ∨ (chainMethod = "vectorized" ∧ nDevices = 1)) := by
    intro x hx
    rcases c x hx with h | h
    · simp at h
    · rw [h]; exact ⟨hsize, hle⟩
  refine ⟨_, rfl, ?_⟩
  split_ifs with hrem
  · apply fin
    · exact inv_batch sampler hs labels fs _ hrem st0 a
    · simp only [runBatch, b]; omega
    · intro x hx
      simp only [runBatch, List.mem_append, List.mem_singleton] at hx
      rcases hx with hx | hx
      · exact hcalls x hx
      · subst hx
        refine ⟨hrem, ?_⟩
        rcases hle with h | h
        · left; simp only; omega
        · exact Or.inr h
  · exact fin st0 a (by rw [b]; omega) hcalls

/-- Without a chain (or without a device) the run fails instead of writing an empty result. -/
theorem C39_no_chain_rejected (sampler : Key → Nat → List (List (String → V))) (labels : List String) (key : Key)
    (chainMethod : String) (nDevices : Nat) (fs : Files V) :
    runMcmc sampler "samples.dat" labels key chainMethod nDevices 0 fs = .error .zeroDivision := by
  unfold runMcmc batchSize
  simp

/-- Three chains on two devices: batches of two and one; the sampler returns one draw per chain, numbered by chain. -/
example : ((runMcmc (fun _ n => (List.range n).map fun i => [fun _ => i]) "samples.dat" ["a", "b"] (.seed 0) "vectorized" 2 3
    []).toOption.map fun st => (st.calls.map Prod.snd, get? st.files "samples.dat", get? st.files "chain_2.dat")) =
    some ([2, 1], some [.header ["a", "b"], .row [0, 0], .row [1, 1], .row [0, 0]],
      some [.header ["a", "b"], .row [0, 0]]) := by
  decide +kernel

end GW.Numpyro
