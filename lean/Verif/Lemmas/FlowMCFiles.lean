import Verif.Spec.FlowMCFiles
import Verif.Lemmas.FlowMC
import Verif.Props.FlowMC
import Mathlib.Tactic.IntervalCases

namespace GW.FlowMC

theorem write_mid {α} (a b c new : List α) (h : b.length = new.length) : write (a ++ b ++ c) a.length new = a ++ new ++ c := by
  unfold write
  simp only [List.length_append]
  have : min a.length (a.length + b.length + c.length - new.length) = a.length := by omega
  rw [this, ← h]
  simp [List.append_assoc, List.drop_append, List.drop_of_length_le]

/-- The entries of one loop. -/
def loopEntries (L G first locals globals i : Nat) : List (Option Row) :=
  ((List.range L).map fun j => if i < locals then some (⟨true, first + i, j⟩ : Row) else none) ++
    ((List.range G).map fun j => if i < globals then some (⟨false, first + i, j⟩ : Row) else none)

theorem length_loopEntries (L G first a b i : Nat) : (loopEntries L G first a b i).length = L + G := by simp [loopEntries]

theorem filled_eq (L G first N a b : Nat) : filled L G first N a b = ((List.range N).map (loopEntries L G first a b)).flatten := rfl

theorem length_map_flatten {α} (f : Nat → List α) (c : Nat) (hf : ∀ i, (f i).length = c) (l : List Nat) : ((l.map f).flatten).length = c * l.length := by
  induction l with
  | nil => simp
  | cons x l ih => simp [hf, ih]; ring

theorem length_filled (L G first N a b : Nat) : (filled L G first N a b).length = (L + G) * N := by
  rw [filled_eq, length_map_flatten _ (L + G) (length_loopEntries L G first a b)]; simp

theorem filled_split (L G first N a b k : Nat) (hk : k < N) :
    filled L G first N a b = ((List.range k).map (loopEntries L G first a b)).flatten ++ loopEntries L G first a b k ++
      ((List.range (N - k - 1)).map fun i => loopEntries L G first a b (k + 1 + i)).flatten := by
  obtain ⟨r, rfl⟩ : ∃ r, N = (k + 1) + r := ⟨N - k - 1, by omega⟩
  rw [filled_eq, List.range_add, List.map_append, List.flatten_append, List.range_succ, List.map_append, List.flatten_append]
  have : k + 1 + r - k - 1 = r := by omega
  rw [this, List.map_map]
  simp [Function.comp_def]

theorem flatten_congr {α} (f g : Nat → List α) (l : List Nat) (h : ∀ i ∈ l, f i = g i) : (l.map f).flatten = (l.map g).flatten := by
  rw [List.map_congr_left h]

theorem write_local (L G first N a b : Nat) (h : a < N) :
    write (filled L G first N a b) ((L + G) * a) (rows true (first + a) L) = filled L G first N (a + 1) b := by
  rw [filled_split L G first N a b a h, filled_split L G first N (a + 1) b a h]
  have hl : (((List.range a).map (loopEntries L G first a b)).flatten).length = (L + G) * a := by
    rw [length_map_flatten _ (L + G) (length_loopEntries L G first a b)]; simp
  have hpre : ((List.range a).map (loopEntries L G first a b)).flatten = ((List.range a).map (loopEntries L G first (a + 1) b)).flatten := by
    apply flatten_congr
    intro i hi
    rw [List.mem_range] at hi
    simp only [loopEntries, if_pos hi, if_pos (show i < a + 1 by omega)]
  have hpost : ((List.range (N - a - 1)).map fun i => loopEntries L G first a b (a + 1 + i)).flatten =
      ((List.range (N - a - 1)).map fun i => loopEntries L G first (a + 1) b (a + 1 + i)).flatten := by
    apply flatten_congr
    intro i hi
    simp only [loopEntries, if_neg (show ¬ a + 1 + i < a by omega), if_neg (show ¬ a + 1 + i < a + 1 by omega)]
  have hw := write_mid (((List.range a).map (loopEntries L G first a b)).flatten)
    ((List.range L).map fun j => if a < a then some (⟨true, first + a, j⟩ : Row) else none)
    (((List.range G).map fun j => if a < b then some (⟨false, first + a, j⟩ : Row) else none) ++
      ((List.range (N - a - 1)).map fun i => loopEntries L G first a b (a + 1 + i)).flatten) (rows true (first + a) L) (by simp [rows])
  rw [hl] at hw
  rw [← hpre, ← hpost]
  simp only [loopEntries, List.append_assoc] at hw ⊢
  rw [hw]
  simp [rows]

theorem write_global (L G first N a b : Nat) (h : b < N) :
    write (filled L G first N a b) ((L + G) * b + L) (rows false (first + b) G) = filled L G first N a (b + 1) := by
  rw [filled_split L G first N a b b h, filled_split L G first N a (b + 1) b h]
  have hl : (((List.range b).map (loopEntries L G first a b)).flatten ++
      ((List.range L).map fun j => if b < a then some (⟨true, first + b, j⟩ : Row) else none)).length = (L + G) * b + L := by
    rw [List.length_append, length_map_flatten _ (L + G) (length_loopEntries L G first a b)]; simp
  have hpre : ((List.range b).map (loopEntries L G first a b)).flatten = ((List.range b).map (loopEntries L G first a (b + 1))).flatten := by
    apply flatten_congr
    intro i hi
    rw [List.mem_range] at hi
    simp only [loopEntries, if_pos hi, if_pos (show i < b + 1 by omega)]
  have hpost : ((List.range (N - b - 1)).map fun i => loopEntries L G first a b (b + 1 + i)).flatten =
      ((List.range (N - b - 1)).map fun i => loopEntries L G first a (b + 1) (b + 1 + i)).flatten := by
    apply flatten_congr
    intro i hi
    simp only [loopEntries, if_neg (show ¬ b + 1 + i < b by omega), if_neg (show ¬ b + 1 + i < b + 1 by omega)]
  have hw := write_mid (((List.range b).map (loopEntries L G first a b)).flatten ++
      ((List.range L).map fun j => if b < a then some (⟨true, first + b, j⟩ : Row) else none))
    ((List.range G).map fun j => if b < b then some (⟨false, first + b, j⟩ : Row) else none)
    ((List.range (N - b - 1)).map fun i => loopEntries L G first a b (b + 1 + i)).flatten (rows false (first + b) G) (by simp [rows])
  rw [hl] at hw
  rw [← hpre, ← hpost]
  simp only [loopEntries, List.append_assoc] at hw ⊢
  rw [hw]
  simp [rows]

/-- The buffers, when the steppers have been called `tl`, `tg` times in training and `pl`, `pg` times in production. -/
structure Good (L G T P tl tg pl pg : Nat) (m : Moment) : Prop where
  train : m.st.trainBuf = filled L G 0 T tl tg
  prod : m.st.prodBuf = filled L G T P pl pg
  trainL : m.accs.trainLocal = filled L G 0 T tl 0
  trainG : m.accs.trainGlobal = filled L G 0 T 0 tg
  prodL : m.accs.prodLocal = filled L G T P pl 0
  prodG : m.accs.prodGlobal = filled L G T P 0 pg

variable {L G T P tl tg pl pg C : Nat} {m : Moment} {sv : Saves}

theorem good_local_train (h : Good L G T P tl tg pl pg m) (ht : m.st.training = true) (hc : m.st.lcalls = tl) (hp : m.st.lpos = (L + G) * tl)
    (hb : tl < T) : Good L G T P (tl + 1) tg pl pg (m.next L G C (.localStepper, sv)) := by
  have h1 := write_local L G 0 T tl tg hb
  have h2 := write_local L G 0 T tl 0 hb
  rw [Nat.zero_add] at h1 h2
  constructor <;> simp [Moment.next, step, accStep, St.store, ht, hc, hp, h.train, h.prod, h.trainL, h.trainG, h.prodL, h.prodG, h1, h2]

theorem good_global_train (h : Good L G T P tl tg pl pg m) (ht : m.st.training = true) (hc : m.st.gcalls = tg) (hp : m.st.gpos = (L + G) * tg + L)
    (hb : tg < T) : Good L G T P tl (tg + 1) pl pg (m.next L G C (.globalStepper, sv)) := by
  have h1 := write_global L G 0 T tl tg hb
  have h2 := write_global L G 0 T 0 tg hb
  rw [Nat.zero_add] at h1 h2
  constructor <;> simp [Moment.next, step, accStep, St.store, ht, hc, hp, h.train, h.prod, h.trainL, h.trainG, h.prodL, h.prodG, h1, h2]

theorem good_local_prod (h : Good L G T P tl tg pl pg m) (ht : m.st.training = false) (hc : m.st.lcalls = T + pl) (hp : m.st.lpos = (L + G) * pl)
    (hb : pl < P) : Good L G T P tl tg (pl + 1) pg (m.next L G C (.localStepper, sv)) := by
  have h1 := write_local L G T P pl pg hb
  have h2 := write_local L G T P pl 0 hb
  constructor <;> simp [Moment.next, step, accStep, St.store, ht, hc, hp, h.train, h.prod, h.trainL, h.trainG, h.prodL, h.prodG, h1, h2]

theorem good_global_prod (h : Good L G T P tl tg pl pg m) (ht : m.st.training = false) (hc : m.st.gcalls = T + pg) (hp : m.st.gpos = (L + G) * pg + L)
    (hb : pg < P) : Good L G T P tl tg pl (pg + 1) (m.next L G C (.globalStepper, sv)) := by
  have h1 := write_global L G T P pl pg hb
  have h2 := write_global L G T P 0 pg hb
  constructor <;> simp [Moment.next, step, accStep, St.store, ht, hc, hp, h.train, h.prod, h.trainL, h.trainG, h.prodL, h.prodG, h1, h2]

theorem good_other (h : Good L G T P tl tg pl pg m) {s : Strat} (h1 : s ≠ .localStepper) (h2 : s ≠ .globalStepper) :
    Good L G T P tl tg pl pg (m.next L G C (s, sv)) := by
  cases s <;> first
    | exact absurd rfl h1
    | exact absurd rfl h2
    | (constructor <;> simp [Moment.next, step, accStep, h.train, h.prod, h.trainL, h.trainG, h.prodL, h.prodG])

/-- At the start of training loop `k`. -/
structure AtTrain (L G T P k : Nat) (m : Moment) : Prop where
  good : Good L G T P k k 0 0 m
  training : m.st.training = true
  lcalls : m.st.lcalls = k
  gcalls : m.st.gcalls = k
  lpos : m.st.lpos = (L + G) * k

/-- At the start of production loop `k`. -/
structure AtProd (L G T P k : Nat) (m : Moment) : Prop where
  good : Good L G T P T T k k m
  training : m.st.training = false
  lcalls : m.st.lcalls = T + k
  gcalls : m.st.gcalls = T + k
  lpos : m.st.lpos = (L + G) * k

/-- The number of loops of which a strategy has been called, in the middle of loop `k`. -/
def midway (k j at_ : Nat) : Nat := if at_ ≤ j then k + 1 else k

theorem train_loop {k : Nat} (h : AtTrain L G T P k m) (hk : k < T) :
    (∀ j, j ≤ 6 → Good L G T P (midway k j 1) (midway k j 5) 0 0 (((trainingPhase.take j).map (·, Saves.training)).foldl (Moment.next L G C) m)) ∧
      AtTrain L G T P (k + 1) ((trainingPhase.map (·, Saves.training)).foldl (Moment.next L G C) m) := by
  have g0 := h.good
  have g1 := good_local_train (C := C) (sv := .training) g0 h.training h.lcalls h.lpos hk
  have g2 := good_other (C := C) (sv := .training) g1 (s := .updateGlobalStep) (by decide) (by decide)
  have g3 := good_other (C := C) (sv := .training) g2 (s := .modelTrainer) (by decide) (by decide)
  have g4 := good_other (C := C) (sv := .training) g3 (s := .updateModel) (by decide) (by decide)
  have g5 := good_global_train (C := C) (sv := .training) g4 (by simp [Moment.next, step, St.store, h.training])
    (by simp [Moment.next, step, St.store, h.training, h.gcalls]) (by simp [Moment.next, step, St.store, h.training, h.lpos]) hk
  have g6 := good_other (C := C) (sv := .training) g5 (s := .updateLocalStep) (by decide) (by decide)
  refine ⟨fun j hj => ?_, ⟨g6, ?_, ?_, ?_, ?_⟩⟩
  · interval_cases j
    · simpa [midway] using g0
    · simpa [midway, trainingPhase] using g1
    · simpa [midway, trainingPhase] using g2
    · simpa [midway, trainingPhase] using g3
    · simpa [midway, trainingPhase] using g4
    · simpa [midway, trainingPhase] using g5
    · simpa [midway, trainingPhase] using g6
  all_goals simp [trainingPhase, Moment.next, step, St.store, h.training, h.lcalls, h.gcalls, h.lpos]
  ring

theorem prod_loop {k : Nat} (h : AtProd L G T P k m) (hk : k < P) :
    (∀ j, j ≤ 4 → Good L G T P T T (midway k j 1) (midway k j 3) (((productionPhase.take j).map (·, Saves.production)).foldl (Moment.next L G C) m)) ∧
      AtProd L G T P (k + 1) ((productionPhase.map (·, Saves.production)).foldl (Moment.next L G C) m) := by
  have g0 := h.good
  have g1 := good_local_prod (C := C) (sv := .production) g0 h.training h.lcalls h.lpos hk
  have g2 := good_other (C := C) (sv := .production) g1 (s := .updateGlobalStep) (by decide) (by decide)
  have g3 := good_global_prod (C := C) (sv := .production) g2 (by simp [Moment.next, step, St.store, h.training])
    (by simp [Moment.next, step, St.store, h.training, h.gcalls]) (by simp [Moment.next, step, St.store, h.training, h.lpos]) hk
  have g4 := good_other (C := C) (sv := .production) g3 (s := .updateLocalStep) (by decide) (by decide)
  refine ⟨fun j hj => ?_, ⟨g4, ?_, ?_, ?_, ?_⟩⟩
  · interval_cases j
    · simpa [midway] using g0
    · simpa [midway, productionPhase] using g1
    · simpa [midway, productionPhase] using g2
    · simpa [midway, productionPhase] using g3
    · simpa [midway, productionPhase] using g4
  all_goals simp [productionPhase, Moment.next, step, St.store, h.training, h.lcalls, h.gcalls, h.lpos]
  · ring
  · ring
  · ring

theorem train_loops (h : AtTrain L G T P 0 m) {k : Nat} (hk : k ≤ T) :
    AtTrain L G T P k (((List.replicate k trainingPhase).flatten.map (·, Saves.training)).foldl (Moment.next L G C) m) := by
  induction k with
  | zero => simpa using h
  | succ k ih =>
    have e : (List.replicate (k + 1) trainingPhase).flatten = (List.replicate k trainingPhase).flatten ++ trainingPhase := by
      rw [flatten_replicate_add]; simp
    rw [e, List.map_append, List.foldl_append]
    exact (train_loop (ih (by omega)) (by omega)).2

theorem prod_loops (h : AtProd L G T P 0 m) {k : Nat} (hk : k ≤ P) :
    AtProd L G T P k (((List.replicate k productionPhase).flatten.map (·, Saves.production)).foldl (Moment.next L G C) m) := by
  induction k with
  | zero => simpa using h
  | succ k ih =>
    have e : (List.replicate (k + 1) productionPhase).flatten = (List.replicate k productionPhase).flatten ++ productionPhase := by
      rw [flatten_replicate_add]; simp
    rw [e, List.map_append, List.foldl_append]
    exact (prod_loop (ih (by omega)) (by omega)).2

theorem take_replicate {α} (p : List α) (N k j : Nat) (hj : j ≤ p.length) (hk : k < N ∨ (k ≤ N ∧ j = 0)) :
    (List.replicate N p).flatten.take (p.length * k + j) = (List.replicate k p).flatten ++ p.take j := by
  obtain ⟨r, rfl⟩ : ∃ r, N = k + r := ⟨N - k, by omega⟩
  rw [flatten_replicate_add, List.take_append, length_flatten_replicate]
  rw [List.take_of_length_le (by rw [length_flatten_replicate]; omega), Nat.add_sub_cancel_left]
  congr 1
  rcases hk with hk | ⟨-, rfl⟩
  · obtain ⟨r', rfl⟩ : ∃ r', r = r' + 1 := ⟨r - 1, by omega⟩
    rw [flatten_replicate_succ, List.take_append_of_le_length hj]
  · simp

/-- Where in the run a moment is. -/
inductive Where (T P : Nat) : Nat → Prop
  | train (k j : Nat) (hj : j ≤ 6) (hk : k < T) : Where T P (6 * k + j)
  | trained : Where T P (6 * T)
  | reset : Where T P (6 * T + 1)
  | prod (k j : Nat) (hj : j ≤ 4) (hk : k < P) : Where T P (6 * T + 2 + (4 * k + j))
  | done : Where T P (6 * T + 2 + 4 * P)

theorem where_is (T P n : Nat) (h : n ≤ 6 * T + 2 + 4 * P) : Where T P n := by
  by_cases h1 : n < 6 * T
  · have : n = 6 * (n / 6) + n % 6 := by omega
    rw [this]; exact .train _ _ (by omega) (by omega)
  · by_cases h2 : n = 6 * T
    · rw [h2]; exact .trained
    · by_cases h3 : n = 6 * T + 1
      · rw [h3]; exact .reset
      · by_cases h4 : n = 6 * T + 2 + 4 * P
        · rw [h4]; exact .done
        · have : n = 6 * T + 2 + (4 * ((n - (6 * T + 2)) / 4) + (n - (6 * T + 2)) % 4) := by omega
          rw [this]; exact .prod _ _ (by omega) (by omega)

theorem filled_of_le {first N a a' b b' : Nat} (ha : min a N = min a' N) (hb : min b N = min b' N) : filled L G first N a b = filled L G first N a' b' := by
  rw [filled_eq, filled_eq]
  apply flatten_congr
  intro i hi
  rw [List.mem_range] at hi
  have e1 : (i < a) = (i < a') := by apply propext; omega
  have e2 : (i < b) = (i < b') := by apply propext; omega
  simp only [loopEntries, e1, e2]

theorem filled_zero (L G first N : Nat) : filled L G first N 0 0 = List.replicate ((L + G) * N) none := by
  rw [List.eq_replicate_iff]
  refine ⟨length_filled L G first N 0 0, ?_⟩
  intro x hx
  rw [filled_eq] at hx
  simp [loopEntries] at hx
  aesop

theorem take_order_train (T P k j : Nat) (hj : j ≤ 6) (hk : k < T ∨ (k ≤ T ∧ j = 0)) :
    (strategyOrder T P).take (6 * k + j) = (List.replicate k trainingPhase).flatten ++ trainingPhase.take j ∧
    (executed (strategyOrder T P)).take (6 * k + j) =
      ((List.replicate k trainingPhase).flatten.map (·, Saves.training)) ++ ((trainingPhase.take j).map (·, Saves.training)) := by
  have h := take_replicate trainingPhase T k j hj hk
  have h6 : trainingPhase.length = 6 := rfl
  rw [h6] at h
  have hl : (List.replicate T trainingPhase).flatten.length = 6 * T := by rw [length_flatten_replicate, h6]
  constructor
  · rw [strategyOrder, List.append_assoc, List.take_append_of_le_length (by rw [hl]; omega), h]
  · rw [executed_strategyOrder, List.append_assoc, List.take_append_of_le_length (by rw [List.length_map, hl]; omega), ← List.map_take, h, List.map_append]

theorem take_order_prod (T P k j : Nat) (hj : j ≤ 4) (hk : k < P ∨ (k ≤ P ∧ j = 0)) :
    (strategyOrder T P).take (6 * T + 2 + (4 * k + j)) = (List.replicate T trainingPhase).flatten ++ [.resetSteppers, .updateState] ++
      ((List.replicate k productionPhase).flatten ++ productionPhase.take j) ∧
    (executed (strategyOrder T P)).take (6 * T + 2 + (4 * k + j)) = ((List.replicate T trainingPhase).flatten.map (·, Saves.training)) ++
      [(.resetSteppers, .nothing), (.updateState, .nothing)] ++
      (((List.replicate k productionPhase).flatten.map (·, Saves.production)) ++ ((productionPhase.take j).map (·, Saves.production))) := by
  have h := take_replicate productionPhase P k j hj hk
  have h4 : productionPhase.length = 4 := rfl
  have h6 : trainingPhase.length = 6 := rfl
  rw [h4] at h
  have hl : (List.replicate T trainingPhase).flatten.length = 6 * T := by rw [length_flatten_replicate, h6]
  constructor
  · rw [strategyOrder, List.take_append, List.take_of_length_le (by rw [List.length_append, hl]; simp)]
    rw [List.length_append, hl]
    simp only [List.length_cons, List.length_nil]
    rw [show 6 * T + 2 + (4 * k + j) - (6 * T + (0 + 1 + 1)) = 4 * k + j by omega, h]
  · rw [executed_strategyOrder, List.take_append, List.take_of_length_le (by rw [List.length_append, List.length_map, hl]; simp)]
    rw [List.length_append, List.length_map, hl]
    simp only [List.length_cons, List.length_nil]
    rw [show 6 * T + 2 + (4 * k + j) - (6 * T + (0 + 1 + 1)) = 4 * k + j by omega, ← List.map_take, h, List.map_append]

theorem count_replicate (p : List Strat) (s : Strat) (n : Nat) : (List.replicate n p).flatten.count s = n * p.count s := by
  induction n with
  | zero => simp
  | succ n ih => rw [flatten_replicate_succ, List.count_append, ih]; ring

section Run
variable (nLocal localThin nGlobal globalThin nTraining nProduction nChains : Nat)

theorem start_at : AtTrain (nLocal / localThin) (nGlobal / globalThin) nTraining nProduction 0
    (start nLocal localThin nGlobal globalThin nTraining nProduction) := by
  refine ⟨⟨?_, ?_, ?_, ?_, ?_, ?_⟩, ?_, ?_, ?_, ?_⟩ <;> simp [start, initial, filled_zero]

theorem reset_at {m : Moment} (h : AtTrain L G T P T m) :
    AtProd L G T P 0 (([(Strat.resetSteppers, Saves.nothing), (.updateState, .nothing)]).foldl (Moment.next L G C) m) := by
  have g1 := good_other (C := C) (sv := .nothing) h.good (s := .resetSteppers) (by decide) (by decide)
  have g2 := good_other (C := C) (sv := .nothing) g1 (s := .updateState) (by decide) (by decide)
  refine ⟨g2, ?_, ?_, ?_, ?_⟩ <;> simp [Moment.next, step, h.lcalls, h.gcalls]

/-- The buffers and the phase at every moment. -/
theorem good_after (n : Nat) (hn : n ≤ 6 * nTraining + 2 + 4 * nProduction) :
    ∃ tl tg pl pg, Good (nLocal / localThin) (nGlobal / globalThin) nTraining nProduction tl tg pl pg
        (after nLocal localThin nGlobal globalThin nTraining nProduction nChains n) ∧
      calls nTraining nProduction n .localStepper = tl + pl ∧ calls nTraining nProduction n .globalStepper = tg + pg ∧
      tl ≤ nTraining ∧ tg ≤ nTraining ∧ (0 < pl → tl = nTraining) ∧ (0 < pg → tg = nTraining) ∧
      (6 * nTraining + 2 ≤ n → (after nLocal localThin nGlobal globalThin nTraining nProduction nChains n).st.training = false) := by
  have hs := start_at nLocal localThin nGlobal globalThin nTraining nProduction
  have cl : trainingPhase.count .localStepper = 1 := by decide
  have cg : trainingPhase.count .globalStepper = 1 := by decide
  have dl : productionPhase.count .localStepper = 1 := by decide
  have dg : productionPhase.count .globalStepper = 1 := by decide
  have hprod : ∀ k j, j ≤ 4 → (k < nProduction ∨ (k ≤ nProduction ∧ j = 0)) → n = 6 * nTraining + 2 + (4 * k + j) →
      Good (nLocal / localThin) (nGlobal / globalThin) nTraining nProduction nTraining nTraining (midway k j 1) (midway k j 3)
        (after nLocal localThin nGlobal globalThin nTraining nProduction nChains n) ∧
      calls nTraining nProduction n .localStepper = nTraining + midway k j 1 ∧
      calls nTraining nProduction n .globalStepper = nTraining + midway k j 3 ∧
      (after nLocal localThin nGlobal globalThin nTraining nProduction nChains n).st.training = false := by
    intro k j hj hk e
    obtain ⟨h1, h2⟩ := take_order_prod nTraining nProduction k j hj hk
    rw [← e] at h1 h2
    have A := train_loops (C := nChains) hs (le_refl nTraining)
    have B := reset_at (C := nChains) A
    have D := prod_loops (C := nChains) B (k := k) (by omega)
    refine ⟨?_, ?_, ?_, ?_⟩
    · rw [after, h2, List.foldl_append, List.foldl_append, List.foldl_append]
      rcases hk with hk | ⟨-, rfl⟩
      · exact (prod_loop (C := nChains) D hk).1 j hj
      · simpa [midway] using D.good
    · rw [calls, h1, List.count_append, List.count_append, List.count_append, count_replicate, count_replicate, cl, dl]
      interval_cases j <;> simp [midway, productionPhase] <;> decide
    · rw [calls, h1, List.count_append, List.count_append, List.count_append, count_replicate, count_replicate, cg, dg]
      interval_cases j <;> simp [midway, productionPhase] <;> decide
    · rw [after, h2, List.foldl_append, List.foldl_append, List.foldl_append]
      have ht := D.training
      generalize List.foldl _ _ (List.map _ (List.replicate k productionPhase).flatten) = M at ht ⊢
      interval_cases j <;> simp [productionPhase, Moment.next, step, St.store, ht]
  have htrain : ∀ k j, j ≤ 6 → (k < nTraining ∨ (k ≤ nTraining ∧ j = 0)) → n = 6 * k + j →
      Good (nLocal / localThin) (nGlobal / globalThin) nTraining nProduction (midway k j 1) (midway k j 5) 0 0
        (after nLocal localThin nGlobal globalThin nTraining nProduction nChains n) ∧
      calls nTraining nProduction n .localStepper = midway k j 1 ∧ calls nTraining nProduction n .globalStepper = midway k j 5 := by
    intro k j hj hk e
    obtain ⟨h1, h2⟩ := take_order_train nTraining nProduction k j hj hk
    rw [← e] at h1 h2
    have D := train_loops (C := nChains) hs (k := k) (by omega)
    refine ⟨?_, ?_, ?_⟩
    · rw [after, h2, List.foldl_append]
      rcases hk with hk | ⟨-, rfl⟩
      · exact (train_loop (C := nChains) D hk).1 j hj
      · simpa [midway] using D.good
    · rw [calls, h1, List.count_append, count_replicate, cl]
      interval_cases j <;> simp [midway, trainingPhase] <;> decide
    · rw [calls, h1, List.count_append, count_replicate, cg]
      interval_cases j <;> simp [midway, trainingPhase] <;> decide
  have hm : ∀ k j a : Nat, midway k j a ≤ k + 1 := by intro k j a; unfold midway; split <;> omega
  have hm0 : ∀ k a : Nat, 0 < a → midway k 0 a = k := by intro k a h; unfold midway; rw [if_neg (by omega)]
  cases where_is _ _ _ hn with
  | train k j hj hk =>
    obtain ⟨g, a, b⟩ := htrain k j hj (.inl hk) rfl
    exact ⟨_, _, 0, 0, g, a, b, le_trans (hm _ _ _) hk, le_trans (hm _ _ _) hk, by simp, by simp, fun h => absurd h (by omega)⟩
  | trained =>
    obtain ⟨g, a, b⟩ := htrain nTraining 0 (by omega) (.inr ⟨le_refl _, rfl⟩) rfl
    rw [hm0 _ _ (by omega)] at g a
    rw [hm0 _ _ (by omega)] at g b
    exact ⟨_, _, 0, 0, g, a, b, le_refl _, le_refl _, by simp, by simp, fun h => absurd h (by omega)⟩
  | reset =>
    have A := train_loops (C := nChains) hs (le_refl nTraining)
    have e1 : (strategyOrder nTraining nProduction).take (6 * nTraining + 1) = (List.replicate nTraining trainingPhase).flatten ++ [.resetSteppers] := by
      have := (take_order_prod nTraining nProduction 0 0 (by omega) (.inr ⟨by omega, rfl⟩)).1
      have h := congrArg (List.take (6 * nTraining + 1)) this
      rw [List.take_take, show min (6 * nTraining + 1) (6 * nTraining + 2 + (4 * 0 + 0)) = 6 * nTraining + 1 by omega] at h
      rw [h]
      have hl : (List.replicate nTraining trainingPhase).flatten.length = 6 * nTraining := by rw [length_flatten_replicate]; rfl
      rw [List.append_assoc, List.take_append, hl, List.take_of_length_le (by omega), show 6 * nTraining + 1 - 6 * nTraining = 1 by omega]
      rfl
    have e2 : (executed (strategyOrder nTraining nProduction)).take (6 * nTraining + 1) =
        ((List.replicate nTraining trainingPhase).flatten.map (·, Saves.training)) ++ [(.resetSteppers, .nothing)] := by
      have := (take_order_prod nTraining nProduction 0 0 (by omega) (.inr ⟨by omega, rfl⟩)).2
      have h := congrArg (List.take (6 * nTraining + 1)) this
      rw [List.take_take, show min (6 * nTraining + 1) (6 * nTraining + 2 + (4 * 0 + 0)) = 6 * nTraining + 1 by omega] at h
      rw [h]
      have hl : ((List.replicate nTraining trainingPhase).flatten.map (·, Saves.training)).length = 6 * nTraining := by
        rw [List.length_map, length_flatten_replicate]; rfl
      rw [List.append_assoc, List.take_append, hl, List.take_of_length_le (by omega), show 6 * nTraining + 1 - 6 * nTraining = 1 by omega]
      rfl
    refine ⟨nTraining, nTraining, 0, 0, ?_, ?_, ?_, le_refl _, le_refl _, by simp, by simp, fun h => absurd h (by omega)⟩
    · rw [after, e2, List.foldl_append]
      exact good_other A.good (by decide) (by decide)
    · rw [calls, e1, List.count_append, count_replicate, cl]; simp
    · rw [calls, e1, List.count_append, count_replicate, cg]; simp
  | prod k j hj hk =>
    obtain ⟨g, a, b, c⟩ := hprod k j hj (.inl hk) rfl
    exact ⟨_, _, _, _, g, a, b, le_refl _, le_refl _, fun _ => rfl, fun _ => rfl, fun _ => c⟩
  | done =>
    obtain ⟨g, a, b, c⟩ := hprod nProduction 0 (by omega) (.inr ⟨le_refl _, rfl⟩) (by omega)
    exact ⟨_, _, _, _, g, a, b, le_refl _, le_refl _, fun _ => rfl, fun _ => rfl, fun _ => c⟩

end Run

end GW.FlowMC
