import Verif.Model.Population
import Verif.Lemmas.XR
import Mathlib.Data.List.Nodup
import Mathlib.Tactic.Linarith
import Mathlib.Tactic.Ring
import Mathlib.Tactic.NormNum
import Mathlib.Tactic.FieldSimp
import Mathlib.Algebra.BigOperators.Ring.Finset
import Mathlib.Algebra.BigOperators.Field
import Mathlib.Tactic.IntervalCases
import Mathlib.Algebra.Order.BigOperators.Ring.Finset

/-!
# C42, C43, C44, C58: population generation

* C42: no random key is used for two draws.
* C43: populations keep their rows aligned and their masses ordered.
* C44: the tiled covariance is the sample covariance inside tiles and zero elsewhere.
* C58: the noise of an event.
-/

namespace GW.Population
open GW.Tools (Err)

/-! ## C42 -/

/-- No two draws of a run share a key. -/
def NoReuse (l : List (Use × Key)) : Prop := l.Pairwise fun a b => a.2 ≠ b.2

theorem NoReuse.append {l₁ l₂ : List (Use × Key)} (h1 : NoReuse l₁) (h2 : NoReuse l₂)
    (h : ∀ a ∈ l₁, ∀ b ∈ l₂, a.2 ≠ b.2) : NoReuse (l₁ ++ l₂) := List.pairwise_append.2 ⟨h1, h2, h⟩

theorem noReuse_flatten_range (f : Nat → List (Use × Key)) (n : Nat) (h1 : ∀ i < n, NoReuse (f i))
    (h2 : ∀ i j, i < j → ∀ a ∈ f i, ∀ b ∈ f j, a.2 ≠ b.2) : NoReuse ((List.range n).map f).flatten := by
  unfold NoReuse
  rw [List.pairwise_flatten]
  constructor
  · intro l hl
    obtain ⟨i, hi, rfl⟩ := List.mem_map.1 hl
    exact h1 i (List.mem_range.1 hi)
  · rw [List.pairwise_map]
    exact List.pairwise_lt_range.imp fun hij a ha b hb => h2 _ _ hij a ha b hb

theorem mem_populationKeys {thin : Bool} {i : Nat} {key : Key} {a : Use × Key} (h : a ∈ populationKeys thin i key) :
    a.2 = key ∨ a.2 = Key.sub (Key.sub key 1) 1 := by
  unfold populationKeys at h
  cases thin <;> simp at h
  · subst h; exact Or.inl rfl
  · rcases h with rfl | rfl
    · exact Or.inl rfl
    · exact Or.inr rfl

theorem mul_add_inj {H e h e' h' : Nat} (hh : h < H) (hh' : h' < H) (heq : e * H + h = e' * H + h') : e = e' ∧ h = h' := by
  have h1 : (e * H + h) / H = e := by rw [Nat.mul_comm, Nat.mul_add_div (by omega), Nat.div_eq_of_lt hh]; rfl
  have h2 : (e' * H + h') / H = e' := by rw [Nat.mul_comm, Nat.mul_add_div (by omega), Nat.div_eq_of_lt hh']; rfl
  have : e = e' := by rw [← h1, ← h2, heq]
  subst this
  exact ⟨rfl, by omega⟩

theorem mem_errorKeys {nEvents nErrors i : Nat} {key : Key} {a : Use × Key} :
    a ∈ errorKeys nEvents nErrors i key ↔
      ∃ e < nEvents, ∃ h < nErrors, a = (Use.noise i e h, Key.sub key (e * nErrors + h)) := by
  simp only [errorKeys, List.mem_flatten, List.mem_map, List.mem_range]
  constructor
  · rintro ⟨_, ⟨e, he, rfl⟩, hx⟩
    obtain ⟨h, hh, rfl⟩ := List.mem_map.1 hx
    exact ⟨e, he, h, List.mem_range.1 hh, rfl⟩
  · rintro ⟨e, he, h, hh, rfl⟩
    exact ⟨_, ⟨e, he, rfl⟩, List.mem_map.2 ⟨h, List.mem_range.2 hh, rfl⟩⟩

theorem errorKeys_noReuse (nEvents nErrors i : Nat) (key : Key) : NoReuse (errorKeys nEvents nErrors i key) := by
  apply noReuse_flatten_range
  · intro e _
    unfold NoReuse
    rw [List.pairwise_map]
    refine List.pairwise_lt_range.imp ?_
    intro a b hab heq
    simp only [Key.sub.injEq, true_and] at heq
    omega
  · intro e e' hlt a ha b hb heq
    obtain ⟨h, hh, rfl⟩ := List.mem_map.1 ha
    obtain ⟨h', hh', rfl⟩ := List.mem_map.1 hb
    simp only [Key.sub.injEq, true_and] at heq
    have := (mul_add_inj (List.mem_range.1 hh) (List.mem_range.1 hh') heq).1
    omega

/-- **C42 (generation).**  Drawing the size, every realisation and every thinning uses pairwise distinct keys. -/
theorem C42_generation_distinct (thin : Bool) (numRealizations : Nat) (key : Key) :
    NoReuse (realizationKeys thin numRealizations key) := by
  unfold realizationKeys NoReuse
  rw [List.pairwise_cons]
  constructor
  · intro a ha heq
    obtain ⟨l, hl, hal⟩ := List.mem_flatten.1 ha
    obtain ⟨i, _, rfl⟩ := List.mem_map.1 hl
    rcases mem_populationKeys hal with h | h <;> rw [h] at heq <;> simp at heq
    have := congrArg sizeOf heq.1
    simp at this
    omega
  · apply noReuse_flatten_range
    · intro i _
      unfold NoReuse populationKeys
      cases thin <;> simp
      intro h
      have := congrArg sizeOf h
      simp at this
      omega
    · intro i j hij a ha b hb heq
      rcases mem_populationKeys ha with h | h <;> rcases mem_populationKeys hb with h' | h' <;> rw [h, h'] at heq <;> simp at heq
      · omega
      · have := congrArg sizeOf heq.1
        simp at this
        omega
      · have := congrArg sizeOf heq.1
        simp at this
        omega
      · omega

/-- **C42 (noise).**  The noise of every realisation, event and error generator uses its own key. -/
theorem C42_noise_distinct (numRealizations nEvents nErrors : Nat) (key : Key) :
    NoReuse ((List.range numRealizations).map fun i => errorKeys nEvents nErrors i (Key.sub key i)).flatten := by
  apply noReuse_flatten_range
  · intro i _
    exact errorKeys_noReuse _ _ _ _
  · intro i j hij a ha b hb heq
    obtain ⟨_, _, _, _, rfl⟩ := mem_errorKeys.1 ha
    obtain ⟨_, _, _, _, rfl⟩ := mem_errorKeys.1 hb
    simp at heq
    omega

/-- **C42.**  With one realisation no key is used for two draws.  Missing: two or more realisations, where the claim is false
(`C42_reuse_violated`). -/
theorem C42_single_realization_partial (thin : Bool) (numRealizations nEvents nErrors : Nat) (key : Key) (h : numRealizations ≤ 1) :
    NoReuse (produceKeys thin numRealizations nEvents nErrors key) := by
  refine (C42_generation_distinct _ _ _).append (C42_noise_distinct _ _ _ _) ?_
  intro a ha b hb heq
  obtain ⟨l, hl, hbl⟩ := List.mem_flatten.1 hb
  obtain ⟨i, hi, rfl⟩ := List.mem_map.1 hl
  obtain ⟨e, _, w, _, rfl⟩ := mem_errorKeys.1 hbl
  have hi0 : i = 0 := by have := List.mem_range.1 hi; omega
  subst hi0
  rcases List.mem_cons.1 ha with rfl | ha
  · have := congrArg sizeOf heq
    simp at this
    omega
  · obtain ⟨l, hl, hal⟩ := List.mem_flatten.1 ha
    obtain ⟨j, hj, rfl⟩ := List.mem_map.1 hl
    rcases mem_populationKeys hal with h | h <;> rw [h] at heq <;> simp only [Key.sub.injEq] at heq
    · omega
    · omega

example : (produceKeys true 1 3 2 (Key.seed 0)).length = 9 := by decide

/-- **C42 is violated** with two or more realisations: the key that draws the population of realisation `j` is also the key of noise draw
`j` of realisation 1, for every `j` that both have. -/
theorem C42_reuse_violated (thin : Bool) (numRealizations nEvents nErrors : Nat) (key : Key) (hR : 2 ≤ numRealizations)
    (j : Nat) (hj : j < numRealizations) (hje : j < nEvents * nErrors) :
    ∃ k e h, (Use.population j, k) ∈ produceKeys thin numRealizations nEvents nErrors key ∧
      (Use.noise 1 e h, k) ∈ produceKeys thin numRealizations nEvents nErrors key := by
  have hH : 0 < nErrors := Nat.pos_of_ne_zero fun h => by rw [h] at hje; omega
  refine ⟨Key.sub (Key.sub key 1) j, j / nErrors, j % nErrors, ?_, ?_⟩
  · refine List.mem_append_left _ (List.mem_cons_of_mem _ ?_)
    exact List.mem_flatten.2 ⟨_, List.mem_map.2 ⟨j, List.mem_range.2 hj, rfl⟩, List.mem_cons_self⟩
  · refine List.mem_append_right _ ?_
    refine List.mem_flatten.2 ⟨_, List.mem_map.2 ⟨1, List.mem_range.2 (by omega), rfl⟩, ?_⟩
    rw [mem_errorKeys]
    refine ⟨j / nErrors, Nat.div_lt_of_lt_mul (by rwa [Nat.mul_comm]), j % nErrors, Nat.mod_lt _ hH, ?_⟩
    rw [Nat.mul_comm, Nat.div_add_mod]

/-- The default run: five realisations, ten events, two error generators. -/
example : ∃ k e h, (Use.population 3, k) ∈ produceKeys true 5 10 2 (Key.seed 7) ∧
    (Use.noise 1 e h, k) ∈ produceKeys true 5 10 2 (Key.seed 7) := C42_reuse_violated true 5 10 2 _ (by decide) 3 (by decide) (by decide)

/-! ## C43 -/

theorem swapRow_spec {m1 m2 : Nat} (row : List ℝ) (hne : m1 ≠ m2) (h1 : m1 < row.length) (h2 : m2 < row.length) :
    (swapRow m1 m2 row).length = row.length ∧
    (swapRow m1 m2 row)[m1]? = some (max row[m1] row[m2]) ∧ (swapRow m1 m2 row)[m2]? = some (min row[m1] row[m2]) ∧
    ∀ k, k ≠ m1 → k ≠ m2 → (swapRow m1 m2 row)[k]? = row[k]? := by
  unfold swapRow
  refine ⟨by simp, ?_, ?_, ?_⟩
  · simp [hne.symm, h1, h2, List.getD]
  · simp [h1, h2, List.getD]
  · intro k hk1 hk2
    rw [List.getElem?_set_ne hk2.symm, List.getElem?_set_ne hk1.symm]

/-- The row `out` is the drawn row `drawn` with its masses put in order and every other column as drawn. -/
def OrderedRow (parameters : List String) (drawn out : List ℝ) : Prop :=
  out.length = drawn.length ∧
  ∃ (i j : Nat) (a b : ℝ), parameters[i]? = some "mass_1_source" ∧ parameters[j]? = some "mass_2_source" ∧
    drawn[i]? = some a ∧ drawn[j]? = some b ∧ out[i]? = some (max a b) ∧ out[j]? = some (min a b) ∧
    ∀ k : Nat, k ≠ i → k ≠ j → out[k]? = drawn[k]?

theorem orderedRow_swapRow {parameters : List String} {row : List ℝ} (hlen : row.length = parameters.length)
    (h1 : "mass_1_source" ∈ parameters) (h2 : "mass_2_source" ∈ parameters) :
    OrderedRow parameters row (swapRow (parameters.idxOf "mass_1_source") (parameters.idxOf "mass_2_source") row) := by
  have l1 : parameters.idxOf "mass_1_source" < parameters.length := List.idxOf_lt_length_iff.2 h1
  have l2 : parameters.idxOf "mass_2_source" < parameters.length := List.idxOf_lt_length_iff.2 h2
  have g1 : parameters[parameters.idxOf "mass_1_source"]? = some "mass_1_source" := by
    rw [List.getElem?_eq_getElem l1, List.getElem_idxOf]
  have g2 : parameters[parameters.idxOf "mass_2_source"]? = some "mass_2_source" := by
    rw [List.getElem?_eq_getElem l2, List.getElem_idxOf]
  have hne : parameters.idxOf "mass_1_source" ≠ parameters.idxOf "mass_2_source" := by
    intro h
    rw [h, g2] at g1
    exact absurd g1 (by decide)
  obtain ⟨s0, s1, s2, s3⟩ := swapRow_spec row hne (by omega) (by omega)
  exact ⟨s0, _, _, _, _, g1, g2, List.getElem?_eq_getElem _, List.getElem?_eq_getElem _, s1, s2, s3⟩

theorem take_getElem? {α} (rows : List α) (index : List Nat) (h : ∀ i ∈ index, i < rows.length) :
    (take rows index).length = index.length ∧ ∀ k : Nat, (take rows index)[k]? = (index[k]?).bind fun i => rows[i]? := by
  induction index with
  | nil => simp [take]
  | cons i is ih =>
    have hi := h i (by simp)
    obtain ⟨ih1, ih2⟩ := ih fun j hj => h j (List.mem_cons_of_mem _ hj)
    have : take rows (i :: is) = rows[i] :: take rows is := by
      simp [take, List.getElem?_eq_getElem hi]
    rw [this]
    refine ⟨by simp [ih1], ?_⟩
    intro k
    cases k with
    | zero => simp [List.getElem?_eq_getElem hi]
    | succ k => simpa using ih2 k

/-- **C43.**  If the model draws `total` rows over the declared parameters with one component index each, and the selection step (when there
is one) chooses `size` of these rows, then the raw population consists of the drawn rows in order with the masses ordered and the drawn
indices, and the output population has `size` rows, each of them a raw row together with its own index. -/
theorem C43_rows_aligned (parameters : List String) (draw : Nat → List (List ℝ) × List Nat)
    (choice : Option (List (List ℝ) → Nat → List Nat)) (size : Nat)
    (h1 : "mass_1_source" ∈ parameters) (h2 : "mass_2_source" ∈ parameters)
    (hdraw : ∀ n, (draw n).1.length = n ∧ (draw n).2.length = n ∧ ∀ row ∈ (draw n).1, row.length = parameters.length)
    (hchoice : ∀ c, choice = some c → ∀ rows, rows.length = size + 10000 → (c rows size).length = size ∧ ∀ i ∈ c rows size, i < rows.length) :
    ∃ raw rawIdx pop idx, generatePopulation parameters draw choice size = .ok (raw, rawIdx, pop, idx) ∧
      (let total := if choice.isSome then size + 10000 else size
       rawIdx = (draw total).2 ∧ raw.length = total ∧
       (∀ (k : Nat) drawn out, (draw total).1[k]? = some drawn → raw[k]? = some out → OrderedRow parameters drawn out)) ∧
      pop.length = size ∧ idx.length = size ∧
      (∀ k < size, ∃ i < raw.length, pop[k]? = raw[i]? ∧ idx[k]? = rawIdx[i]?) ∧
      (choice = none → pop = raw ∧ idx = rawIdx) := by
  have key : ∀ n, ∀ (k : Nat) drawn out, (draw n).1[k]? = some drawn →
      ((draw n).1.map (swapRow (parameters.idxOf "mass_1_source") (parameters.idxOf "mass_2_source")))[k]? = some out →
      OrderedRow parameters drawn out := by
    intro n k drawn out hd ho
    rw [List.getElem?_map, hd] at ho
    simp only [Option.map_some, Option.some.injEq] at ho
    subst ho
    exact orderedRow_swapRow ((hdraw n).2.2 _ (List.mem_of_getElem? hd)) h1 h2
  unfold generatePopulation
  cases choice with
  | none =>
    simp only [h1, h2, not_true, if_false, Option.isSome_none, Bool.false_eq_true]
    refine ⟨_, _, _, _, rfl, ⟨rfl, by simp [(hdraw size).1], key size⟩, by simp [(hdraw size).1], (hdraw size).2.1, ?_, fun _ => ⟨rfl, rfl⟩⟩
    intro k hk
    exact ⟨k, by simp [(hdraw size).1, hk], rfl, rfl⟩
  | some c =>
    simp only [h1, h2, not_true, if_false, Option.isSome_some, if_true]
    obtain ⟨hl1, hl2, _⟩ := hdraw (size + 10000)
    have hrl : ((draw (size + 10000)).1.map
        (swapRow (parameters.idxOf "mass_1_source") (parameters.idxOf "mass_2_source"))).length = size + 10000 := by simp [hl1]
    obtain ⟨c1, c2⟩ := hchoice c rfl _ hrl
    obtain ⟨p1, p2⟩ := take_getElem? _ _ c2
    obtain ⟨q1, q2⟩ := take_getElem? (draw (size + 10000)).2 _ (fun i hi => by rw [hl2, ← hrl]; exact c2 i hi)
    refine ⟨_, _, _, _, rfl, ⟨rfl, hrl, key _⟩, p1.trans c1, q1.trans c1, ?_, fun h => by cases h⟩
    intro k hk
    have hk' : k < (c ((draw (size + 10000)).1.map
        (swapRow (parameters.idxOf "mass_1_source") (parameters.idxOf "mass_2_source"))) size).length := by omega
    refine ⟨_, c2 _ (List.getElem_mem hk'), ?_, ?_⟩
    · rw [p2, List.getElem?_eq_getElem hk']; rfl
    · rw [q2, List.getElem?_eq_getElem hk']; rfl

/-- **C43 (error).**  A population without the two source masses is rejected. -/
theorem C43_missing_mass (parameters : List String) (draw : Nat → List (List ℝ) × List Nat)
    (choice : Option (List (List ℝ) → Nat → List Nat)) (size : Nat)
    (h : "mass_1_source" ∉ parameters ∨ "mass_2_source" ∉ parameters) :
    generatePopulation parameters draw choice size = .error .valueError := by
  unfold generatePopulation
  by_cases h1 : "mass_1_source" ∈ parameters
  · have h2 : "mass_2_source" ∉ parameters := by tauto
    simp [h1, h2]
  · simp [h1]

/-- The hypotheses of `C43_rows_aligned` are met by a population over three parameters with a selection step. -/
example : ∃ raw rawIdx pop idx,
    generatePopulation ["mass_1_source", "redshift", "mass_2_source"]
      (fun n => (List.replicate n [10, 1, 20], List.replicate n 0)) (some fun _ size => List.range size) 5 = .ok (raw, rawIdx, pop, idx) ∧
      pop.length = 5 := by
  obtain ⟨raw, rawIdx, pop, idx, h, _, h2, _⟩ := C43_rows_aligned ["mass_1_source", "redshift", "mass_2_source"]
    (fun n => (List.replicate n [10, 1, 20], List.replicate n 0)) (some fun _ size => List.range size) 5 (by decide) (by decide)
    (by
      intro n
      refine ⟨by simp, by simp, ?_⟩
      intro row hrow
      rw [(List.mem_replicate.1 hrow).2]
      rfl)
    (by
      rintro c hc rows hr
      cases hc
      refine ⟨by simp, fun i hi => ?_⟩
      rw [List.mem_range] at hi
      omega)
  exact ⟨raw, rawIdx, pop, idx, h, h2⟩

/-! ## C44 -/

theorem inner_write (rows : List (List ℝ)) (i : Nat) (js : List Nat) (m : Nat → Nat → ℝ) (a b : Nat) :
    js.foldl (fun m j => setEntry m i j (sampleCov rows i j)) m a b =
      if a = i ∧ b ∈ js then sampleCov rows a b else m a b := by
  induction js generalizing m with
  | nil => simp
  | cons j js ih =>
    rw [List.foldl_cons, ih]
    by_cases ha : a = i
    · subst ha
      by_cases hb : b ∈ js
      · simp [hb]
      · by_cases hbj : b = j
        · subst hbj; simp [hb, setEntry]
        · simp [hb, hbj, setEntry]
    · simp [ha, setEntry]

theorem outer_write (rows : List (List ℝ)) (js is : List Nat) (m : Nat → Nat → ℝ) (a b : Nat) :
    is.foldl (fun m i => js.foldl (fun m j => setEntry m i j (sampleCov rows i j)) m) m a b =
      if a ∈ is ∧ b ∈ js then sampleCov rows a b else m a b := by
  induction is generalizing m with
  | nil => simp
  | cons i is ih =>
    rw [List.foldl_cons, ih]
    by_cases h1 : a ∈ is ∧ b ∈ js
    · simp [h1]
    · rw [if_neg h1, inner_write]
      by_cases ha : a = i
      · subst ha; simp
      · have : ¬ (a ∈ i :: is ∧ b ∈ js) := by
          simp only [List.mem_cons, ha, false_or]
          exact h1
        rw [if_neg this]
        simp [ha]

theorem writeTile_apply (rows : List (List ℝ)) (indices : List Nat) (m : Nat → Nat → ℝ) (a b : Nat) :
    writeTile rows indices m a b = if a ∈ indices ∧ b ∈ indices then sampleCov rows a b else m a b :=
  outer_write rows indices indices m a b

/-- Parameters number `a` and `b` are in the same tile. -/
def SameTile (parameters : List String) (tiles : List (List String)) (a b : Nat) : Prop :=
  ∃ tile ∈ tiles, ∃ p ∈ tile, ∃ q ∈ tile, parameters[a]? = some p ∧ parameters[b]? = some q

theorem mem_map_idxOf {parameters tile : List String} (hnd : parameters.Nodup) (h : ∀ p ∈ tile, p ∈ parameters) (a : Nat) :
    a ∈ tile.map parameters.idxOf ↔ ∃ p ∈ tile, parameters[a]? = some p := by
  rw [List.mem_map]
  constructor
  · rintro ⟨p, hp, rfl⟩
    have := List.idxOf_lt_length_iff.2 (h p hp)
    exact ⟨p, hp, by rw [List.getElem?_eq_getElem this, List.getElem_idxOf]⟩
  · rintro ⟨p, hp, hg⟩
    refine ⟨p, hp, ?_⟩
    obtain ⟨hlt, hval⟩ := List.getElem?_eq_some_iff.1 hg
    rw [← hval]
    exact hnd.idxOf_getElem a hlt

open Classical in
theorem tileLoop_spec (parameters : List String) (rows : List (List ℝ)) (hnd : parameters.Nodup) (h2 : 2 ≤ rows.length)
    (tiles : List (List String)) (ht : ∀ tile ∈ tiles, ∀ p ∈ tile, p ∈ parameters) (m : Nat → Nat → ℝ) :
    ∃ c, tileLoop parameters rows tiles m = .ok c ∧
      ∀ a b, c a b = if SameTile parameters tiles a b then sampleCov rows a b else m a b := by
  induction tiles generalizing m with
  | nil => exact ⟨m, rfl, fun a b => by simp [SameTile]⟩
  | cons tile tiles ih =>
    obtain ⟨c, hc, hspec⟩ := ih (fun t h => ht t (List.mem_cons_of_mem _ h)) (writeTile rows (tile.map parameters.idxOf) m)
    refine ⟨c, ?_, ?_⟩
    · unfold tileLoop
      rw [if_neg, if_neg, hc]
      · omega
      · rintro ⟨p, hp, hn⟩
        exact hn (ht tile (by simp) p hp)
    · intro a b
      rw [hspec, writeTile_apply]
      simp only [mem_map_idxOf hnd (ht tile (by simp))]
      have : SameTile parameters (tile :: tiles) a b ↔ SameTile parameters tiles a b ∨
          ((∃ p ∈ tile, parameters[a]? = some p) ∧ ∃ p ∈ tile, parameters[b]? = some p) := by
        unfold SameTile
        constructor
        · rintro ⟨t, htm, p, hp, q, hq, ha, hb⟩
          rcases List.mem_cons.1 htm with rfl | htm
          · exact Or.inr ⟨⟨p, hp, ha⟩, q, hq, hb⟩
          · exact Or.inl ⟨t, htm, p, hp, q, hq, ha, hb⟩
        · rintro (⟨t, htm, r⟩ | ⟨⟨p, hp, ha⟩, q, hq, hb⟩)
          · exact ⟨t, List.mem_cons_of_mem _ htm, r⟩
          · exact ⟨tile, by simp, p, hp, q, hq, ha, hb⟩
      by_cases h1 : SameTile parameters tiles a b
      · rw [if_pos h1, if_pos (this.2 (Or.inl h1))]
      · rw [if_neg h1]
        by_cases h2 : (∃ p ∈ tile, parameters[a]? = some p) ∧ ∃ p ∈ tile, parameters[b]? = some p
        · rw [if_pos h2, if_pos (this.2 (Or.inr h2))]
        · rw [if_neg h2, if_neg (fun h => (this.1 h).elim h1 h2)]

open Classical in
/-- **C44.**  For at least two rows and tiles over the declared parameters, each entry of the covariance is the sample covariance of its two
parameters if some tile contains both and zero otherwise, and the means are the column means. -/
theorem C44_entries (rows : List (List ℝ)) (parameters : List String) (tiles : List (List String)) (hnd : parameters.Nodup)
    (h2 : 2 ≤ rows.length) (ht : ∀ tile ∈ tiles, ∀ p ∈ tile, p ∈ parameters) :
    ∃ c, addMeanAndCovariance rows parameters (some tiles) = .ok (mean rows, c) ∧
      ∀ a b, c a b = if SameTile parameters tiles a b then sampleCov rows a b else 0 := by
  obtain ⟨c, hc, hs⟩ := tileLoop_spec parameters rows hnd h2 tiles ht (fun _ _ => 0)
  refine ⟨c, ?_, hs⟩
  unfold addMeanAndCovariance
  rw [if_neg (by omega)]
  simp only [hc]

/-- **C44 (no tiles).**  Without tiles the covariance is the sample covariance. -/
theorem C44_untiled (rows : List (List ℝ)) (parameters : List String) (h2 : 2 ≤ rows.length) :
    addMeanAndCovariance rows parameters none = .ok (mean rows, sampleCov rows) := by
  unfold addMeanAndCovariance
  rw [if_neg (by omega)]
  simp only
  rw [if_neg (by omega)]

/-- **C44 (errors).**  Fewer than two rows are rejected (some tile being non-empty), and so is a tile with an unknown parameter. -/
theorem C44_errors (rows : List (List ℝ)) (parameters : List String) :
    (rows.length < 2 → addMeanAndCovariance rows parameters none = .error .valueError) ∧
    (∀ tile tiles, rows.length < 2 → tile ≠ [] → addMeanAndCovariance rows parameters (some (tile :: tiles)) = .error .valueError) ∧
    (∀ tiles, (∃ tile ∈ tiles, ∃ p ∈ tile, p ∉ parameters) → addMeanAndCovariance rows parameters (some tiles) = .error .valueError) := by
  have hloop : ∀ tiles, (∃ tile ∈ tiles, ∃ p ∈ tile, p ∉ parameters) → ∀ m, tileLoop parameters rows tiles m = .error .valueError := by
    intro tiles
    induction tiles with
    | nil => simp
    | cons tile tiles ih =>
      rintro ⟨t, ht, hp⟩ m
      unfold tileLoop
      by_cases h1 : ∃ p ∈ tile, p ∉ parameters
      · rw [if_pos h1]
      · rw [if_neg h1]
        split
        · rfl
        · rcases List.mem_cons.1 ht with rfl | ht
          · exact absurd hp h1
          · exact ih ⟨t, ht, hp⟩ _
  refine ⟨?_, ?_, ?_⟩
  · intro h
    unfold addMeanAndCovariance
    split
    · rfl
    · simp only
  · intro tile tiles h hne
    unfold addMeanAndCovariance
    split
    · rfl
    · unfold tileLoop
      by_cases h1 : ∃ p ∈ tile, p ∉ parameters
      · simp [if_pos h1]
      · simp only [if_neg h1, if_pos (And.intro h hne)]
  · intro tiles h
    unfold addMeanAndCovariance
    split
    · rfl
    · simp only [hloop tiles h]

theorem sampleCov_comm (rows : List (List ℝ)) (a b : Nat) : sampleCov rows a b = sampleCov rows b a := by
  unfold sampleCov
  congr 2
  apply List.map_congr_left
  intro r _
  ring

/-- **C44 (symmetric).** -/
theorem C44_symmetric (rows : List (List ℝ)) (parameters : List String) (tiles : Option (List (List String))) (hnd : parameters.Nodup)
    (mu : Nat → ℝ) (c : Nat → Nat → ℝ) (h : addMeanAndCovariance rows parameters tiles = .ok (mu, c)) (a b : Nat) : c a b = c b a := by
  classical
  by_cases h1 : rows.length < 1
  · unfold addMeanAndCovariance at h
    rw [if_pos h1] at h
    cases h
  cases tiles with
  | none =>
    by_cases h2 : rows.length < 2
    · rw [(C44_errors rows parameters).1 h2] at h; cases h
    · rw [C44_untiled rows parameters (by omega)] at h
      cases h
      exact sampleCov_comm _ _ _
  | some tiles =>
    by_cases hbad : ∃ tile ∈ tiles, ∃ p ∈ tile, p ∉ parameters
    · rw [(C44_errors rows parameters).2.2 tiles hbad] at h; cases h
    push Not at hbad
    by_cases h2 : rows.length < 2
    · -- only empty tiles survive; nothing is written
      have : ∀ (ts : List (List String)) (m c : Nat → Nat → ℝ), tileLoop parameters rows ts m = .ok c → c = m := by
        intro ts
        induction ts with
        | nil => intro m c h; cases h; rfl
        | cons t ts ih =>
          intro m c h
          unfold tileLoop at h
          split at h
          · cases h
          · split at h
            · cases h
            · rename_i hh
              have ht : t = [] := by
                by_contra hne
                exact hh ⟨h2, hne⟩
              rw [ih _ _ h, ht]
              rfl
      unfold addMeanAndCovariance at h
      rw [if_neg h1] at h
      simp only at h
      cases hl : tileLoop parameters rows tiles (fun _ _ => 0) with
      | error e => rw [hl] at h; cases h
      | ok m =>
        rw [hl] at h
        cases h
        rw [this _ _ _ hl]
    · obtain ⟨c', hc', hs⟩ := C44_entries rows parameters tiles hnd (by omega) hbad
      rw [hc'] at h
      cases h
      rw [hs, hs, sampleCov_comm]
      have : SameTile parameters tiles a b ↔ SameTile parameters tiles b a := by
        unfold SameTile
        constructor <;> rintro ⟨t, ht, p, hp, q, hq, ha, hb⟩ <;> exact ⟨t, ht, q, hq, p, hp, hb, ha⟩
      by_cases hst : SameTile parameters tiles a b
      · rw [if_pos hst, if_pos (this.1 hst)]
      · rw [if_neg hst, if_neg (fun h => hst (this.2 h))]

open Finset in
/-- A covariance over the first `n` parameters is positive semi-definite. -/
def PosSemidef (n : Nat) (c : Nat → Nat → ℝ) : Prop :=
  ∀ v : Nat → ℝ, 0 ≤ ∑ a ∈ range n, ∑ b ∈ range n, v a * c a b * v b

open Finset in
theorem sampleCov_psd (rows : List (List ℝ)) (n : Nat) : PosSemidef n (sampleCov rows) := by
  intro v
  have key : ∀ (f : List ℝ → Nat → ℝ) (l : List (List ℝ)),
      ∑ a ∈ range n, ∑ b ∈ range n, v a * (l.map fun r => f r a * f r b).sum * v b = (l.map fun r => (∑ a ∈ range n, v a * f r a) ^ 2).sum := by
    intro f l
    induction l with
    | nil => simp
    | cons r l ih =>
      simp only [List.map_cons, List.sum_cons]
      rw [← ih, sq, Finset.sum_mul_sum, ← Finset.sum_add_distrib]
      refine Finset.sum_congr rfl fun a _ => ?_
      rw [← Finset.sum_add_distrib]
      refine Finset.sum_congr rfl fun b _ => ?_
      ring
  have h := key (fun r i => r.getD i 0 - mean rows i) rows
  have : ∑ a ∈ range n, ∑ b ∈ range n, v a * sampleCov rows a b * v b =
      (∑ a ∈ range n, ∑ b ∈ range n, v a * (rows.map fun r => (r.getD a 0 - mean rows a) * (r.getD b 0 - mean rows b)).sum * v b) /
        (rows.length - 1 : ℕ) := by
    rw [Finset.sum_div]
    refine Finset.sum_congr rfl fun a _ => ?_
    rw [Finset.sum_div]
    refine Finset.sum_congr rfl fun b _ => ?_
    unfold sampleCov
    ring
  rw [this, h]
  apply div_nonneg _ (Nat.cast_nonneg _)
  apply List.sum_nonneg
  intro x hx
  obtain ⟨r, _, rfl⟩ := List.mem_map.1 hx
  positivity

/-- **C44 (positive semi-definite, no tiles).** -/
theorem C44_psd_untiled (rows : List (List ℝ)) (parameters : List String) (h2 : 2 ≤ rows.length) :
    ∃ c, addMeanAndCovariance rows parameters none = .ok (mean rows, c) ∧ PosSemidef parameters.length c :=
  ⟨_, C44_untiled rows parameters h2, sampleCov_psd _ _⟩

open Finset Classical in
/-- **C44 (positive semi-definite).**  With pairwise disjoint tiles the covariance is positive semi-definite.  Missing: overlapping tiles,
for which the claim is false (`C44_psd_overlapping_violated`). -/
theorem C44_psd_disjoint_partial (rows : List (List ℝ)) (parameters : List String) (tiles : List (List String)) (hnd : parameters.Nodup)
    (h2 : 2 ≤ rows.length) (ht : ∀ tile ∈ tiles, ∀ p ∈ tile, p ∈ parameters) (hdis : tiles.Pairwise fun s t => ∀ p ∈ s, p ∉ t) :
    ∃ c, addMeanAndCovariance rows parameters (some tiles) = .ok (mean rows, c) ∧ PosSemidef parameters.length c := by
  obtain ⟨c, hc, hs⟩ := C44_entries rows parameters tiles hnd h2 ht
  refine ⟨c, hc, ?_⟩
  intro v
  -- membership of a parameter number in a tile
  let mem : List String → Nat → ℝ := fun t a => if ∃ p ∈ t, parameters[a]? = some p then 1 else 0
  have hdec : ∀ (ts : List (List String)), ts.Pairwise (fun s t => ∀ p ∈ s, p ∉ t) → ∀ a b,
      (if SameTile parameters ts a b then sampleCov rows a b else 0) = (ts.map fun t => mem t a * mem t b * sampleCov rows a b).sum := by
    intro ts hp a b
    induction ts with
    | nil => simp [SameTile]
    | cons t ts ih =>
      rw [List.pairwise_cons] at hp
      rw [List.map_cons, List.sum_cons, ← ih hp.2]
      by_cases hA : ∃ p ∈ t, parameters[a]? = some p
      · have hno : ¬ SameTile parameters ts a b := by
          rintro ⟨t', ht', p', hp', q', hq', ha', _⟩
          obtain ⟨p, hpt, hpa⟩ := hA
          rw [hpa] at ha'
          cases ha'
          exact hp.1 t' ht' _ hpt hp'
        rw [if_neg hno]
        by_cases hB : ∃ p ∈ t, parameters[b]? = some p
        · have : SameTile parameters (t :: ts) a b := by
            obtain ⟨p, hpt, hpa⟩ := hA
            obtain ⟨q, hqt, hqb⟩ := hB
            exact ⟨t, by simp, p, hpt, q, hqt, hpa, hqb⟩
          rw [if_pos this]
          simp [mem, if_pos hA, if_pos hB]
        · have : ¬ SameTile parameters (t :: ts) a b := by
            rintro ⟨t', ht', p', hp', q', hq', ha', hb'⟩
            rcases List.mem_cons.1 ht' with rfl | ht'
            · exact hB ⟨q', hq', hb'⟩
            · exact hno ⟨t', ht', p', hp', q', hq', ha', hb'⟩
          rw [if_neg this]
          simp [mem, if_neg hB]
      · have : SameTile parameters (t :: ts) a b ↔ SameTile parameters ts a b := by
          constructor
          · rintro ⟨t', ht', p', hp', q', hq', ha', hb'⟩
            rcases List.mem_cons.1 ht' with rfl | ht'
            · exact absurd ⟨p', hp', ha'⟩ hA
            · exact ⟨t', ht', p', hp', q', hq', ha', hb'⟩
          · rintro ⟨t', ht', r⟩
            exact ⟨t', List.mem_cons_of_mem _ ht', r⟩
        simp only [this]
        simp [mem, if_neg hA]
  have hsum : ∀ ts : List (List String), 0 ≤ ∑ a ∈ range parameters.length, ∑ b ∈ range parameters.length,
      v a * (ts.map fun t => mem t a * mem t b * sampleCov rows a b).sum * v b := by
    intro ts
    induction ts with
    | nil => simp
    | cons t ts ih =>
      have := sampleCov_psd rows parameters.length (fun a => v a * mem t a)
      have heq : ∑ a ∈ range parameters.length, ∑ b ∈ range parameters.length,
          v a * ((t :: ts).map fun t => mem t a * mem t b * sampleCov rows a b).sum * v b =
          (∑ a ∈ range parameters.length, ∑ b ∈ range parameters.length, v a * mem t a * sampleCov rows a b * (v b * mem t b)) +
          ∑ a ∈ range parameters.length, ∑ b ∈ range parameters.length,
            v a * (ts.map fun t => mem t a * mem t b * sampleCov rows a b).sum * v b := by
        rw [← Finset.sum_add_distrib]
        refine Finset.sum_congr rfl fun a _ => ?_
        rw [← Finset.sum_add_distrib]
        refine Finset.sum_congr rfl fun b _ => ?_
        simp only [List.map_cons, List.sum_cons]
        ring
      rw [heq]
      exact add_nonneg this ih
  simp only [hs, hdec tiles hdis]
  exact hsum tiles

/-- A tiling of four parameters into two disjoint tiles meets the hypotheses. -/
example : ∃ c, addMeanAndCovariance [[0, 1, 2, 3], [4, 5, 6, 8], [1, 1, 2, 0]] ["a", "b", "c", "d"] (some [["a", "c"], ["b", "d"]]) =
    .ok (mean [[0, 1, 2, 3], [4, 5, 6, 8], [1, 1, 2, 0]], c) ∧ PosSemidef 4 c :=
  C44_psd_disjoint_partial _ _ _ (by decide) (by decide) (by decide) (by decide)

/-- **C44 is violated** by overlapping tiles: three identical columns with tiles `{a, b}` and `{b, c}` give a covariance that is not positive
semi-definite. -/
theorem C44_psd_overlapping_violated :
    ∃ c, addMeanAndCovariance [[0, 0, 0], [2, 2, 2]] ["a", "b", "c"] (some [["a", "b"], ["b", "c"]]) =
      .ok (mean [[0, 0, 0], [2, 2, 2]], c) ∧ ¬ PosSemidef 3 c := by
  classical
  obtain ⟨c, hc, hs⟩ := C44_entries [[0, 0, 0], [2, 2, 2]] ["a", "b", "c"] [["a", "b"], ["b", "c"]] (by decide) (by decide) (by decide)
  refine ⟨c, hc, fun hpsd => ?_⟩
  have h := hpsd fun i => if i = 1 then -1 else 1
  have cov : ∀ i j, i < 3 → j < 3 → sampleCov [[0, 0, 0], [2, 2, 2]] i j = 2 := by
    intro i j hi hj
    interval_cases i <;> interval_cases j <;> simp [sampleCov, mean] <;> norm_num
  have e : ∀ i j, i < 3 → j < 3 → c i j = if i + 2 = j ∨ j + 2 = i then 0 else 2 := by
    intro i j hi hj
    rw [hs, cov i j hi hj]
    interval_cases i <;> interval_cases j <;> simp [SameTile]
  simp only [Finset.sum_range_succ, Finset.sum_range_zero] at h
  rw [e 0 0, e 0 1, e 0 2, e 1 0, e 1 1, e 1 2, e 2 0, e 2 1, e 2 2] at h <;> norm_num at h <;> norm_num

/-! ## C58 -/

theorem writeColumns_aux (values : Nat → Nat → XR) (row col : Nat) (head : List Nat) (start : Nat) (noisy : Nat → Nat → XR) :
    (col ∉ head → ((head.zipIdx start).foldl (fun noisy hk row col => if col = hk.1 then values row hk.2 else noisy row col) noisy) row col = noisy row col) ∧
    (head.Nodup → ∀ k, head[k]? = some col →
      ((head.zipIdx start).foldl (fun noisy hk row col => if col = hk.1 then values row hk.2 else noisy row col) noisy) row col = values row (start + k)) := by
  induction head generalizing start noisy with
  | nil => simp
  | cons h hs ih =>
    obtain ⟨ih1, ih2⟩ := ih (start + 1) (fun row col => if col = h then values row start else noisy row col)
    constructor
    · intro hn
      simp only [List.mem_cons, not_or] at hn
      simp only [List.zipIdx_cons, List.foldl_cons]
      rw [ih1 hn.2, if_neg hn.1]
    · intro hnd k hk
      rw [List.nodup_cons] at hnd
      simp only [List.zipIdx_cons, List.foldl_cons]
      cases k with
      | zero =>
        simp only [List.getElem?_cons_zero, Option.some.injEq] at hk
        subst hk
        rw [ih1 hnd.1, if_pos rfl, Nat.add_zero]
      | succ k =>
        rw [List.getElem?_cons_succ] at hk
        rw [ih2 hnd.2 k hk]
        congr 1
        omega

theorem eventNoise_aux (total : Nat) (data : List XR) (event : Nat) (key : Key) (row col : Nat) (fns : List ErrorFn) (start : Nat)
    (noisy : Nat → Nat → XR) (hnd : (fns.map (·.head)).flatten.Nodup) :
    let run := (fns.zipIdx start).foldl
      (fun noisy fi => writeColumns fi.1.head
        (fi.1.noise (fi.1.head.map fun h => data.getD h .nan) (Key.sub key (event * total + fi.2))) noisy) noisy
    ((∀ f ∈ fns, col ∉ f.head) → run row col = noisy row col) ∧
    ∀ (i : Nat) f (k : Nat), fns[i]? = some f → f.head[k]? = some col →
      run row col = f.noise (f.head.map fun h => data.getD h .nan) (Key.sub key (event * total + (start + i))) row k := by
  induction fns generalizing start noisy with
  | nil => simp
  | cons g gs ih =>
    simp only [List.map_cons, List.flatten_cons, List.nodup_append] at hnd
    obtain ⟨hg, hgs, hdis⟩ := hnd
    obtain ⟨ih1, ih2⟩ := ih (start + 1) (writeColumns g.head
        (g.noise (g.head.map fun h => data.getD h .nan) (Key.sub key (event * total + start))) noisy) hgs
    simp only [List.zipIdx_cons, List.foldl_cons]
    constructor
    · intro hn
      rw [ih1 fun f hf => hn f (List.mem_cons_of_mem _ hf)]
      exact (writeColumns_aux _ row col g.head 0 noisy).1 (hn g (by simp))
    · intro i f k hi hk
      cases i with
      | zero =>
        simp only [List.getElem?_cons_zero, Option.some.injEq] at hi
        subst hi
        have hcol : col ∈ g.head := List.mem_of_getElem? hk
        rw [ih1]
        · have := (writeColumns_aux (g.noise (g.head.map fun h => data.getD h .nan) (Key.sub key (event * total + start))) row col g.head 0 noisy).2
            hg k hk
          rw [Nat.zero_add] at this
          exact this
        · intro f hf hcf
          exact hdis col hcol col (List.mem_flatten.2 ⟨_, List.mem_map.2 ⟨f, hf, rfl⟩, hcf⟩) rfl
      | succ i =>
        rw [List.getElem?_cons_succ] at hi
        rw [ih2 i f k hi hk]
        congr 3
        omega

/-- **C58 (columns).**  When no parameter is claimed by two error generators, the noise of the `k`-th parameter of generator `i` is that
generator's output for the event's own values under the event's own key, and a column claimed by none is left uninitialised. -/
theorem C58_columns (fns : List ErrorFn) (data : List XR) (event : Nat) (key : Key) (uninit : Nat → Nat → XR)
    (hnd : (fns.map (·.head)).flatten.Nodup) (row col : Nat) :
    (∀ (i : Nat) f (k : Nat), fns[i]? = some f → f.head[k]? = some col →
      eventNoise fns data event key uninit row col =
        f.noise (f.head.map fun h => data.getD h .nan) (Key.sub key (event * fns.length + i)) row k) ∧
    ((∀ f ∈ fns, col ∉ f.head) → eventNoise fns data event key uninit row col = uninit row col) := by
  obtain ⟨h1, h2⟩ := eventNoise_aux fns.length data event key row col fns 0 uninit hnd
  refine ⟨?_, h1⟩
  intro i f k hi hk
  have := h2 i f k hi hk
  rw [Nat.zero_add] at this
  exact this

/-- **C58 (files).**  An event's file has exactly the noise rows without NaN, in order; the event is skipped exactly when there are none. -/
theorem C58_rows (fns : List ErrorFn) (nParams errorSize : Nat) (data : List XR) (event : Nat) (key : Key) (uninit : Nat → Nat → XR) :
    (∀ rows, eventFile fns nParams errorSize data event key uninit = some rows →
      rows ≠ [] ∧ rows.Sublist ((List.range errorSize).map fun r => (List.range nParams).map (eventNoise fns data event key uninit r)) ∧
      ∀ r < errorSize, (∀ c < nParams, eventNoise fns data event key uninit r c ≠ .nan) ↔
        (List.range nParams).map (eventNoise fns data event key uninit r) ∈ rows) ∧
    (eventFile fns nParams errorSize data event key uninit = none ↔
      ∀ r < errorSize, ∃ c < nParams, eventNoise fns data event key uninit r c = .nan) := by
  have hn : ∀ x : XR, x.isNan = false ↔ x ≠ .nan := by intro x; cases x <;> simp [XR.isNan]
  have hrow : ∀ r, (∀ x ∈ (List.range nParams).map (eventNoise fns data event key uninit r), x.isNan = false) ↔
      ∀ c < nParams, eventNoise fns data event key uninit r c ≠ .nan := by
    intro r
    simp only [List.mem_map, List.mem_range, forall_exists_index, and_imp, forall_apply_eq_imp_iff₂, hn]
  unfold eventFile
  constructor
  · intro rows h
    simp only at h
    split at h
    · cases h
    · rename_i hlen
      simp only [Option.some.injEq] at h
      subst h
      refine ⟨?_, List.filter_sublist, ?_⟩
      · intro h0
        rw [h0] at hlen
        simp at hlen
      · intro r hr
        rw [List.mem_filter]
        constructor
        · intro hc
          exact ⟨List.mem_map.2 ⟨r, List.mem_range.2 hr, rfl⟩, decide_eq_true ((hrow r).2 hc)⟩
        · intro ⟨_, hd⟩
          exact (hrow r).1 (of_decide_eq_true hd)
  · simp only
    constructor
    · intro h r hr
      split at h
      · rename_i hlen
        have h0 := List.length_eq_zero_iff.1 (Nat.lt_one_iff.1 hlen)
        rw [List.filter_eq_nil_iff] at h0
        have := h0 _ (List.mem_map.2 ⟨r, List.mem_range.2 hr, rfl⟩)
        by_contra hcon
        push Not at hcon
        exact this (decide_eq_true ((hrow r).2 hcon))
      · cases h
    · intro h
      rw [if_pos]
      rw [Nat.lt_one_iff, List.length_eq_zero_iff, List.filter_eq_nil_iff]
      intro row hmem hd
      obtain ⟨r, hr, rfl⟩ := List.mem_map.1 hmem
      obtain ⟨c, hc, hcn⟩ := h r (List.mem_range.1 hr)
      exact (hrow r).1 (of_decide_eq_true hd) c hc hcn

/-- **C58 (determined).**  If every parameter has an error generator, an event's file does not depend on uninitialised memory. -/
theorem C58_determined (fns : List ErrorFn) (nParams errorSize : Nat) (data : List XR) (event : Nat) (key : Key) (u u' : Nat → Nat → XR)
    (hnd : (fns.map (·.head)).flatten.Nodup) (hcov : ∀ c < nParams, ∃ f ∈ fns, c ∈ f.head) :
    eventFile fns nParams errorSize data event key u = eventFile fns nParams errorSize data event key u' := by
  have : ∀ r, ∀ c < nParams, eventNoise fns data event key u r c = eventNoise fns data event key u' r c := by
    intro r c hc
    obtain ⟨f, hf, hcf⟩ := hcov c hc
    obtain ⟨i, hi⟩ := List.mem_iff_getElem?.1 hf
    obtain ⟨k, hk⟩ := List.mem_iff_getElem?.1 hcf
    rw [(C58_columns fns data event key u hnd r c).1 i f k hi hk, (C58_columns fns data event key u' hnd r c).1 i f k hi hk]
  have h2 : ((List.range errorSize).map fun r => (List.range nParams).map (eventNoise fns data event key u r)) =
      (List.range errorSize).map fun r => (List.range nParams).map (eventNoise fns data event key u' r) := by
    apply List.map_congr_left
    intro r _
    apply List.map_congr_left
    intro c hc
    exact this r c (List.mem_range.1 hc)
  unfold eventFile
  simp only [h2]

/-- Two generators covering three parameters. -/
example (u u' : Nat → Nat → XR) (n1 n2 : List XR → Key → Nat → Nat → XR) :
    eventFile [⟨[0, 2], n1⟩, ⟨[1], n2⟩] 3 100 [.fin 1, .fin 2, .fin 3] 4 (Key.seed 0) u =
    eventFile [⟨[0, 2], n1⟩, ⟨[1], n2⟩] 3 100 [.fin 1, .fin 2, .fin 3] 4 (Key.seed 0) u' :=
  C58_determined _ _ _ _ _ _ _ _ (by simp) (by
    intro c hc
    interval_cases c
    · exact ⟨⟨[0, 2], n1⟩, by simp, by simp⟩
    · exact ⟨⟨[1], n2⟩, by simp, by simp⟩
    · exact ⟨⟨[0, 2], n1⟩, by simp, by simp⟩)

/-- **C58 is violated** when a parameter has no error generator: its column in the event's file is uninitialised memory. -/
theorem C58_uncovered_violated (fns : List ErrorFn) (nParams : Nat) (data : List XR) (event : Nat) (key : Key)
    (hnd : (fns.map (·.head)).flatten.Nodup) (col : Nat) (hcol : col < nParams) (hun : ∀ f ∈ fns, col ∉ f.head) (x : XR) (hx : x ≠ .nan)
    (hfin : ∀ c < nParams, c ≠ col → ∃ f ∈ fns, c ∈ f.head)
    (hnoise : ∀ f ∈ fns, ∀ d k r c, f.noise d k r c ≠ .nan) :
    ∃ u rows, eventFile fns nParams 1 data event key u = some rows ∧ ∃ row ∈ rows, row[col]? = some x := by
  refine ⟨fun _ _ => x, ?_⟩
  have hcell : ∀ c < nParams, eventNoise fns data event key (fun _ _ => x) 0 c ≠ .nan := by
    intro c hc
    by_cases h : c = col
    · subst h
      rw [(C58_columns fns data event key _ hnd 0 c).2 hun]
      exact hx
    · obtain ⟨f, hf, hcf⟩ := hfin c hc h
      obtain ⟨i, hi⟩ := List.mem_iff_getElem?.1 hf
      obtain ⟨k, hk⟩ := List.mem_iff_getElem?.1 hcf
      rw [(C58_columns fns data event key _ hnd 0 c).1 i f k hi hk]
      exact hnoise f hf _ _ _ _
  obtain ⟨h1, h2⟩ := C58_rows fns nParams 1 data event key (fun _ _ => x)
  cases hf : eventFile fns nParams 1 data event key (fun _ _ => x) with
  | none =>
    obtain ⟨c, hc, hcn⟩ := h2.1 hf 0 (by omega)
    exact absurd hcn (hcell c hc)
  | some rows =>
    refine ⟨rows, rfl, _, ((h1 rows hf).2.2 0 (by omega)).1 hcell, ?_⟩
    rw [List.getElem?_map, List.getElem?_range hcol]
    simp only [Option.map_some]
    rw [(C58_columns fns data event key _ hnd 0 col).2 hun]

example : ∃ u rows, eventFile [⟨[0], fun _ _ _ _ => .fin 1⟩] 2 1 [.fin 1, .fin 2] 0 (Key.seed 0) u = some rows ∧
    ∃ row ∈ rows, row[1]? = some (.fin 12345) :=
  C58_uncovered_violated [⟨[0], fun _ _ _ _ => .fin 1⟩] 2 [.fin 1, .fin 2] 0 (Key.seed 0) (by decide) 1 (by decide) (by simp) (.fin 12345)
    (by simp) (by
      intro c hc hne
      exact ⟨_, List.mem_singleton.2 rfl, List.mem_singleton.2 (by omega)⟩) (by simp)

/-! ## File names -/

/-- **C59.**  `ensure_dat_extension` returns a name ending in `.dat`, is the identity on such names, only ever appends `.dat`, and rejects
exactly the names with another extension. -/
theorem C59_dat_extension (name : String) :
    (∀ out, ensureDatExtension name = .ok out → ".dat".toList <:+ out.toList ∧ ensureDatExtension out = .ok out ∧ (out = name ∨ out = name ++ ".dat")) ∧
    (ensureDatExtension name = .error .valueError ↔ '.' ∈ name.toList ∧ ¬ ".dat".toList <:+ name.toList) := by
  constructor
  · intro out h
    unfold ensureDatExtension at h
    split at h
    · rename_i hs
      cases h
      exact ⟨hs, by unfold ensureDatExtension; rw [if_pos hs], Or.inl rfl⟩
    · split at h
      · cases h
        have : ".dat".toList <:+ (name ++ ".dat").toList := ⟨name.toList, (String.toList_append).symm⟩
        exact ⟨this, by unfold ensureDatExtension; rw [if_pos this], Or.inr rfl⟩
      · cases h
  · unfold ensureDatExtension
    by_cases h1 : ".dat".toList <:+ name.toList
    · rw [if_pos h1]
      constructor
      · intro h; cases h
      · intro h; exact absurd h1 h.2
    · rw [if_neg h1]
      by_cases h2 : '.' ∉ name.toList
      · rw [if_pos h2]
        constructor
        · intro h; cases h
        · intro h; exact absurd h.1 h2
      · rw [if_neg h2]
        exact ⟨fun _ => ⟨not_not.1 h2, h1⟩, fun _ => rfl⟩

example : (ensureDatExtension "event_{}").toOption = some "event_{}.dat" := by decide +kernel
example : (ensureDatExtension "event.txt").toOption = none := by decide +kernel

end GW.Population
