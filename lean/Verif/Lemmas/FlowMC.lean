import Verif.Model.FlowMC
import Mathlib.Data.List.Nodup
import Mathlib.Data.List.Range
import Mathlib.Tactic.Ring
import Mathlib.Tactic.Linarith

namespace GW.FlowMC

theorem slice_append {α} (a b c : List α) : slice (a ++ b ++ c) a.length (a.length + b.length) = b := by
  unfold slice
  rw [← List.length_append, List.take_left, List.drop_left]

theorem flatten_replicate_succ {α} (n : Nat) (p : List α) :
    (List.replicate (n + 1) p).flatten = p ++ (List.replicate n p).flatten := by
  simp [List.replicate_succ]

theorem flatten_replicate_add {α} (m n : Nat) (p : List α) :
    (List.replicate (m + n) p).flatten = (List.replicate m p).flatten ++ (List.replicate n p).flatten := by
  rw [← List.replicate_append_replicate, List.flatten_append]

theorem length_flatten_replicate {α} (n : Nat) (p : List α) : (List.replicate n p).flatten.length = p.length * n := by
  rw [List.length_flatten]; simp [Nat.mul_comm]

/-- The `i`-th block of a repeated pattern. -/
theorem slice_block {α} (pre p post : List α) (n i : Nat) (hi : i < n) :
    slice (pre ++ (List.replicate n p).flatten ++ post) (pre.length + p.length * i) (pre.length + p.length * (i + 1)) = p := by
  obtain ⟨k, rfl⟩ : ∃ k, n = i + (1 + k) := ⟨n - i - 1, by omega⟩
  rw [flatten_replicate_add, flatten_replicate_add]
  have : pre ++ ((List.replicate i p).flatten ++ ((List.replicate 1 p).flatten ++ (List.replicate k p).flatten)) ++ post =
      (pre ++ (List.replicate i p).flatten) ++ p ++ ((List.replicate k p).flatten ++ post) := by
    simp
  rw [this]
  have h := slice_append (pre ++ (List.replicate i p).flatten) p ((List.replicate k p).flatten ++ post)
  rw [List.length_append, length_flatten_replicate] at h
  rw [show pre.length + p.length * (i + 1) = pre.length + p.length * i + p.length by ring]
  exact h

theorem flatten_map_const {α β} (n : Nat) (p : List α) (s : β) :
    ((List.range n).map fun _ => p.map (·, s)).flatten = (List.replicate n p).flatten.map (·, s) := by
  induction n with
  | zero => simp
  | succ n ih => rw [List.range_succ, List.map_append, List.flatten_append, ih, flatten_replicate_add]; simp

theorem count_strategyOrder (a b : Nat) : (strategyOrder a b).count .modelTrainer = a := by
  unfold strategyOrder
  rw [List.count_append, List.count_append]
  have h : ∀ (n : Nat) (p : List Strat), ((List.replicate n p).flatten).count .modelTrainer = n * p.count .modelTrainer := by
    intro n p
    induction n with
    | zero => simp
    | succ n ih => rw [flatten_replicate_succ, List.count_append, ih]; ring
  rw [h, h]
  have h1 : trainingPhase.count .modelTrainer = 1 := by decide
  have h2 : productionPhase.count .modelTrainer = 0 := by decide
  have h3 : [Strat.resetSteppers, .updateState].count .modelTrainer = 0 := by decide
  rw [h1, h2, h3]; ring

theorem length_strategyOrder (a b : Nat) : (strategyOrder a b).length = 6 * a + 2 + 4 * b := by
  unfold strategyOrder
  rw [List.length_append, List.length_append, length_flatten_replicate, length_flatten_replicate]
  simp [trainingPhase, productionPhase]

theorem executed_strategyOrder (a b : Nat) :
    executed (strategyOrder a b) = (List.replicate a trainingPhase).flatten.map (·, .training) ++
      [(.resetSteppers, .nothing), (.updateState, .nothing)] ++
      (List.replicate b productionPhase).flatten.map (·, .production) := by
  unfold executed
  simp only [count_strategyOrder, length_strategyOrder]
  have hb : ((((6 * a + 2 + 4 * b : Nat) : Int) - 6 * (a : Int) - 2) / 4).toNat = b := by
    have : (((6 * a + 2 + 4 * b : Nat) : Int) - 6 * (a : Int) - 2) = 4 * b := by push_cast; ring
    rw [this]; omega
  rw [hb, ← flatten_map_const, ← flatten_map_const]
  congr 1
  · congr 1
    · congr 1
      apply List.map_congr_left
      intro i hi
      rw [List.mem_range] at hi
      congr 1
      have := slice_block [] trainingPhase ([.resetSteppers, .updateState] ++ (List.replicate b productionPhase).flatten) a i hi
      simpa [strategyOrder, trainingPhase] using this
    · have := slice_append ((List.replicate a trainingPhase).flatten) [.resetSteppers, .updateState]
        ((List.replicate b productionPhase).flatten)
      rw [length_flatten_replicate] at this
      have h6 : trainingPhase.length = 6 := rfl
      rw [h6] at this
      unfold strategyOrder
      simp only [List.length_cons, List.length_nil] at this
      rw [this]
      rfl
  · congr 1
    apply List.map_congr_left
    intro i hi
    rw [List.mem_range] at hi
    congr 1
    have := slice_block ((List.replicate a trainingPhase).flatten ++ [.resetSteppers, .updateState]) productionPhase [] b i hi
    rw [List.length_append, length_flatten_replicate] at this
    simpa [strategyOrder, trainingPhase, productionPhase] using this

/-! ## Buffers -/

theorem write_end {α} (a : List α) (m : Nat) (x : α) (new : List α) (h : new.length ≤ m) :
    write (a ++ List.replicate m x) a.length new = a ++ new ++ List.replicate (m - new.length) x := by
  unfold write
  simp only [List.length_append, List.length_replicate]
  have : min a.length (a.length + m - new.length) = a.length := by omega
  rw [this, List.take_left, List.drop_append]
  simp [List.drop_of_length_le]

theorem length_rows (b : Bool) (c n : Nat) : (rows b c n).length = n := by simp [rows]

/-- The rows of the loops `first, …, first + n - 1`. -/
def blocks (nl ng first n : Nat) : List (Option Row) :=
  ((List.range n).map fun i => rows true (first + i) nl ++ rows false (first + i) ng).flatten

theorem length_blocks (nl ng first n : Nat) : (blocks nl ng first n).length = (nl + ng) * n := by
  induction n with
  | zero => simp [blocks]
  | succ n ih =>
    unfold blocks at ih ⊢
    rw [List.range_succ, List.map_append, List.flatten_append, List.length_append, ih]
    simp [length_rows]; ring

theorem blocks_succ (nl ng first n : Nat) :
    blocks nl ng first (n + 1) = blocks nl ng first n ++ (rows true (first + n) nl ++ rows false (first + n) ng) := by
  unfold blocks
  rw [List.range_succ, List.map_append, List.flatten_append]; simp

/-- One training or production loop. -/
theorem loop_step (nl ng : Nat) (st : St) (phase : List Strat) (hp : phase = trainingPhase ∨ phase = productionPhase)
    (buf : List (Option Row)) (m k : Nat) (hcalls : st.lcalls = k ∧ st.gcalls = k) (hm : nl + ng ≤ m)
    (hlpos : st.lpos = buf.length)
    (hbuf : (if st.training then st.trainBuf else st.prodBuf) = buf ++ List.replicate m none) :
    let st' := phase.foldl (step nl ng) st
    let buf' := buf ++ (rows true k nl ++ rows false k ng)
    st'.lcalls = k + 1 ∧ st'.gcalls = k + 1 ∧ st'.lpos = buf'.length ∧ st'.training = st.training ∧
      (if st.training then st'.trainBuf else st'.prodBuf) = buf' ++ List.replicate (m - (nl + ng)) none ∧
      (if st.training then st'.prodBuf = st.prodBuf else st'.trainBuf = st.trainBuf) := by
  obtain ⟨lpos, gpos, lc, gc, tr, tb, pb⟩ := st
  simp only at hcalls hlpos
  obtain ⟨rfl, rfl⟩ := hcalls
  subst hlpos
  have h1 := write_end buf m none (rows true gc nl) (by rw [length_rows]; omega)
  have h2 := write_end (buf ++ rows true gc nl) (m - nl) none (rows false gc ng) (by rw [length_rows]; omega)
  rw [length_rows] at h1 h2
  rw [List.length_append, length_rows] at h2
  cases tr with
  | true =>
    simp only [if_true] at hbuf
    subst hbuf
    rcases hp with rfl | rfl <;>
    simp [trainingPhase, productionPhase, step, St.store, h1, length_rows] <;> refine ⟨by ring, ?_⟩ <;>
    · simp only [List.append_assoc] at h2 ⊢
      rw [h2, Nat.sub_sub]
  | false =>
    simp only [Bool.false_eq_true, if_false] at hbuf
    subst hbuf
    rcases hp with rfl | rfl <;>
    simp [trainingPhase, productionPhase, step, St.store, h1, length_rows] <;> refine ⟨by ring, ?_⟩ <;>
    · simp only [List.append_assoc] at h2 ⊢
      rw [h2, Nat.sub_sub]

theorem loops (nl ng : Nat) (phase : List Strat) (hp : phase = trainingPhase ∨ phase = productionPhase) (n : Nat) :
    ∀ (st : St) (k m : Nat), st.lcalls = k ∧ st.gcalls = k → st.lpos = 0 →
      (if st.training then st.trainBuf else st.prodBuf) = List.replicate ((nl + ng) * n + m) none →
      let st' := (List.replicate n phase).flatten.foldl (step nl ng) st
      st'.lcalls = k + n ∧ st'.gcalls = k + n ∧ st'.lpos = (nl + ng) * n ∧ st'.training = st.training ∧
      (if st.training then st'.trainBuf else st'.prodBuf) = blocks nl ng k n ++ List.replicate m none ∧
      (if st.training then st'.prodBuf = st.prodBuf else st'.trainBuf = st.trainBuf) := by
  induction n with
  | zero =>
    intro st k m h1 h2 h3
    simp only [Nat.mul_zero, Nat.zero_add] at h3
    refine ⟨h1.1, h1.2, by simpa using h2, rfl, ?_, ?_⟩
    · simpa [blocks] using h3
    · split_ifs <;> rfl
  | succ n ih =>
    intro st k m h1 h2 h3
    have h3' : (if st.training then st.trainBuf else st.prodBuf) = List.replicate ((nl + ng) * n + (nl + ng + m)) none := by
      rw [h3]; congr 1; ring
    obtain ⟨i1, i2, i3, i4, i5, i6⟩ := ih st k (nl + ng + m) h1 h2 h3'
    have happ : (List.replicate (n + 1) phase).flatten = (List.replicate n phase).flatten ++ phase := by
      rw [flatten_replicate_add]; simp
    simp only [happ, List.foldl_append]
    set s1 := (List.replicate n phase).flatten.foldl (step nl ng) st with hs1
    have := loop_step nl ng s1 phase hp (blocks nl ng k n) (nl + ng + m) (k + n) ⟨i1, i2⟩ (by omega)
      (by rw [i3, length_blocks]) (by rw [i4]; exact i5)
    obtain ⟨j1, j2, j3, j4, j5, j6⟩ := this
    refine ⟨by rw [j1]; ring, by rw [j2]; ring, ?_, by rw [j4, i4], ?_, ?_⟩
    · rw [j3, ← blocks_succ, length_blocks]
    · rw [i4] at j5
      rw [j5, blocks_succ, Nat.add_sub_cancel_left]
    · rw [i4] at j6
      split_ifs at i6 j6 ⊢ <;> rw [j6, i6]

theorem run_spec (nLocal localThin nGlobal globalThin nT nP : Nat) :
    (run nLocal localThin nGlobal globalThin nT nP).trainBuf = blocks (nLocal / localThin) (nGlobal / globalThin) 0 nT ∧
    (run nLocal localThin nGlobal globalThin nT nP).prodBuf = blocks (nLocal / localThin) (nGlobal / globalThin) nT nP := by
  unfold run
  have hmap : ∀ (l : List (Strat × Saves)) (st : St), l.foldl (fun st s => step (nLocal / localThin) (nGlobal / globalThin) st s.1) st
      = (l.map Prod.fst).foldl (step (nLocal / localThin) (nGlobal / globalThin)) st := by
    intro l st; rw [List.foldl_map]
  rw [hmap, executed_strategyOrder]
  simp only [List.map_append, List.map_map, List.map_cons, List.map_nil, List.foldl_append]
  have hid : ∀ (s : Saves) (l : List Strat), l.map (Prod.fst ∘ (·, s)) = l := by
    intro s l; induction l with
    | nil => rfl
    | cons a l ih => rw [List.map_cons, ih]; rfl
  rw [hid, hid]
  unfold initial
  simp only
  generalize nLocal / localThin = nl
  generalize nGlobal / globalThin = ng
  obtain ⟨a1, a2, a3, a4, a5, a6⟩ := loops nl ng trainingPhase (Or.inl rfl) nT
    ⟨0, 0, 0, 0, true, List.replicate ((nl + ng) * nT) none, List.replicate ((nl + ng) * nP) none⟩ 0 0 ⟨rfl, rfl⟩ rfl (by simp)
  set s1 := (List.replicate nT trainingPhase).flatten.foldl (step nl ng)
    ⟨0, 0, 0, 0, true, List.replicate ((nl + ng) * nT) none, List.replicate ((nl + ng) * nP) none⟩ with hs1
  simp only [if_true] at a5 a6
  set s2 : St := [Strat.resetSteppers, .updateState].foldl (step nl ng) s1 with hs2
  have e2 : s2 = { s1 with lpos := 0, gpos := 0, training := false } := rfl
  obtain ⟨b1, b2, b3, b4, b5, b6⟩ := loops nl ng productionPhase (Or.inr rfl) nP s2 nT 0
    (by rw [e2]; simp only; exact ⟨by rw [a1]; simp, by rw [a2]; simp⟩) (by rw [e2]) (by rw [e2]; simp [a6])
  have htr : s2.training = false := by rw [e2]
  simp only [htr, Bool.false_eq_true, if_false] at b5 b6
  refine ⟨?_, ?_⟩
  · rw [b6, e2]; simpa using a5
  · rw [b5]; simp

/-! ## Selected rows -/

theorem selected_block (nl ng n : Nat) :
    selectedIndices nl ng ((nl + ng) * n) =
      ((List.range n).map fun i => (List.range nl).map fun j => (nl + ng) * i + j).flatten := by
  induction n with
  | zero => simp [selectedIndices]
  | succ n ih =>
    unfold selectedIndices at ih ⊢
    rw [Nat.mul_succ, List.range_add, List.filter_append, ih, List.range_succ, List.map_append, List.flatten_append]
    congr 1
    simp only [List.map_cons, List.map_nil, List.flatten_cons, List.flatten_nil, List.append_nil]
    rw [List.range_add, List.map_append, List.filter_append]
    have h1 : ((List.range nl).map fun x => (nl + ng) * n + x).filter (fun i => decide (i % (nl + ng) < nl)) =
        (List.range nl).map fun x => (nl + ng) * n + x := by
      rw [List.filter_eq_self]
      intro x hx
      obtain ⟨j, hj, rfl⟩ := List.mem_map.1 hx
      rw [List.mem_range] at hj
      rw [decide_eq_true_eq, Nat.mul_add_mod, Nat.mod_eq_of_lt (by omega)]; exact hj
    have h2 : (((List.range ng).map (nl + ·)).map fun x => (nl + ng) * n + x).filter
        (fun i => decide (i % (nl + ng) < nl)) = [] := by
      rw [List.filter_eq_nil_iff]
      intro x hx
      obtain ⟨y, hy, rfl⟩ := List.mem_map.1 hx
      obtain ⟨j, hj, rfl⟩ := List.mem_map.1 hy
      rw [List.mem_range] at hj
      rw [decide_eq_true_eq, Nat.mul_add_mod, Nat.mod_eq_of_lt (by omega)]; omega
    rw [h1, h2, List.append_nil]

/-- Selecting from a chain made of loops of `nl` local and `ng` global rows keeps the local rows in order. -/
theorem select_loops {α} (nl ng : Nat) (loops : List (List α × List α)) (h : ∀ l ∈ loops, l.1.length = nl ∧ l.2.length = ng) :
    (selectedIndices nl ng ((nl + ng) * loops.length)).filterMap
        (fun i => ((loops.map fun l => l.1 ++ l.2).flatten)[i]?) = (loops.map Prod.fst).flatten := by
  rw [selected_block, List.filterMap_flatten]
  congr 1
  rw [List.map_map]
  have key : ∀ (pre loops : List (List α × List α)), (∀ l ∈ pre ++ loops, l.1.length = nl ∧ l.2.length = ng) →
      (List.range loops.length).map (fun i => ((List.range nl).map fun j => (nl + ng) * (pre.length + i) + j).filterMap
        fun i => (((pre ++ loops).map fun l => l.1 ++ l.2).flatten)[i]?) = loops.map Prod.fst := by
    intro pre loops
    induction loops generalizing pre with
    | nil => intro _; simp
    | cons l loops ih =>
      intro hl
      rw [List.length_cons, List.range_succ_eq_map, List.map_cons, List.map_map, List.map_cons]
      have hpre : ((pre.map fun l => l.1 ++ l.2).flatten).length = (nl + ng) * pre.length := by
        rw [List.length_flatten, List.map_map]
        have : (pre.map (List.length ∘ fun l => l.1 ++ l.2)) = List.replicate pre.length (nl + ng) := by
          rw [List.eq_replicate_iff]
          refine ⟨by simp, ?_⟩
          intro b hb
          obtain ⟨a, ha, rfl⟩ := List.mem_map.1 hb
          have := hl a (by simp [ha])
          simp [this.1, this.2]
        rw [this]; simp [Nat.mul_comm]
      congr 1
      · have h0 := hl l (by simp)
        rw [List.filterMap_map]
        have : ∀ j ∈ List.range nl, ((fun i => (((pre ++ l :: loops).map fun l => l.1 ++ l.2).flatten)[i]?) ∘
            fun j => (nl + ng) * (pre.length + 0) + j) j = l.1[j]? := by
          intro j hj
          rw [List.mem_range] at hj
          simp only [Function.comp, Nat.add_zero, List.map_append, List.map_cons, List.flatten_append, List.flatten_cons]
          rw [← hpre, List.getElem?_append_right (by omega), Nat.add_sub_cancel_left, List.append_assoc,
            List.getElem?_append_left (by omega)]
        rw [List.filterMap_congr this, ← h0.1]
        apply List.ext_getElem?
        intro i
        have : ∀ (m : List α), (List.range m.length).filterMap (fun j => m[j]?) = m := by
          intro m
          induction m with
          | nil => rfl
          | cons a m ih' =>
            rw [List.length_cons, List.range_succ_eq_map, List.filterMap_cons_some (b := a) (by simp), List.filterMap_map]
            congr 1
        rw [this]
      · have := ih (pre ++ [l]) (by simpa using hl)
        rw [← this]
        apply List.map_congr_left
        intro i _
        simp only [Function.comp, List.length_append, List.length_cons, List.length_nil, Nat.succ_eq_add_one,
          List.append_assoc, List.cons_append, List.nil_append]
        rw [show pre.length + (i + 1) = pre.length + (0 + 1) + i by ring]
  have := key [] loops (by simpa using h)
  simpa [Function.comp_def] using this

/-! ## File names -/

/-- The last `w` decimal digits of `n`, most significant first. -/
def fixed : Nat → Nat → List Char
  | 0, _ => []
  | w + 1, n => fixed w (n / 10) ++ [Nat.digitChar (n % 10)]

theorem length_fixed (w n : Nat) : (fixed w n).length = w := by
  induction w generalizing n with
  | zero => rfl
  | succ w ih => simp [fixed, ih]

theorem fixed_zero (w : Nat) : fixed w 0 = List.replicate w '0' := by
  induction w with
  | zero => rfl
  | succ w ih => simp [fixed, ih, List.replicate_succ', Nat.digitChar]

theorem fixed_eq (w n : Nat) (hw : 1 ≤ w) (h : n < 10 ^ w) :
    (Nat.toDigits 10 n).length ≤ w ∧
      List.replicate (w - (Nat.toDigits 10 n).length) '0' ++ Nat.toDigits 10 n = fixed w n := by
  induction w generalizing n with
  | zero => omega
  | succ w ih =>
    by_cases hn : n < 10
    · rw [Nat.toDigits_of_lt_base hn]
      have : n / 10 = 0 := by omega
      simp only [fixed, this, fixed_zero, Nat.mod_eq_of_lt hn]
      simp
    · push Not at hn
      have hw' : 1 ≤ w := by
        by_contra hc
        have : w = 0 := by omega
        subst this; simp at h; omega
      have hd : n / 10 < 10 ^ w := by
        rw [Nat.div_lt_iff_lt_mul (by norm_num)]
        rw [pow_succ] at h; exact h
      obtain ⟨i1, i2⟩ := ih (n / 10) hw' hd
      rw [Nat.toDigits_of_base_le (by norm_num) hn]
      refine ⟨by simp; omega, ?_⟩
      rw [fixed, ← i2]
      simp

theorem digitChar_lt {a b : Nat} (ha : a < b) (hb : b < 10) : Nat.digitChar a < Nat.digitChar b := by
  have : ∀ b < 10, ∀ a < b, Nat.digitChar a < Nat.digitChar b := by decide
  exact this b hb a ha

theorem fixed_lt (w a b : Nat) (hb : b < 10 ^ w) (hab : a < b) : fixed w a < fixed w b := by
  induction w generalizing a b with
  | zero => simp at hb; omega
  | succ w ih =>
    simp only [fixed]
    have hd : b / 10 < 10 ^ w := by
      rw [Nat.div_lt_iff_lt_mul (by norm_num)]; rw [pow_succ] at hb; exact hb
    rcases Nat.lt_or_ge (a / 10) (b / 10) with h | h
    · have hlt := ih _ _ hd h
      have hlen : (fixed w (a / 10)).length = (fixed w (b / 10)).length := by rw [length_fixed, length_fixed]
      generalize fixed w (a / 10) = x at hlt hlen
      generalize fixed w (b / 10) = y at hlt hlen
      clear ih hd h hb hab
      induction x generalizing y with
      | nil => cases y with
        | nil => exact absurd hlt (by simp)
        | cons _ _ => simp at hlen
      | cons c x ih' =>
        cases y with
        | nil => simp at hlen
        | cons d y =>
          rw [List.cons_lt_cons_iff] at hlt
          rw [List.cons_append, List.cons_append, List.cons_lt_cons_iff]
          rcases hlt with h | ⟨h1, h2⟩
          · exact Or.inl h
          · exact Or.inr ⟨h1, ih' y h2 (by simpa using hlen)⟩
    · have he : a / 10 = b / 10 := by
        have := Nat.div_le_div_right (c := 10) hab.le
        omega
      rw [he]
      have hm : a % 10 < b % 10 := by omega
      have hc := digitChar_lt hm (Nat.mod_lt b (by norm_num))
      generalize fixed w (b / 10) = y
      induction y with
      | nil =>
        rw [List.nil_append, List.nil_append, List.cons_lt_cons_iff]
        exact Or.inl hc
      | cons d y ih' =>
        rw [List.cons_append, List.cons_append, List.cons_lt_cons_iff]
        exact Or.inr ⟨rfl, ih'⟩

end GW.FlowMC
