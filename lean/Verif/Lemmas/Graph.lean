import Verif.Model.Graph
import Verif.Spec.Graph
import Verif.Lemmas.PyDict
import Mathlib.Data.Finset.Card
import Mathlib.Data.Finset.Dedup
import Mathlib.Data.List.Perm.Basic
import Mathlib.Tactic.Linarith
import Mathlib.Tactic.Tauto

set_option linter.unusedSectionVars false

namespace GW.Graph
open PyDict (Dict)

variable {α : Type} [DecidableEq α]

theorem mem_succs {g : Dict α (List α)} (hg : (PyDict.keys g).Nodup) (u v : α) : v ∈ succs g u ↔ Edge g u v := by
  unfold succs Edge
  constructor
  · intro h
    cases h' : PyDict.get? g u with
    | none => simp [h'] at h
    | some l => exact ⟨l, PyDict.mem_of_get? h', by simpa [h'] using h⟩
  · rintro ⟨l, hl, hv⟩
    rw [PyDict.get?_of_mem hg hl]; simpa using hv

theorem mem_names_of_edge {g : Dict α (List α)} {u v : α} (h : Edge g u v) : v ∈ names g := by
  obtain ⟨l, hl, hv⟩ := h
  unfold names
  rw [List.mem_append]; right
  rw [List.mem_flatten]
  exact ⟨l, List.mem_map.2 ⟨_, hl, rfl⟩, hv⟩

theorem mem_names_iff (g : Dict α (List α)) (x : α) : x ∈ names g ↔ IsNode g x := by
  unfold names IsNode Edge PyDict.keys
  simp only [List.mem_append, List.mem_map, List.mem_flatten]
  constructor
  · rintro (⟨⟨a, l⟩, h, rfl⟩ | ⟨l, ⟨⟨u, l'⟩, h, rfl⟩, hx⟩)
    · exact Or.inl ⟨l, h⟩
    · exact Or.inr ⟨u, l', h, hx⟩
  · rintro (⟨l, h⟩ | ⟨u, l, h, hx⟩)
    · exact Or.inl ⟨_, h, rfl⟩
    · exact Or.inr ⟨l, ⟨_, h, rfl⟩, hx⟩

/-- Number of names of the graph that are not yet visited. -/
def todo (g : Dict α (List α)) (visited : List α) : Nat := ((names g).toFinset \ visited.toFinset).card

theorem todo_mono (g : Dict α (List α)) {v w : List α} (h : ∀ x ∈ v, x ∈ w) : todo g w ≤ todo g v := by
  unfold todo
  apply Finset.card_le_card
  intro x hx
  simp only [Finset.mem_sdiff, List.mem_toFinset] at hx ⊢
  exact ⟨hx.1, fun h' => hx.2 (h x h')⟩

theorem todo_cons (g : Dict α (List α)) {v : List α} {n : α} (hn : n ∈ names g) (hv : n ∉ v) :
    todo g (n :: v) < todo g v := by
  unfold todo
  apply Finset.card_lt_card
  rw [Finset.ssubset_iff_of_subset]
  · exact ⟨n, by simp [hn, hv], by simp⟩
  · intro x hx
    simp only [Finset.mem_sdiff, List.mem_toFinset, List.mem_cons] at hx ⊢
    tauto

theorem todo_le (g : Dict α (List α)) (v : List α) : todo g v ≤ (names g).length := by
  unfold todo
  exact (Finset.card_le_card Finset.sdiff_subset).trans (List.toFinset_card_le _)

/-- Every successor of a listed node is listed earlier (the order of completion). -/
def Closed (g : Dict α (List α)) (r : List α) : Prop :=
  ∀ a x b, r = a ++ x :: b → ∀ y, Edge g x y → y ∈ a

theorem Closed.append {g : Dict α (List α)} {r : List α} (h : Closed g r) {n : α} (hn : ∀ y, Edge g n y → y ∈ r) :
    Closed g (r ++ [n]) := by
  intro a x b hab y hy
  rcases List.eq_nil_or_concat b with rfl | ⟨b', z, rfl⟩
  · have h1 := List.append_inj' hab rfl
    obtain ⟨rfl, h2⟩ := h1
    simp only [List.cons.injEq, and_true] at h2
    subst h2
    exact hn y hy
  · have : r ++ [n] = (a ++ x :: b') ++ [z] := by rw [hab]; simp
    have h1 := List.append_inj' this rfl
    exact h a x b' h1.1 y hy

theorem Closed.acyclic {g : Dict α (List α)} {r : List α} (h : Closed g r) {x y : α}
    (hxy : Relation.TransGen (Edge g) x y) : ∀ a b, r = a ++ x :: b → y ∈ a := by
  induction hxy using Relation.TransGen.head_induction_on with
  | single hab => intro a b hr; exact h a _ b hr _ hab
  | @head u v huv hv ih =>
    intro a b hr
    have := h a u b hr v huv
    obtain ⟨a1, a2, rfl⟩ := List.append_of_mem this
    have := ih a1 (a2 ++ u :: b) (by rw [hr]; simp)
    simp [this]

theorem Closed.not_self {g : Dict α (List α)} {r : List α} (h : Closed g r) {x : α} (hx : x ∈ r) :
    ¬ Relation.TransGen (Edge g) x x := by
  intro hxx
  -- take the first occurrence of `x`
  have key : ∀ (k : Nat) (a b : List α), a.length ≤ k → r = a ++ x :: b → False := by
    intro k
    induction k with
    | zero =>
      intro a b hk hr
      have := h.acyclic hxx a b hr
      have : a = [] := List.length_eq_zero_iff.1 (by omega)
      subst this; simp_all
    | succ k ih =>
      intro a b hk hr
      have := h.acyclic hxx a b hr
      obtain ⟨a1, a2, rfl⟩ := List.append_of_mem this
      refine ih a1 (a2 ++ x :: b) ?_ (by rw [hr]; simp)
      simp at hk; omega
  obtain ⟨a, b, hab⟩ := List.append_of_mem hx
  exact key a.length a b le_rfl hab

/-! ## `_topological_sort` -/

/-- What one call of `dfs`, or one loop over a list of nodes, does to the state. -/
structure Topo.Step (g : Dict α (List α)) (st st' : Topo α) (new : List α) : Prop where
  result : st'.result = st.result ++ new
  visited : ∀ x, x ∈ st'.visited ↔ x ∈ st.visited ∨ x ∈ new
  nodup : new.Nodup
  fresh : ∀ x ∈ new, x ∉ st.visited
  sub : ∀ x ∈ new, x ∈ names g
  succ : ∀ x ∈ new, ∀ y, Edge g x y → y ∈ st'.visited

theorem Topo.Step.refl (g : Dict α (List α)) (st : Topo α) : Topo.Step g st st [] :=
  ⟨by simp, by simp, by simp, by simp, by simp, by simp⟩

theorem Topo.Step.trans {g : Dict α (List α)} {s t u : Topo α} {a b : List α} (h : Topo.Step g s t a)
    (h' : Topo.Step g t u b) : Topo.Step g s u (a ++ b) := by
  refine ⟨?_, ?_, ?_, ?_, ?_, ?_⟩
  · rw [h'.result, h.result, List.append_assoc]
  · intro x; rw [h'.visited, h.visited, List.mem_append]; tauto
  · rw [List.nodup_append]
    refine ⟨h.nodup, h'.nodup, ?_⟩
    intro x hx y hy hxy
    subst hxy
    exact h'.fresh x hy ((h.visited x).2 (Or.inr hx))
  · intro x hx
    rcases List.mem_append.1 hx with h1 | h1
    · exact h.fresh x h1
    · intro h2; exact h'.fresh x h1 ((h.visited x).2 (Or.inl h2))
  · intro x hx
    rcases List.mem_append.1 hx with h1 | h1
    · exact h.sub x h1
    · exact h'.sub x h1
  · intro x hx y hy
    rcases List.mem_append.1 hx with h1 | h1
    · exact (h'.visited y).2 (Or.inl (h.succ x h1 y hy))
    · exact h'.succ x h1 y hy

/-- The specification of `dfs` for a given recursion budget. -/
def Topo.DfsSpec (g : Dict α (List α)) (f : α → Topo α → Option (Topo α)) (fuel : Nat) : Prop :=
  ∀ n st, n ∈ names g → n ∉ st.visited → (∀ x ∈ st.result, x ∈ st.visited) → todo g st.visited ≤ fuel →
    ∃ st' new, f n st = some st' ∧ Topo.Step g st st' new ∧ n ∈ new ∧
      (¬ Cyclic g → (∀ z ∈ st.visited, z ∉ st.result → Relation.TransGen (Edge g) z n) → Closed g st.result →
        Closed g st'.result)

theorem Topo.visitAll_spec {g : Dict α (List α)} {f : α → Topo α → Option (Topo α)} {fuel : Nat}
    (hf : Topo.DfsSpec g f fuel) (ms : List α) (st : Topo α) (hms : ∀ m ∈ ms, m ∈ names g)
    (hsub : ∀ x ∈ st.result, x ∈ st.visited) (hfuel : todo g st.visited ≤ fuel) :
    ∃ st' new, Topo.visitAll f ms st = some st' ∧ Topo.Step g st st' new ∧ (∀ m ∈ ms, m ∈ st'.visited) ∧
      (¬ Cyclic g → (∀ z ∈ st.visited, z ∉ st.result → ∀ m ∈ ms, Relation.TransGen (Edge g) z m) → Closed g st.result →
        Closed g st'.result ∧ ∀ m ∈ ms, m ∈ st'.result) := by
  induction ms generalizing st with
  | nil => exact ⟨st, [], rfl, .refl g st, by simp, fun _ _ h => ⟨h, by simp⟩⟩
  | cons m ms ih =>
    unfold Topo.visitAll
    by_cases hm : m ∈ st.visited
    · rw [if_pos hm]
      obtain ⟨st', new, h1, h2, h3, h4⟩ := ih st (fun x hx => hms x (by simp [hx])) hsub hfuel
      refine ⟨st', new, h1, h2, ?_, ?_⟩
      · intro x hx
        rcases List.mem_cons.1 hx with rfl | hx
        · exact (h2.visited _).2 (Or.inl hm)
        · exact h3 x hx
      · intro ha hz hc
        obtain ⟨h5, h6⟩ := h4 ha (fun z hz1 hz2 y hy => hz z hz1 hz2 y (by simp [hy])) hc
        refine ⟨h5, ?_⟩
        intro x hx
        rcases List.mem_cons.1 hx with rfl | hx
        · by_contra hcon
          rw [h2.result, List.mem_append, not_or] at hcon
          exact ha ⟨x, hz x hm hcon.1 x (by simp)⟩
        · exact h6 x hx
    · rw [if_neg hm]
      obtain ⟨s1, n1, e1, p1, q1, r1⟩ := hf m st (hms m (by simp)) hm hsub hfuel
      rw [e1]
      have hsub1 : ∀ x ∈ s1.result, x ∈ s1.visited := by
        intro x hx
        rw [p1.result, List.mem_append] at hx
        rw [p1.visited]
        rcases hx with hx | hx
        · exact Or.inl (hsub x hx)
        · exact Or.inr hx
      have hfuel1 : todo g s1.visited ≤ fuel :=
        (todo_mono g (fun x hx => (p1.visited x).2 (Or.inl hx))).trans hfuel
      obtain ⟨st', new, h1, h2, h3, h4⟩ := ih s1 (fun x hx => hms x (by simp [hx])) hsub1 hfuel1
      refine ⟨st', n1 ++ new, h1, p1.trans h2, ?_, ?_⟩
      · intro x hx
        rcases List.mem_cons.1 hx with rfl | hx
        · exact (h2.visited _).2 (Or.inl ((p1.visited _).2 (Or.inr q1)))
        · exact h3 x hx
      · intro ha hz hc
        have hc1 := r1 ha (fun z hz1 hz2 => hz z hz1 hz2 m (by simp)) hc
        obtain ⟨h5, h6⟩ := h4 ha (by
          intro z hz1 hz2 y hy
          rw [p1.visited] at hz1
          rw [p1.result, List.mem_append, not_or] at hz2
          rcases hz1 with hz1 | hz1
          · exact hz z hz1 hz2.1 y (by simp [hy])
          · exact absurd hz1 hz2.2) hc1
        refine ⟨h5, ?_⟩
        intro x hx
        rcases List.mem_cons.1 hx with rfl | hx
        · rw [h2.result, List.mem_append, p1.result, List.mem_append]; exact Or.inl (Or.inr q1)
        · exact h6 x hx

theorem Topo.dfs_spec {g : Dict α (List α)} (hg : (PyDict.keys g).Nodup) (fuel : Nat) :
    Topo.DfsSpec g (Topo.dfs g fuel) fuel := by
  induction fuel with
  | zero =>
    intro n st hn hv _ h0
    have := todo_cons g hn hv
    omega
  | succ fuel ih =>
    intro n st hn hv hsub hfuel
    have hlt := todo_cons g hn hv
    obtain ⟨s', new, h1, h2, h3, h4⟩ := Topo.visitAll_spec ih (succs g n) ⟨n :: st.visited, st.result⟩
      (fun m hm => mem_names_of_edge ((mem_succs hg n m).1 hm))
      (fun x hx => by simp [hsub x hx]) (by simp only; omega)
    unfold Topo.dfs
    rw [h1]
    refine ⟨_, new ++ [n], rfl, ⟨?_, ?_, ?_, ?_, ?_, ?_⟩, by simp, ?_⟩
    · simp [h2.result]
    · intro x
      have := h2.visited x
      simp only [List.mem_cons] at this
      simp only [this, List.mem_append, List.mem_singleton]
      tauto
    · rw [List.nodup_append]
      refine ⟨h2.nodup, by simp, ?_⟩
      intro x hx y hy hxy
      rw [List.mem_singleton] at hy
      subst hxy; subst hy
      exact h2.fresh x hx (by simp)
    · intro x hx
      rcases List.mem_append.1 hx with hx | hx
      · intro h; exact h2.fresh x hx (by simp [h])
      · rw [List.mem_singleton] at hx; rw [hx]; exact hv
    · intro x hx
      rcases List.mem_append.1 hx with hx | hx
      · exact h2.sub x hx
      · rw [List.mem_singleton] at hx; rw [hx]; exact hn
    · intro x hx y hy
      rcases List.mem_append.1 hx with hx | hx
      · exact h2.succ x hx y hy
      · rw [List.mem_singleton] at hx; rw [hx] at hy; exact h3 y ((mem_succs hg n y).2 hy)
    · intro ha hz hc
      obtain ⟨h5, h6⟩ := h4 ha (by
        intro z hz1 hz2 m hm
        have hm' := (mem_succs hg n m).1 hm
        rcases List.mem_cons.1 hz1 with rfl | hz1
        · exact .single hm'
        · exact (hz z hz1 hz2).tail hm') hc
      exact h5.append fun y hy => h6 y ((mem_succs hg n y).2 hy)

theorem topologicalSort_spec {g : Dict α (List α)} (hg : (PyDict.keys g).Nodup) :
    ∃ r, topologicalSort g = some r ∧ r.Nodup ∧ (∀ x, x ∈ r ↔ x ∈ names g) ∧ (¬ Cyclic g → Closed g r.reverse) := by
  obtain ⟨st, new, h1, h2, h3, h4⟩ := Topo.visitAll_spec (Topo.dfs_spec hg ((names g).length + 1)) (PyDict.keys g)
    ⟨[], []⟩ (fun m hm => by unfold names; simp [hm]) (by simp) ((todo_le g _).trans (by omega))
  unfold topologicalSort
  rw [h1]
  have hres : st.result = new := by simpa using h2.result
  have hvis : ∀ x, x ∈ st.visited ↔ x ∈ new := fun x => by simpa using h2.visited x
  refine ⟨_, rfl, ?_, ?_, ?_⟩
  · rw [hres]; exact List.nodup_reverse.2 h2.nodup
  · intro x
    rw [List.mem_reverse, hres]
    constructor
    · exact h2.sub x
    · intro hx
      rw [mem_names_iff] at hx
      rcases hx with ⟨l, hl⟩ | ⟨u, l, hl, hx⟩
      · exact (hvis x).1 (h3 x (List.mem_map.2 ⟨_, hl, rfl⟩))
      · have hu := (hvis u).1 (h3 u (List.mem_map.2 ⟨_, hl, rfl⟩))
        exact (hvis x).1 (h2.succ u hu x ⟨l, hl, hx⟩)
  · intro ha
    rw [List.reverse_reverse]
    exact (h4 ha (by simp) (by intro a x b h; simp at h)).1

/-! ## `_check_cycles` -/

/-- `l` lists, in order of completion, the nodes that are visited and not on the stack. -/
structure Chk.Ghost (g : Dict α (List α)) (st : Chk α) (l : List α) : Prop where
  closed : Closed g l
  mem : ∀ x, x ∈ l ↔ x ∈ st.visited ∧ x ∉ st.stack

/-- Specification of `dfs` for a given recursion budget: on `True` there is a cycle, on `False` the call leaves the stack
unchanged and completes `n`. -/
def Chk.DfsSpec (g : Dict α (List α)) (f : α → Chk α → Option (Bool × Chk α)) (fuel : Nat) : Prop :=
  ∀ n st l, n ∈ names g → n ∉ st.visited → (∀ x ∈ st.stack, x ∈ st.visited) → todo g st.visited ≤ fuel →
    (∀ z ∈ st.stack, Relation.TransGen (Edge g) z n) → Chk.Ghost g st l →
    ∃ b st', f n st = some (b, st') ∧ (b = true → Cyclic g) ∧
      (b = false → st'.stack = st.stack ∧ n ∈ st'.visited ∧ (∀ x ∈ st.visited, x ∈ st'.visited) ∧
        ∃ l', Chk.Ghost g st' l')

theorem Chk.visitAll_spec {g : Dict α (List α)} {f : α → Chk α → Option (Bool × Chk α)} {fuel : Nat}
    (hf : Chk.DfsSpec g f fuel) (ms : List α) (st : Chk α) (l : List α) (hms : ∀ m ∈ ms, m ∈ names g)
    (hsub : ∀ x ∈ st.stack, x ∈ st.visited) (hfuel : todo g st.visited ≤ fuel)
    (hreach : ∀ z ∈ st.stack, ∀ m ∈ ms, Relation.TransGen (Edge g) z m) (hl : Chk.Ghost g st l) :
    ∃ b st', Chk.visitAll f ms st = some (b, st') ∧ (b = true → Cyclic g) ∧
      (b = false → st'.stack = st.stack ∧ (∀ m ∈ ms, m ∈ st'.visited ∧ m ∉ st'.stack) ∧
        (∀ x ∈ st.visited, x ∈ st'.visited) ∧ ∃ l', Chk.Ghost g st' l') := by
  induction ms generalizing st l with
  | nil => exact ⟨false, st, rfl, by simp, fun _ => ⟨rfl, by simp, fun _ h => h, l, hl⟩⟩
  | cons m ms ih =>
    unfold Chk.visitAll
    by_cases hm : m ∈ st.visited
    · rw [if_neg (by simpa using hm)]
      by_cases hs : m ∈ st.stack
      · rw [if_pos hs]
        exact ⟨true, st, rfl, fun _ => ⟨m, hreach m hs m (by simp)⟩, by simp⟩
      · rw [if_neg hs]
        obtain ⟨b, st', h1, h2, h3⟩ := ih st l (fun x hx => hms x (by simp [hx])) hsub hfuel
          (fun z hz y hy => hreach z hz y (by simp [hy])) hl
        refine ⟨b, st', h1, h2, fun hb => ?_⟩
        obtain ⟨h4, h5, h6, h7⟩ := h3 hb
        refine ⟨h4, ?_, h6, h7⟩
        intro x hx
        rcases List.mem_cons.1 hx with rfl | hx
        · exact ⟨h6 x hm, by rw [h4]; exact hs⟩
        · exact h5 x hx
    · rw [if_pos (by simpa using hm)]
      obtain ⟨b1, s1, e1, p1, q1⟩ := hf m st l (hms m (by simp)) hm hsub hfuel
        (fun z hz => hreach z hz m (by simp)) hl
      rw [e1]
      cases b1 with
      | true => exact ⟨true, s1, rfl, fun _ => p1 rfl, by simp⟩
      | false =>
        obtain ⟨q2, q3, q4, l1, q5⟩ := q1 rfl
        obtain ⟨b, st', h1, h2, h3⟩ := ih s1 l1 (fun x hx => hms x (by simp [hx]))
          (fun x hx => q4 x (hsub x (by rwa [q2] at hx))) ((todo_mono g q4).trans hfuel)
          (fun z hz y hy => hreach z (by rwa [q2] at hz) y (by simp [hy])) q5
        refine ⟨b, st', h1, h2, fun hb => ?_⟩
        obtain ⟨h4, h5, h6, h7⟩ := h3 hb
        refine ⟨h4.trans q2, ?_, fun x hx => h6 x (q4 x hx), h7⟩
        intro x hx
        rcases List.mem_cons.1 hx with rfl | hx
        · refine ⟨h6 x q3, ?_⟩
          rw [h4, q2]
          intro hx'; exact hm (hsub x hx')
        · exact h5 x hx

theorem Chk.dfs_spec {g : Dict α (List α)} (hg : (PyDict.keys g).Nodup) (fuel : Nat) :
    Chk.DfsSpec g (Chk.dfs g fuel) fuel := by
  induction fuel with
  | zero =>
    intro n st l hn hv _ h0
    have := todo_cons g hn hv
    omega
  | succ fuel ih =>
    intro n st l hn hv hsub hfuel hreach hl
    have hlt := todo_cons g hn hv
    obtain ⟨b, s', h1, h2, h3⟩ := Chk.visitAll_spec ih (succs g n) ⟨n :: st.visited, n :: st.stack⟩ l
      (fun m hm => mem_names_of_edge ((mem_succs hg n m).1 hm))
      (by
        intro x hx
        rcases List.mem_cons.1 hx with rfl | hx
        · simp
        · simp [hsub x hx])
      (by simp only; omega)
      (by
        intro z hz m hm
        have hm' := (mem_succs hg n m).1 hm
        rcases List.mem_cons.1 hz with rfl | hz
        · exact .single hm'
        · exact (hreach z hz).tail hm')
      ⟨hl.closed, by
        intro x
        rw [hl.mem]
        simp only [List.mem_cons, not_or]
        constructor
        · rintro ⟨h, h'⟩; exact ⟨Or.inr h, by rintro rfl; exact hv h, h'⟩
        · rintro ⟨h, h', h''⟩; exact ⟨h.resolve_left h', h''⟩⟩
    unfold Chk.dfs
    rw [h1]
    cases b with
    | true => exact ⟨true, s', rfl, fun _ => h2 rfl, by simp⟩
    | false =>
      obtain ⟨h4, h5, h6, l', h7⟩ := h3 rfl
      refine ⟨false, _, rfl, by simp, fun _ => ⟨?_, ?_, ?_, l' ++ [n], ?_, ?_⟩⟩
      · simp [h4]
      · exact h6 n (by simp)
      · intro x hx; exact h6 x (by simp [hx])
      · refine h7.closed.append fun y hy => (h7.mem y).2 ?_
        exact h5 y ((mem_succs hg n y).2 hy)
      · intro x
        have hns : n ∉ st.stack := fun h => hv (hsub n h)
        have hst : s'.stack.erase n = st.stack := by simp [h4]
        rw [hst, List.mem_append, List.mem_singleton, h7.mem, h4]
        simp only [List.mem_cons, not_or]
        constructor
        · rintro (⟨ha, hb, hc⟩ | rfl)
          · exact ⟨ha, hc⟩
          · exact ⟨h6 x (by simp), hns⟩
        · rintro ⟨ha, hb⟩
          by_cases hx : x = n
          · exact Or.inr hx
          · exact Or.inl ⟨ha, hx, hb⟩

theorem Chk.roots_spec {g : Dict α (List α)} {f : α → Chk α → Option (Bool × Chk α)} {fuel : Nat}
    (hf : Chk.DfsSpec g f fuel) (ms : List α) (st : Chk α) (l : List α) (hms : ∀ m ∈ ms, m ∈ names g)
    (hst : st.stack = []) (hfuel : todo g st.visited ≤ fuel) (hl : Chk.Ghost g st l) :
    ∃ b, Chk.roots f ms st = some b ∧ (b = true → Cyclic g) ∧
      (b = false → ∃ l', Closed g l' ∧ (∀ m ∈ ms, m ∈ l') ∧ ∀ x ∈ st.visited, x ∈ l') := by
  induction ms generalizing st l with
  | nil =>
    refine ⟨false, rfl, by simp, fun _ => ⟨l, hl.closed, by simp, ?_⟩⟩
    intro x hx; exact (hl.mem x).2 ⟨hx, by simp [hst]⟩
  | cons m ms ih =>
    unfold Chk.roots
    by_cases hm : m ∈ st.visited
    · rw [if_neg (by simpa using hm)]
      obtain ⟨b, h1, h2, h3⟩ := ih st l (fun x hx => hms x (by simp [hx])) hst hfuel hl
      refine ⟨b, h1, h2, fun hb => ?_⟩
      obtain ⟨l', h4, h5, h6⟩ := h3 hb
      refine ⟨l', h4, ?_, h6⟩
      intro x hx
      rcases List.mem_cons.1 hx with rfl | hx
      · exact h6 x hm
      · exact h5 x hx
    · rw [if_pos (by simpa using hm)]
      obtain ⟨b1, s1, e1, p1, q1⟩ := hf m st l (hms m (by simp)) hm (by simp [hst]) hfuel (by simp [hst]) hl
      rw [e1]
      cases b1 with
      | true => exact ⟨true, rfl, fun _ => p1 rfl, by simp⟩
      | false =>
        obtain ⟨q2, q3, q4, l1, q5⟩ := q1 rfl
        obtain ⟨b, h1, h2, h3⟩ := ih s1 l1 (fun x hx => hms x (by simp [hx])) (q2.trans hst)
          ((todo_mono g q4).trans hfuel) q5
        refine ⟨b, h1, h2, fun hb => ?_⟩
        obtain ⟨l', h4, h5, h6⟩ := h3 hb
        refine ⟨l', h4, ?_, fun x hx => h6 x (q4 x hx)⟩
        intro x hx
        rcases List.mem_cons.1 hx with rfl | hx
        · exact h6 x q3
        · exact h5 x hx

theorem checkCycles_spec {g : Dict α (List α)} (hg : (PyDict.keys g).Nodup) :
    ∃ b, checkCycles g = some b ∧ (b = true ↔ Cyclic g) := by
  obtain ⟨b, h1, h2, h3⟩ := Chk.roots_spec (Chk.dfs_spec hg ((names g).length + 1)) (PyDict.keys g) ⟨[], []⟩ []
    (fun m hm => by unfold names; simp [hm]) rfl ((todo_le g _).trans (by omega))
    ⟨by intro a x b h; simp at h, by simp⟩
  refine ⟨b, h1, h2, ?_⟩
  rintro ⟨x, hx⟩
  cases b with
  | true => rfl
  | false =>
    obtain ⟨l, h4, h5, -⟩ := h3 rfl
    exfalso
    have hkey : x ∈ PyDict.keys g := by
      obtain ⟨y, hy, -⟩ := (Relation.TransGen.head'_iff).1 hx
      obtain ⟨s, hs, -⟩ := hy
      exact List.mem_map.2 ⟨_, hs, rfl⟩
    exact h4.not_self (h5 x hkey) hx

end GW.Graph
