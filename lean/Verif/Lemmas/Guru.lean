import Verif.Model.Guru
import Verif.Lemmas.Graph

namespace GW.Guru
open GW PyDict Tools
open GW.Joint (Base)
open GW.Lazy (Marg)
open GW.Graph (Edge IsNode Before Cyclic)

variable {α : Type}

/-- The values that the first pass accepts. -/
def Valid : PVal α → Prop
  | .lazy p _ args => p = true ∧ ∃ a, args = some a
  | .other => False
  | _ => True

/-! ## Edges -/

theorem edge_addEdge (name : String) (g : Dict String (List String)) (dep u v : String)
    (hg : (keys g).Nodup) :
    (keys (addEdge name g dep)).Nodup ∧ (Edge (addEdge name g dep) u v ↔ Edge g u v ∨ (u = dep ∧ v = name)) := by
  have hn : (keys (addEdge name g dep)).Nodup := nodup_keys_set hg _ _
  refine ⟨hn, ?_⟩
  have hE : ∀ g' : Dict String (List String), (keys g').Nodup → (Edge g' u v ↔ v ∈ (get? g' u).getD []) := by
    intro g' h'
    exact (Graph.mem_succs h' u v).symm
  rw [hE _ hn, hE _ hg]
  unfold addEdge
  simp only
  rw [get?_set]
  split_ifs with h1 h2
  · subst h1
    simp only [Option.getD_some, true_and]
    constructor
    · exact Or.inl
    · rintro (h | rfl)
      · exact h
      · exact h2
  · subst h1
    simp
  · simp [h1]

theorem edge_addEdges (name : String) (deps : List String) (g : Dict String (List String)) (hg : (keys g).Nodup) :
    (keys (deps.foldl (addEdge name) g)).Nodup ∧
      ∀ u v, Edge (deps.foldl (addEdge name) g) u v ↔ Edge g u v ∨ (u ∈ deps ∧ v = name) := by
  induction deps generalizing g with
  | nil => simp [hg]
  | cons d ds ih =>
    have h1 := fun u v => edge_addEdge name g d u v hg
    obtain ⟨h2, h3⟩ := ih (addEdge name g d) (h1 d d).1
    refine ⟨h2, ?_⟩
    intro u v
    rw [List.foldl_cons, h3, (h1 u v).2]
    simp only [List.mem_cons]
    tauto

/-- No key of the graph has an empty set of successors. -/
theorem nonempty_addEdges (name : String) (deps : List String) (g : Dict String (List String))
    (h : ∀ p ∈ g, p.2 ≠ []) : ∀ p ∈ deps.foldl (addEdge name) g, p.2 ≠ [] := by
  induction deps generalizing g with
  | nil => exact h
  | cons d ds ih =>
    rw [List.foldl_cons]
    apply ih
    have key : ∀ (g : Dict String (List String)) (l : List String), l ≠ [] → (∀ p ∈ g, p.2 ≠ []) →
        ∀ p ∈ set g d l, p.2 ≠ [] := by
      intro g l hl
      induction g with
      | nil => intro _ p hp; simp [PyDict.set] at hp; subst hp; exact hl
      | cons q g ih' =>
        intro hg p hp
        unfold PyDict.set at hp
        split_ifs at hp with hq
        · rcases List.mem_cons.1 hp with rfl | hp
          · exact hl
          · exact hg p (by simp [hp])
        · rcases List.mem_cons.1 hp with rfl | hp
          · exact hg _ (by simp)
          · exact ih' (fun p hp => hg p (by simp [hp])) p hp
    unfold addEdge
    refine key g _ ?_ h
    intro hcon
    split_ifs at hcon with hin
    · rw [hcon] at hin; simp at hin
    · simp at hcon

theorem edge_ord {ord : List String → List String} (hord : ∀ l, (ord l).Perm l) (g : Dict String (List String))
    (u v : String) : Edge (g.map fun p => (p.1, ord p.2)) u v ↔ Edge g u v := by
  unfold Edge
  constructor
  · rintro ⟨l, hl, hv⟩
    obtain ⟨p, hp, he⟩ := List.mem_map.1 hl
    simp only [Prod.mk.injEq] at he
    obtain ⟨rfl, rfl⟩ := he
    exact ⟨p.2, hp, (hord p.2).mem_iff.1 hv⟩
  · rintro ⟨l, hl, hv⟩
    exact ⟨ord l, List.mem_map.2 ⟨_, hl, rfl⟩, (hord l).mem_iff.2 hv⟩

/-! ## The first pass -/

structure Inv1 (done : List (String × PVal α)) (st : Pass1 α) : Prop where
  const : ∀ k c, get? st.constants k = some c ↔
    ((k, PVal.none) ∈ done ∧ c = none) ∨ ∃ q, (k, PVal.num q) ∈ done ∧ c = some q
  vars : ∀ k m, get? st.vars k = some m ↔
    (∃ b, (k, PVal.dist b) ∈ done ∧ m = .dist b) ∨ ∃ f a, (k, PVal.lazy true f (some a)) ∈ done ∧ m = .part f
  lazyDeps : ∀ k a, get? st.lazyDeps k = some a ↔ ∃ f, (k, PVal.lazy true f (some a)) ∈ done
  roots : ∀ k, k ∈ st.roots ↔ ∃ b, (k, PVal.dist b) ∈ done
  edge : ∀ u v, Edge st.graph u v ↔ ∃ f a p, (v, PVal.lazy true f (some a)) ∈ done ∧ (p, u) ∈ a
  graphKeys : (keys st.graph).Nodup
  graphNe : ∀ p ∈ st.graph, p.2 ≠ []
  constKeys : (keys st.constants).Nodup
  varKeys : (keys st.vars).Nodup
  lazyKeys : (keys st.lazyDeps).Nodup

theorem Inv1.init : Inv1 ([] : List (String × PVal α)) {} := by
  refine ⟨?_, ?_, ?_, ?_, ?_, ?_, ?_, ?_, ?_, ?_⟩ <;> simp [get?, keys, Edge]

/-- Looking up a freshly set key when the name is new. -/
theorem fresh_get {V : Type} {d : Dict String V} {n k : String} {v w : V} :
    get? (set d n v) k = some w ↔ (k = n ∧ w = v) ∨ (k ≠ n ∧ get? d k = some w) := by
  rw [get?_set]
  split_ifs with h
  · simp [h]; exact eq_comm
  · simp [h]

theorem Inv1.step {done : List (String × PVal α)} {st : Pass1 α} (h : Inv1 done st) (p : String × PVal α)
    (hp : p.1 ∉ done.map (·.1)) :
    (Valid p.2 → ∃ st', pass1Step st p = .ok st' ∧ Inv1 (done ++ [p]) st') ∧
    (¬ Valid p.2 → pass1Step st p = .error .valueError) := by
  obtain ⟨n, v⟩ := p
  have hnot : ∀ w, (n, w) ∉ done := fun w hw => hp (List.mem_map.2 ⟨_, hw, rfl⟩)
  have hne : ∀ k w, (k, w) ∈ done → k ≠ n := by rintro k w hw rfl; exact hnot w hw
  cases v with
  | none =>
    refine ⟨fun _ => ⟨_, rfl, ?_⟩, fun hv => absurd trivial hv⟩
    refine ⟨?_, ?_, ?_, ?_, ?_, h.graphKeys, h.graphNe, nodup_keys_set h.constKeys _ _, h.varKeys, h.lazyKeys⟩
    · intro k c
      simp only [fresh_get, h.const, List.mem_append, List.mem_singleton, Prod.mk.injEq, reduceCtorEq, and_false, or_false,
        and_true]
      constructor
      · rintro (⟨rfl, rfl⟩ | ⟨_, h1⟩)
        · exact Or.inl ⟨Or.inr rfl, rfl⟩
        · tauto
      · rintro (⟨h1 | h1, h2⟩ | ⟨q, h1, h2⟩)
        · exact Or.inr ⟨hne _ _ h1, Or.inl ⟨h1, h2⟩⟩
        · exact Or.inl ⟨h1, h2⟩
        · exact Or.inr ⟨hne _ _ h1, Or.inr ⟨q, h1, h2⟩⟩
    · intro k c; simp [h.vars]
    · intro k c; simp [h.lazyDeps]
    · intro k; simp [h.roots]
    · intro k c; simp [h.edge]
  | num q =>
    refine ⟨fun _ => ⟨_, rfl, ?_⟩, fun hv => absurd trivial hv⟩
    refine ⟨?_, ?_, ?_, ?_, ?_, h.graphKeys, h.graphNe, nodup_keys_set h.constKeys _ _, h.varKeys, h.lazyKeys⟩
    · intro k c
      simp only [fresh_get, h.const, List.mem_append, List.mem_singleton, Prod.mk.injEq, reduceCtorEq, and_false, or_false,
        PVal.num.injEq]
      constructor
      · rintro (⟨rfl, rfl⟩ | ⟨_, h1 | ⟨q', h1, h2⟩⟩)
        · exact Or.inr ⟨q, Or.inr ⟨rfl, rfl⟩, rfl⟩
        · exact Or.inl h1
        · exact Or.inr ⟨q', Or.inl h1, h2⟩
      · rintro (⟨h1, h2⟩ | ⟨q', h1 | ⟨h1, h3⟩, h2⟩)
        · exact Or.inr ⟨hne _ _ h1, Or.inl ⟨h1, h2⟩⟩
        · exact Or.inr ⟨hne _ _ h1, Or.inr ⟨q', h1, h2⟩⟩
        · exact Or.inl ⟨h1, h3 ▸ h2⟩
    · intro k c; simp [h.vars]
    · intro k c; simp [h.lazyDeps]
    · intro k; simp [h.roots]
    · intro k c; simp [h.edge]
  | str s =>
    refine ⟨fun _ => ⟨_, rfl, ?_⟩, fun hv => absurd trivial hv⟩
    refine ⟨?_, ?_, ?_, ?_, ?_, h.graphKeys, h.graphNe, h.constKeys, h.varKeys, h.lazyKeys⟩
    · intro k c; simp [h.const]
    · intro k c; simp [h.vars]
    · intro k c; simp [h.lazyDeps]
    · intro k; simp [h.roots]
    · intro k c; simp [h.edge]
  | other => exact ⟨fun hv => hv.elim, fun _ => rfl⟩
  | dist b =>
    refine ⟨fun _ => ⟨_, rfl, ?_⟩, fun hv => absurd trivial hv⟩
    refine ⟨?_, ?_, ?_, ?_, ?_, h.graphKeys, h.graphNe, h.constKeys, nodup_keys_set h.varKeys _ _, h.lazyKeys⟩
    · intro k c; simp [h.const]
    · intro k m
      simp only [fresh_get, h.vars, List.mem_append, List.mem_singleton, Prod.mk.injEq, reduceCtorEq, and_false, or_false,
        PVal.dist.injEq]
      constructor
      · rintro (⟨rfl, rfl⟩ | ⟨_, ⟨b', h1, h2⟩ | h1⟩)
        · exact Or.inl ⟨b, Or.inr ⟨rfl, rfl⟩, rfl⟩
        · exact Or.inl ⟨b', Or.inl h1, h2⟩
        · exact Or.inr h1
      · rintro (⟨b', h1 | ⟨h1, h3⟩, h2⟩ | ⟨f, a, h1, h2⟩)
        · exact Or.inr ⟨hne _ _ h1, Or.inl ⟨b', h1, h2⟩⟩
        · exact Or.inl ⟨h1, h3 ▸ h2⟩
        · exact Or.inr ⟨hne _ _ h1, Or.inr ⟨f, a, h1, h2⟩⟩
    · intro k c; simp [h.lazyDeps]
    · intro k
      simp only [List.mem_append, h.roots, List.mem_singleton, Prod.mk.injEq, PVal.dist.injEq]
      constructor
      · rintro (⟨b', h1⟩ | rfl)
        · exact ⟨b', Or.inl h1⟩
        · exact ⟨b, Or.inr ⟨rfl, rfl⟩⟩
      · rintro ⟨b', h1 | h1⟩
        · exact Or.inl ⟨b', h1⟩
        · exact Or.inr h1.1
    · intro k c; simp [h.edge]
  | lazy ip f args =>
    cases ip with
    | false => exact ⟨fun hv => by simp [Valid] at hv, fun _ => rfl⟩
    | true =>
      cases args with
      | none => exact ⟨fun hv => by simp [Valid] at hv, fun _ => rfl⟩
      | some a =>
        have hE := edge_addEdges n (a.map (·.2)) st.graph h.graphKeys
        refine ⟨fun _ => ⟨_, rfl, ?_⟩, fun hv => absurd ⟨rfl, _, rfl⟩ hv⟩
        refine ⟨?_, ?_, ?_, ?_, ?_, hE.1, nonempty_addEdges _ _ _ h.graphNe, h.constKeys, nodup_keys_set h.varKeys _ _,
          nodup_keys_set h.lazyKeys _ _⟩
        · intro k c; simp [h.const]
        · intro k m
          simp only [fresh_get, h.vars, List.mem_append, List.mem_singleton, Prod.mk.injEq, reduceCtorEq, and_false, or_false,
            PVal.lazy.injEq, Option.some.injEq, true_and]
          constructor
          · rintro (⟨rfl, rfl⟩ | ⟨_, h1 | ⟨f', a', h1, h2⟩⟩)
            · exact Or.inr ⟨f, a, Or.inr ⟨rfl, rfl, rfl⟩, rfl⟩
            · exact Or.inl h1
            · exact Or.inr ⟨f', a', Or.inl h1, h2⟩
          · rintro (⟨b', h1, h2⟩ | ⟨f', a', h1 | ⟨h1, h3, h4⟩, h2⟩)
            · exact Or.inr ⟨hne _ _ h1, Or.inl ⟨b', h1, h2⟩⟩
            · exact Or.inr ⟨hne _ _ h1, Or.inr ⟨f', a', h1, h2⟩⟩
            · exact Or.inl ⟨h1, h3 ▸ h2⟩
        · intro k a'
          simp only [fresh_get, h.lazyDeps, List.mem_append, List.mem_singleton, Prod.mk.injEq,
            PVal.lazy.injEq, Option.some.injEq, true_and]
          constructor
          · rintro (⟨rfl, rfl⟩ | ⟨_, f', h1⟩)
            · exact ⟨f, Or.inr ⟨rfl, rfl, rfl⟩⟩
            · exact ⟨f', Or.inl h1⟩
          · rintro ⟨f', h1 | ⟨h1, h3, h4⟩⟩
            · exact Or.inr ⟨hne _ _ h1, f', h1⟩
            · exact Or.inl ⟨h1, h4⟩
        · intro k; simp [h.roots]
        · intro u w
          rw [hE.2 u w, h.edge]
          simp only [List.mem_append, List.mem_singleton, Prod.mk.injEq,
            PVal.lazy.injEq, Option.some.injEq, true_and, List.mem_map, Prod.exists, exists_eq_right]
          constructor
          · rintro (⟨f', a', p, h1, h2⟩ | ⟨⟨p, h1⟩, rfl⟩)
            · exact ⟨f', a', p, Or.inl h1, h2⟩
            · exact ⟨f, a, p, Or.inr ⟨rfl, rfl, rfl⟩, h1⟩
          · rintro ⟨f', a', p, h1 | ⟨h1, h3, h4⟩, h2⟩
            · exact Or.inl ⟨f', a', p, h1, h2⟩
            · subst h4; exact Or.inr ⟨⟨p, h2⟩, h1⟩

theorem pass1_spec (ps done : List (String × PVal α)) (st : Pass1 α) (h : Inv1 done st)
    (hn : (keys (done ++ ps)).Nodup) :
    ((∀ p ∈ ps, Valid p.2) → ∃ st', pass1 ps st = .ok st' ∧ Inv1 (done ++ ps) st') ∧
    ((∃ p ∈ ps, ¬ Valid p.2) → pass1 ps st = .error .valueError) := by
  induction ps generalizing done st with
  | nil => simp [pass1]; exact h
  | cons p ps ih =>
    have hp : p.1 ∉ done.map (·.1) := by
      simp only [keys, List.map_append, List.map_cons] at hn
      rw [List.nodup_append] at hn
      intro hin
      exact hn.2.2 _ hin p.1 (by simp) rfl
    obtain ⟨h1, h2⟩ := h.step p hp
    by_cases hv : Valid p.2
    · obtain ⟨st', e, h'⟩ := h1 hv
      obtain ⟨i1, i2⟩ := ih (done ++ [p]) st' h' (by simpa [List.append_assoc] using hn)
      simp only [pass1, e]
      constructor
      · intro hall
        obtain ⟨st'', e2, h''⟩ := i1 fun q hq => hall q (by simp [hq])
        exact ⟨st'', e2, by simpa [List.append_assoc] using h''⟩
      · rintro ⟨q, hq, hq'⟩
        rcases List.mem_cons.1 hq with rfl | hq
        · exact absurd hv hq'
        · exact i2 ⟨q, hq, hq'⟩
    · simp only [pass1, h2 hv]
      exact ⟨fun hall => absurd (hall p (by simp)) hv, fun _ => trivial⟩

/-! ## The second pass -/

structure Inv2 (st0 : Dict String (Option ℚ)) (vars : Dict String (Marg α)) (done : List (String × PVal α))
    (st : Dict String (Option ℚ) × Dict String String) : Prop where
  keep : ∀ k c, get? st0 k = some c → get? st.1 k = some c
  const : ∀ k c, get? st.1 k = some c → get? st0 k = some c ∨ ∃ t, (k, PVal.str t) ∈ done ∧ get? st.1 t = some c
  resolved : ∀ k t c, (k, PVal.str t) ∈ done → get? st0 t = some c → get? st.1 k = some c
  aliases : ∀ k t, get? st.2 k = some t ↔ (k, PVal.str t) ∈ done ∧ (get? vars t).isSome
  nodup : (keys st.2).Nodup

theorem Inv2.init (st0 : Dict String (Option ℚ)) (vars : Dict String (Marg α)) : Inv2 st0 vars [] (st0, []) := by
  refine ⟨fun _ _ h => h, fun _ _ h => Or.inl h, by simp, ?_, ?_⟩ <;> simp [get?, keys]

theorem Inv2.step {st0 : Dict String (Option ℚ)} {vars : Dict String (Marg α)} {params done : List (String × PVal α)}
    {st : Dict String (Option ℚ) × Dict String String} (h : Inv2 st0 vars done st) (p : String × PVal α)
    (hp : p.1 ∉ done.map (·.1)) (hparams : (keys params).Nodup) (hdone : ∀ q ∈ done, q ∈ params) (hpin : p ∈ params)
    (h0 : ∀ k c, get? st0 k = some c → ∃ w, (k, w) ∈ params ∧ ∀ t, w ≠ .str t)
    (hv : ∀ k m, get? vars k = some m → ∃ w, (k, w) ∈ params ∧ (∀ t, w ≠ .str t) ∧ get? st0 k = none) :
    Inv2 st0 vars (done ++ [p]) (pass2Step vars st p) := by
  obtain ⟨n, v⟩ := p
  have hnot : ∀ w, (n, w) ∉ done := fun w hw => hp (List.mem_map.2 ⟨_, hw, rfl⟩)
  have hne : ∀ k w, (k, w) ∈ done → k ≠ n := by rintro k w hw rfl; exact hnot w hw
  have same : (∀ t, v ≠ .str t) → Inv2 st0 vars (done ++ [(n, v)]) st := by
    intro hvs
    have hmem : ∀ k t, (k, PVal.str t) ∈ done ++ [(n, v)] ↔ (k, PVal.str t) ∈ done := by
      intro k t
      simp only [List.mem_append, List.mem_singleton, Prod.mk.injEq, or_iff_left_iff_imp]
      rintro ⟨_, rfl⟩
      exact absurd rfl (hvs t)
    refine ⟨h.keep, ?_, ?_, ?_, h.nodup⟩
    · intro k c hk
      rcases h.const k c hk with h1 | ⟨t, h1, h2⟩
      · exact Or.inl h1
      · exact Or.inr ⟨t, (hmem k t).2 h1, h2⟩
    · intro k t c hk hc; exact h.resolved k t c ((hmem k t).1 hk) hc
    · intro k t; rw [hmem, h.aliases]
  cases v with
  | none => exact same (by simp)
  | dist b => exact same (by simp)
  | lazy a b c => exact same (by simp)
  | num q => exact same (by simp)
  | other => exact same (by simp)
  | str t =>
    -- the name `n` is bound to a string only
    have huniq : ∀ w, (n, w) ∈ params → w = .str t := by
      intro w hw
      have := get?_of_mem hparams hw
      have h2 := get?_of_mem hparams hpin
      rw [this] at h2; simpa using h2
    have hn0 : get? st0 n = none := by
      cases hh : get? st0 n with
      | none => rfl
      | some c =>
        obtain ⟨w, hw, hw'⟩ := h0 n c hh
        exact absurd (huniq w hw) (hw' t)
    have hn1 : get? st.1 n = none := by
      cases hh : get? st.1 n with
      | none => rfl
      | some c =>
        rcases h.const n c hh with h1 | ⟨t', h1, _⟩
        · rw [hn0] at h1; cases h1
        · exact absurd h1 (hnot _)
    have hvc : ∀ k, (get? vars k).isSome → get? st.1 k = none := by
      intro k hk
      obtain ⟨m, hm⟩ := Option.isSome_iff_exists.1 hk
      obtain ⟨w, hw, hws, hk0⟩ := hv k m hm
      cases hh : get? st.1 k with
      | none => rfl
      | some c =>
        rcases h.const k c hh with h1 | ⟨t', h1, _⟩
        · rw [hk0] at h1; cases h1
        · exfalso
          have := get?_of_mem hparams hw
          rw [get?_of_mem hparams (hdone _ h1)] at this
          simp only [Option.some.injEq] at this
          exact hws t' this.symm
    show Inv2 st0 vars (done ++ [(n, .str t)])
      (match get? st.1 t with
        | some c => (set st.1 n c, st.2)
        | Option.none => if (get? vars t).isSome then (st.1, set st.2 n t) else st)
    cases ht : get? st.1 t with
    | some c =>
      have htn : t ≠ n := by rintro rfl; rw [hn1] at ht; cases ht
      have htv : (get? vars t).isSome = false := by
        by_contra hcon
        have := hvc t (by rwa [Bool.not_eq_false] at hcon)
        rw [ht] at this; cases this
      refine ⟨?_, ?_, ?_, ?_, h.nodup⟩
      · intro k c' hk
        have : k ≠ n := by rintro rfl; rw [hn0] at hk; cases hk
        simp only; rw [get?_set_ne _ _ this]; exact h.keep k c' hk
      · intro k c' hk
        simp only [fresh_get] at hk
        rcases hk with ⟨rfl, rfl⟩ | ⟨hkn, hk⟩
        · exact Or.inr ⟨t, by simp, by simp only; rw [get?_set_ne _ _ htn]; exact ht⟩
        · rcases h.const k c' hk with h1 | ⟨t', h1, h2⟩
          · exact Or.inl h1
          · refine Or.inr ⟨t', by simp [h1], ?_⟩
            have : t' ≠ n := by rintro rfl; rw [hn1] at h2; cases h2
            simp only; rw [get?_set_ne _ _ this]; exact h2
      · intro k t' c' hk hc'
        simp only [List.mem_append, List.mem_singleton, Prod.mk.injEq, PVal.str.injEq] at hk
        simp only [fresh_get]
        rcases hk with hk | ⟨rfl, rfl⟩
        · exact Or.inr ⟨hne _ _ hk, h.resolved k t' c' hk hc'⟩
        · left
          have := h.keep _ _ hc'
          rw [ht] at this
          exact ⟨rfl, by simpa using this.symm⟩
      · intro k t'
        simp only [h.aliases, List.mem_append, List.mem_singleton, Prod.mk.injEq, PVal.str.injEq]
        constructor
        · rintro ⟨h1, h2⟩; exact ⟨Or.inl h1, h2⟩
        · rintro ⟨h1 | ⟨rfl, rfl⟩, h2⟩
          · exact ⟨h1, h2⟩
          · rw [htv] at h2; cases h2
    | none =>
      have ht0 : get? st0 t = none := by
        cases hh : get? st0 t with
        | none => rfl
        | some c => rw [h.keep t c hh] at ht; cases ht
      by_cases hvt : (get? vars t).isSome
      · simp only [hvt, if_true]
        refine ⟨h.keep, ?_, ?_, ?_, nodup_keys_set h.nodup _ _⟩
        · intro k c' hk
          rcases h.const k c' hk with h1 | ⟨t', h1, h2⟩
          · exact Or.inl h1
          · exact Or.inr ⟨t', by simp [h1], h2⟩
        · intro k t' c' hk hc'
          simp only [List.mem_append, List.mem_singleton, Prod.mk.injEq, PVal.str.injEq] at hk
          rcases hk with hk | ⟨rfl, rfl⟩
          · exact h.resolved k t' c' hk hc'
          · rw [ht0] at hc'; cases hc'
        · intro k t'
          simp only [fresh_get, h.aliases, List.mem_append, List.mem_singleton, Prod.mk.injEq, PVal.str.injEq]
          constructor
          · rintro (⟨rfl, rfl⟩ | ⟨_, h1, h2⟩)
            · exact ⟨Or.inr ⟨rfl, rfl⟩, hvt⟩
            · exact ⟨Or.inl h1, h2⟩
          · rintro ⟨h1 | ⟨rfl, rfl⟩, h2⟩
            · exact Or.inr ⟨hne _ _ h1, h1, h2⟩
            · exact Or.inl ⟨rfl, rfl⟩
      · rw [if_neg hvt]
        refine ⟨h.keep, ?_, ?_, ?_, h.nodup⟩
        · intro k c' hk
          rcases h.const k c' hk with h1 | ⟨t', h1, h2⟩
          · exact Or.inl h1
          · exact Or.inr ⟨t', by simp [h1], h2⟩
        · intro k t' c' hk hc'
          simp only [List.mem_append, List.mem_singleton, Prod.mk.injEq, PVal.str.injEq] at hk
          rcases hk with hk | ⟨rfl, rfl⟩
          · exact h.resolved k t' c' hk hc'
          · rw [ht0] at hc'; cases hc'
        · intro k t'
          simp only [h.aliases, List.mem_append, List.mem_singleton, Prod.mk.injEq, PVal.str.injEq]
          constructor
          · rintro ⟨h1, h2⟩; exact ⟨Or.inl h1, h2⟩
          · rintro ⟨h1 | ⟨rfl, rfl⟩, h2⟩
            · exact ⟨h1, h2⟩
            · exact absurd h2 hvt

theorem pass2_spec {st0 : Dict String (Option ℚ)} {vars : Dict String (Marg α)} {params : List (String × PVal α)}
    (hparams : (keys params).Nodup)
    (h0 : ∀ k c, get? st0 k = some c → ∃ w, (k, w) ∈ params ∧ ∀ t, w ≠ .str t)
    (hv : ∀ k m, get? vars k = some m → ∃ w, (k, w) ∈ params ∧ (∀ t, w ≠ .str t) ∧ get? st0 k = none) :
    Inv2 st0 vars params (params.foldl (pass2Step vars) (st0, [])) := by
  have key : ∀ (ps done : List (String × PVal α)) st, done ++ ps = params → Inv2 st0 vars done st →
      Inv2 st0 vars params (ps.foldl (pass2Step vars) st) := by
    intro ps
    induction ps with
    | nil => intro done st h1 h2; rw [List.append_nil] at h1; subst h1; exact h2
    | cons p ps ih =>
      intro done st h1 h2
      rw [List.foldl_cons]
      refine ih (done ++ [p]) _ (by rw [← h1]; simp) (h2.step (params := params) p ?_ hparams ?_ ?_ h0 hv)
      · rw [← h1] at hparams
        simp only [keys, List.map_append, List.map_cons] at hparams
        rw [List.nodup_append] at hparams
        intro hin
        exact hparams.2.2 _ hin p.1 (by simp) rfl
      · intro q hq; rw [← h1]; simp [hq]
      · rw [← h1]; simp
  exact key params [] _ rfl (.init _ _)

end GW.Guru

namespace GW.Guru
open GW PyDict Tools
open GW.Joint (Base)
open GW.Lazy (Marg)
open GW.Graph (Edge IsNode Before Cyclic)

variable {α : Type}

/-! ## The lazy order -/

theorem transGen_congr {β : Type} {r s : β → β → Prop} (h : ∀ a b, r a b ↔ s a b) (a b : β) :
    Relation.TransGen r a b ↔ Relation.TransGen s a b := by
  have : r = s := by funext a b; exact propext (h a b)
  rw [this]

theorem lazyOrder_spec {ord : List String → List String} (hord : ∀ l, (ord l).Perm l) {params : List (String × PVal α)}
    {st : Pass1 α} (h : Inv1 params st) :
    (Cyclic st.graph → lazyOrder ord st = .error .valueError) ∧
    (¬ Cyclic st.graph → ∃ r, lazyOrder ord st = .ok r ∧ r.Nodup ∧
      (∀ x, x ∈ r ↔ (∃ y, Edge st.graph x y ∨ Edge st.graph y x) ∧ x ∉ st.roots) ∧
      ∀ u v, Edge st.graph u v → u ∈ st.roots ∨ v ∈ st.roots ∨ Before r u v) := by
  unfold lazyOrder
  by_cases he : st.lazyDeps.isEmpty
  · rw [if_pos he]
    have hno : ∀ u v, ¬ Edge st.graph u v := by
      intro u v huv
      obtain ⟨f, a, p, h1, -⟩ := (h.edge u v).1 huv
      have := (h.lazyDeps v a).2 ⟨f, h1⟩
      rw [List.isEmpty_iff] at he
      rw [he] at this; simp [get?] at this
    refine ⟨?_, fun _ => ⟨[], rfl, by simp, ?_, ?_⟩⟩
    · rintro ⟨x, hx⟩
      obtain ⟨y, hy, -⟩ := (Relation.TransGen.head'_iff).1 hx
      exact absurd hy (hno _ _)
    · intro x; simp [hno]
    · intro u v huv; exact absurd huv (hno _ _)
  · rw [if_neg he]
    set g := st.graph.map fun p => (p.1, ord p.2) with hgdef
    have hg : (keys g).Nodup := by
      have : keys g = keys st.graph := by simp [hgdef, keys, Function.comp_def]
      rw [this]; exact h.graphKeys
    have hE : ∀ u v, Edge g u v ↔ Edge st.graph u v := edge_ord hord st.graph
    have hcyc : Cyclic g ↔ Cyclic st.graph := by
      unfold Cyclic
      exact exists_congr fun x => transGen_congr hE x x
    obtain ⟨b, hb1, hb2⟩ := Graph.checkCycles_spec hg
    obtain ⟨r, hr1, hr2, hr3, hr4⟩ := Graph.topologicalSort_spec hg
    simp only [hb1, hr1]
    constructor
    · intro hc
      have : b = true := hb2.2 (hcyc.2 hc)
      subst this; rfl
    · intro hc
      have hc' : ¬ Cyclic g := fun hh => hc (hcyc.1 hh)
      have : b = false := by cases b with
        | false => rfl
        | true => exact absurd (hb2.1 rfl) hc'
      subst this
      refine ⟨_, rfl, hr2.filter _, ?_, ?_⟩
      · intro x
        rw [List.mem_filter, hr3, Graph.mem_names_iff]
        simp only [decide_eq_true_eq]
        refine and_congr_left fun _ => ?_
        unfold IsNode
        constructor
        · rintro (⟨l, hl⟩ | ⟨u, hu⟩)
          · obtain ⟨p, hp, hpe⟩ := List.mem_map.1 hl
            simp only [Prod.mk.injEq] at hpe
            obtain ⟨y, hy⟩ := List.exists_mem_of_ne_nil _ (h.graphNe p hp)
            exact ⟨y, Or.inl ⟨p.2, by rw [← hpe.1]; exact hp, hy⟩⟩
          · exact ⟨u, Or.inr ((hE u x).1 hu)⟩
        · rintro ⟨y, hy | hy⟩
          · obtain ⟨l, hl, -⟩ := (hE x y).2 hy
            exact Or.inl ⟨l, hl⟩
          · exact Or.inr ⟨y, (hE y x).2 hy⟩
      · intro u v huv
        by_cases hu : u ∈ st.roots
        · exact Or.inl hu
        by_cases hv : v ∈ st.roots
        · exact Or.inr (Or.inl hv)
        right; right
        have huv' := (hE u v).2 huv
        have hur : u ∈ r.reverse := by
          rw [List.mem_reverse, hr3, Graph.mem_names_iff]
          obtain ⟨l, hl, -⟩ := huv'
          exact Or.inl ⟨l, hl⟩
        obtain ⟨a, b, hab⟩ := List.append_of_mem hur
        have hvin := hr4 hc' a u b hab v huv'
        obtain ⟨c, d, rfl⟩ := List.append_of_mem hvin
        have hr : r = b.reverse ++ u :: d.reverse ++ v :: c.reverse := by
          rw [← List.reverse_reverse r, hab]; simp
        refine ⟨(b.reverse).filter (fun v => v ∉ st.roots), (d.reverse).filter (fun v => v ∉ st.roots),
          (c.reverse).filter (fun v => v ∉ st.roots), ?_⟩
        rw [hr, List.filter_append, List.filter_append, List.filter_cons_of_pos (by simpa using hu),
          List.filter_cons_of_pos (by simpa using hv)]

/-! ## Indices -/

theorem indexAll_ok {names ks : List String} {r : List Nat} (h : indexAll names ks = .ok r) :
    r = ks.map names.idxOf ∧ ∀ k ∈ ks, k ∈ names := by
  induction ks generalizing r with
  | nil => simp [indexAll] at h; subst h; simp
  | cons k ks ih =>
    simp only [indexAll, indexOf] at h
    split_ifs at h with hk
    · simp only at h
      cases h' : indexAll names ks with
      | error e => simp [h'] at h
      | ok r' =>
        simp [h'] at h
        obtain ⟨h1, h2⟩ := ih h'
        subst h
        simp [h1, hk]
        exact h2

theorem indexDeps_ok {names : List String} {ds : List (String × String)} {r : List (String × Nat)}
    (h : indexDeps names ds = .ok r) : r = ds.map (fun p => (p.1, names.idxOf p.2)) ∧ ∀ p ∈ ds, p.2 ∈ names := by
  induction ds generalizing r with
  | nil => simp [indexDeps] at h; subst h; simp
  | cons d ds ih =>
    obtain ⟨k, v⟩ := d
    simp only [indexDeps, indexOf] at h
    split_ifs at h with hk
    · simp only at h
      cases h' : indexDeps names ds with
      | error e => simp [h'] at h
      | ok r' =>
        simp [h'] at h
        obtain ⟨h1, h2⟩ := ih h'
        subst h
        refine ⟨by simp [h1], ?_⟩
        intro p hp
        rcases List.mem_cons.1 hp with rfl | hp
        · exact hk
        · exact h2 p hp

theorem indexLazy_ok {names : List String} {ls : List (String × Dict String String)} {r : List (Nat × List (String × Nat))}
    (h : indexLazy names ls = .ok r) :
    r = ls.map (fun p => (names.idxOf p.1, p.2.map fun q => (q.1, names.idxOf q.2))) ∧
      ∀ p ∈ ls, p.1 ∈ names ∧ ∀ q ∈ p.2, q.2 ∈ names := by
  induction ls generalizing r with
  | nil => simp [indexLazy] at h; subst h; simp
  | cons d ls ih =>
    obtain ⟨k, deps⟩ := d
    simp only [indexLazy] at h
    cases h1 : indexOf names k with
    | error e => simp [h1] at h
    | ok i =>
      cases h2 : indexDeps names deps with
      | error e => simp [h1, h2] at h
      | ok dd =>
        cases h3 : indexLazy names ls with
        | error e => simp [h1, h2, h3] at h
        | ok r' =>
          simp [h1, h2, h3] at h
          subst h
          obtain ⟨i1, i2⟩ := ih h3
          obtain ⟨j1, j2⟩ := indexDeps_ok h2
          have hk : k ∈ names ∧ names.idxOf k = i := by
            unfold indexOf at h1
            split_ifs at h1 with hk
            exact ⟨hk, by simpa using h1⟩
          refine ⟨by simp [i1, j1, hk.2], ?_⟩
          intro p hp
          rcases List.mem_cons.1 hp with rfl | hp
          · exact ⟨hk.1, j2⟩
          · exact i2 p hp

theorem get?_enumerate {i : Nat} {names : List String} (hn : names.Nodup) (k : String) (j : Nat) :
    get? (enumerate i names) k = some j ↔ i ≤ j ∧ names[j - i]? = some k := by
  induction names generalizing i with
  | nil => simp [enumerate, get?]
  | cons n names ih =>
    rw [List.nodup_cons] at hn
    simp only [enumerate, get?]
    split_ifs with h
    · subst h
      constructor
      · intro h; simp at h; subst h; simp
      · rintro ⟨h1, h2⟩
        rcases Nat.eq_or_lt_of_le h1 with rfl | h1
        · rfl
        · rw [show j - i = (j - i - 1) + 1 by omega, List.getElem?_cons_succ] at h2
          exact absurd (List.mem_of_getElem? h2) hn.1
    · rw [ih hn.2]
      constructor
      · rintro ⟨h1, h2⟩
        refine ⟨by omega, ?_⟩
        rw [show j - i = (j - (i + 1)) + 1 by omega, List.getElem?_cons_succ]; exact h2
      · rintro ⟨h1, h2⟩
        rcases Nat.eq_or_lt_of_le h1 with rfl | h1
        · simp at h2; exact absurd h2 h
        · refine ⟨by omega, ?_⟩
          rw [show j - i = (j - (i + 1)) + 1 by omega, List.getElem?_cons_succ] at h2; exact h2

theorem foldl_aliasStep_error (as : List (String × String)) (e : Err) :
    as.foldl aliasStep (.error e) = .error e := by
  induction as with
  | nil => rfl
  | cons a as ih => rw [List.foldl_cons]; exact ih

theorem aliases_ok {as : Dict String String} (hn : (keys as).Nodup) {ix ix' : Dict String Nat}
    (hno : ∀ k t, get? as k = some t → get? ix k = none ∧ get? as t = none)
    (h : as.foldl aliasStep (.ok ix) = .ok ix') (k : String) :
    get? ix' k = match get? as k with
      | some t => get? ix t
      | none => get? ix k := by
  induction as generalizing ix with
  | nil => simp at h; subst h; simp [get?]
  | cons a as ih =>
    obtain ⟨n, t⟩ := a
    have hn' := hn
    simp only [keys, List.map_cons, List.nodup_cons] at hn
    rw [List.foldl_cons] at h
    simp only [aliasStep] at h
    cases ht : get? ix t with
    | none => simp only [ht] at h; rw [foldl_aliasStep_error] at h; cases h
    | some i =>
      simp only [ht] at h
      have hself := hno n t (by simp [get?])
      have htn : t ≠ n := by rintro rfl; rw [hself.1] at ht; cases ht
      have hmem : ∀ k t', get? as k = some t' → k ≠ n := by
        rintro k t' hk rfl
        exact hn.1 (List.mem_map.2 ⟨_, mem_of_get? hk, rfl⟩)
      have hget : ∀ k, k ≠ n → get? ((n, t) :: as) k = get? as k := by
        intro k hk; simp [get?, hk.symm]
      have := ih hn.2 (ix := PyDict.set ix n i) (by
        intro k' t' hk'
        have hk'n := hmem k' t' hk'
        have h2 := hno k' t' (by rw [hget k' hk'n]; exact hk')
        refine ⟨by rw [get?_set_ne _ _ hk'n]; exact h2.1, ?_⟩
        by_cases htn' : t' = n
        · subst htn'; rw [get?_eq_none_iff]; exact hn.1
        · rw [hget t' htn'] at h2; exact h2.2) h
      rw [this]
      by_cases hk : k = n
      · subst hk
        have : get? as k = none := by rw [get?_eq_none_iff]; exact hn.1
        rw [this]
        simp only [get?, if_true]
        rw [get?_set_self, ht]
      · rw [hget k hk]
        cases hak : get? as k with
        | none => simp only; rw [get?_set_ne _ _ hk]
        | some t' =>
          simp only
          have : t' ≠ n := by
            rintro rfl
            have h2 := hno k t' (by rw [hget k hk]; exact hak)
            simp [get?] at h2
          rw [get?_set_ne _ _ this]

end GW.Guru
