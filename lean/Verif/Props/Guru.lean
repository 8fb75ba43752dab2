import Verif.Lemmas.Guru
import Verif.Spec.Lazy

/-!
# C35: roles of model parameters, indices and the lazy prior handed to the sampler

`params` is the processed prior table (a dictionary: names are distinct) and `ord` an arbitrary set-iteration order.
-/

namespace GW.Guru
open GW PyDict Tools
open GW.Joint (Base)
open GW.Lazy (Marg)
open GW.Graph (Edge Before Cyclic)

variable {α : Type}

/-- `v` is lazily defined and names `u` as one of its dependencies. -/
def DependsOn (params : Dict String (PVal α)) (v u : String) : Prop :=
  ∃ ip f a p, (v, PVal.lazy ip f (some a)) ∈ params ∧ (p, u) ∈ a

/-- Specification of the roles of the parameters of a table. -/
structure Roles (params : Dict String (PVal α)) (c : Classified α) : Prop where
  /-- `None` and numbers are constants with that value. -/
  null : ∀ n, (n, PVal.none) ∈ params → get? c.constants n = some none
  number : ∀ n q, (n, PVal.num q) ∈ params → get? c.constants n = some (some q)
  /-- Distributions and lazy distributions are variables. -/
  dist : ∀ n b, (n, PVal.dist b) ∈ params → get? c.vars n = some (.dist b)
  lazy : ∀ n ip f args, (n, PVal.lazy ip f args) ∈ params →
    ∃ a, args = some a ∧ get? c.vars n = some (.part f) ∧ get? c.lazyDeps n = some a
  /-- A name bound to the name of a constant gets that constant's value. -/
  aliasNull : ∀ n t, (n, PVal.str t) ∈ params → (t, PVal.none) ∈ params → get? c.constants n = some none
  aliasNumber : ∀ n t q, (n, PVal.str t) ∈ params → (t, PVal.num q) ∈ params → get? c.constants n = some (some q)
  aliasValue : ∀ n t v, (n, PVal.str t) ∈ params → get? c.constants n = some v → get? c.constants t = some v
  /-- A name bound to the name of a variable, and no other, is an alias of it. -/
  aliasVar : ∀ n t, get? c.aliases n = some t ↔ (n, PVal.str t) ∈ params ∧ t ∈ keys c.vars
  /-- No name has two roles. -/
  constNotVar : ∀ n, n ∈ keys c.constants → n ∉ keys c.vars
  constNotAlias : ∀ n, n ∈ keys c.constants → n ∉ keys c.aliases
  varNotAlias : ∀ n, n ∈ keys c.vars → n ∉ keys c.aliases
  /-- No name has a role without being a parameter. -/
  known : ∀ n, n ∈ keys c.constants ∨ n ∈ keys c.vars ∨ n ∈ keys c.aliases → n ∈ keys params

theorem unique_value {params : Dict String (PVal α)} (hn : (keys params).Nodup) {n : String} {v w : PVal α}
    (h1 : (n, v) ∈ params) (h2 : (n, w) ∈ params) : v = w := by
  have := get?_of_mem hn h1
  rw [get?_of_mem hn h2] at this
  simpa using this.symm

/-- The state of the first pass and the invariant of the second, for an accepted table. -/
theorem classify_ok {ord : List String → List String} {params : Dict String (PVal α)} (hn : (keys params).Nodup)
    {c : Classified α} (h : classify ord params = .ok c) :
    ∃ st, Inv1 params st ∧ c.vars = st.vars ∧ c.lazyDeps = st.lazyDeps ∧ lazyOrder ord st = .ok c.lazyOrder ∧
      Inv2 st.constants st.vars params (c.constants, c.aliases) := by
  unfold classify at h
  obtain ⟨h1, h2⟩ := pass1_spec params [] {} Inv1.init (by simpa using hn)
  by_cases hv : ∀ p ∈ params, Valid p.2
  · obtain ⟨st, e, hst⟩ := h1 hv
    rw [List.nil_append] at hst
    simp only [e] at h
    cases hl : lazyOrder ord st with
    | error e => simp [hl] at h
    | ok order =>
      simp only [hl, Except.ok.injEq] at h
      subst h
      refine ⟨st, hst, rfl, rfl, hl, ?_⟩
      refine pass2_spec hn ?_ ?_
      · intro k c hk
        rcases (hst.const k c).1 hk with ⟨h3, -⟩ | ⟨q, h3, -⟩
        · exact ⟨_, h3, by simp⟩
        · exact ⟨_, h3, by simp⟩
      · intro k m hm
        have hno : ∀ w, (k, w) ∈ params → (w = .none → False) → (∀ q, w = .num q → False) →
            get? st.constants k = none := by
          intro w hw hw1 hw2
          cases hc : get? st.constants k with
          | none => rfl
          | some c =>
            rcases (hst.const k c).1 hc with ⟨h3, -⟩ | ⟨q, h3, -⟩
            · exact (hw1 (unique_value hn hw h3)).elim
            · exact (hw2 q (unique_value hn hw h3)).elim
        rcases (hst.vars k m).1 hm with ⟨b, h3, -⟩ | ⟨f, a, h3, -⟩
        · exact ⟨_, h3, by simp, hno _ h3 (by simp) (by simp)⟩
        · exact ⟨_, h3, by simp, hno _ h3 (by simp) (by simp)⟩
  · push Not at hv
    simp [h2 hv] at h

/-- C35: every accepted table is classified according to `Roles`: one role per name, the value or variable it was given. -/
theorem C35_roles (ord : List String → List String) (params : Dict String (PVal α)) (hn : (keys params).Nodup)
    (c : Classified α) (h : classify ord params = .ok c) : Roles params c := by
  obtain ⟨st, h1, hvars, hlazy, -, h2⟩ := classify_ok hn h
  have hconst : ∀ n v, get? st.constants n = some v → get? c.constants n = some v := h2.keep
  have hck : ∀ n, n ∈ keys c.constants → ∃ w, (n, w) ∈ params ∧ (w = .none ∨ (∃ q, w = .num q) ∨ ∃ t, w = .str t ∧
      t ∈ keys c.constants) := by
    intro n hnk
    rw [mem_keys_iff, Option.isSome_iff_exists] at hnk
    obtain ⟨v, hv⟩ := hnk
    rcases h2.const n v hv with h3 | ⟨t, h3, h4⟩
    · rcases (h1.const n v).1 h3 with ⟨h5, -⟩ | ⟨q, h5, -⟩
      · exact ⟨_, h5, Or.inl rfl⟩
      · exact ⟨_, h5, Or.inr (Or.inl ⟨q, rfl⟩)⟩
    · refine ⟨_, h3, Or.inr (Or.inr ⟨t, rfl, ?_⟩)⟩
      rw [mem_keys_iff]; simp only at h4; rw [h4]; rfl
  have hvk : ∀ n, n ∈ keys c.vars → ∃ w, (n, w) ∈ params ∧ ((∃ b, w = .dist b) ∨ ∃ f a, w = .lazy true f (some a)) := by
    intro n hnk
    rw [hvars, mem_keys_iff, Option.isSome_iff_exists] at hnk
    obtain ⟨v, hv⟩ := hnk
    rcases (h1.vars n v).1 hv with ⟨b, h3, -⟩ | ⟨f, a, h3, -⟩
    · exact ⟨_, h3, Or.inl ⟨b, rfl⟩⟩
    · exact ⟨_, h3, Or.inr ⟨f, a, rfl⟩⟩
  have halias : ∀ n t, get? c.aliases n = some t ↔ (n, PVal.str t) ∈ params ∧ t ∈ keys c.vars := by
    intro n t
    rw [hvars, mem_keys_iff]
    exact h2.aliases n t
  have hak : ∀ n, n ∈ keys c.aliases → ∃ t, (n, PVal.str t) ∈ params ∧ t ∈ keys c.vars := by
    intro n hnk
    rw [mem_keys_iff, Option.isSome_iff_exists] at hnk
    obtain ⟨t, ht⟩ := hnk
    exact ⟨t, (halias n t).1 ht⟩
  have hcv : ∀ n, n ∈ keys c.constants → n ∉ keys c.vars := by
    intro n hc hv
    obtain ⟨w, hw, h3⟩ := hck n hc
    obtain ⟨w', hw', h4⟩ := hvk n hv
    have := unique_value hn hw hw'
    subst this
    rcases h3 with rfl | ⟨q, rfl⟩ | ⟨t, rfl, -⟩ <;> rcases h4 with ⟨b, h4⟩ | ⟨f, a, h4⟩ <;> cases h4
  refine ⟨?_, ?_, ?_, ?_, ?_, ?_, ?_, halias, hcv, ?_, ?_, ?_⟩
  · intro n hm; exact hconst n _ ((h1.const n _).2 (Or.inl ⟨hm, rfl⟩))
  · intro n q hm; exact hconst n _ ((h1.const n _).2 (Or.inr ⟨q, hm, rfl⟩))
  · intro n b hm; rw [hvars]; exact (h1.vars n _).2 (Or.inl ⟨b, hm, rfl⟩)
  · intro n ip f args hm
    have hvalid : Valid (PVal.lazy ip f args) := by
      by_contra hcon
      have := (pass1_spec params [] {} Inv1.init (by simpa using hn)).2 ⟨_, hm, hcon⟩
      unfold classify at h
      simp [this] at h
    obtain ⟨rfl, a, rfl⟩ := hvalid
    exact ⟨a, rfl, by rw [hvars]; exact (h1.vars n _).2 (Or.inr ⟨f, a, hm, rfl⟩),
      by rw [hlazy]; exact (h1.lazyDeps n a).2 ⟨f, hm⟩⟩
  · intro n t hm ht; exact h2.resolved n t _ hm ((h1.const t _).2 (Or.inl ⟨ht, rfl⟩))
  · intro n t q hm ht; exact h2.resolved n t _ hm ((h1.const t _).2 (Or.inr ⟨q, ht, rfl⟩))
  · intro n t v hm hv
    rcases h2.const n v hv with h3 | ⟨t', h3, h4⟩
    · rcases (h1.const n v).1 h3 with ⟨h5, -⟩ | ⟨q, h5, -⟩ <;> cases unique_value hn hm h5
    · have := unique_value hn hm h3
      simp only [PVal.str.injEq] at this
      subst this; exact h4
  · intro n hc ha
    obtain ⟨w, hw, h3⟩ := hck n hc
    obtain ⟨t, ht, htv⟩ := hak n ha
    have := unique_value hn hw ht
    subst this
    rcases h3 with h3 | ⟨q, h3⟩ | ⟨t', h3, h4⟩
    · cases h3
    · cases h3
    · simp only [PVal.str.injEq] at h3
      subst h3
      exact hcv t h4 htv
  · intro n hv ha
    obtain ⟨w, hw, h3⟩ := hvk n hv
    obtain ⟨t, ht, -⟩ := hak n ha
    have := unique_value hn hw ht
    subst this
    rcases h3 with ⟨b, h3⟩ | ⟨f, a, h3⟩ <;> cases h3
  · rintro n (hc | hv | ha)
    · obtain ⟨w, hw, -⟩ := hck n hc; exact List.mem_map.2 ⟨_, hw, rfl⟩
    · obtain ⟨w, hw, -⟩ := hvk n hv; exact List.mem_map.2 ⟨_, hw, rfl⟩
    · obtain ⟨w, hw, -⟩ := hak n ha; exact List.mem_map.2 ⟨_, hw, rfl⟩

/-- C35: a table is rejected (`ValueError`) exactly when some value is of an unsupported kind, some lazy prior is malformed,
or the lazy priors depend on each other in a circle. -/
theorem C35_rejected_iff_bad_or_cyclic (ord : List String → List String) (hord : ∀ l, (ord l).Perm l)
    (params : Dict String (PVal α)) (hn : (keys params).Nodup) :
    (∃ e, classify ord params = .error e) ↔
      (∃ n, (n, PVal.other) ∈ params) ∨
      (∃ n ip f args, (n, PVal.lazy ip f args) ∈ params ∧ (ip = false ∨ args = none)) ∨
      ∃ x, Relation.TransGen (DependsOn params) x x := by
  obtain ⟨h1, h2⟩ := pass1_spec params [] {} Inv1.init (by simpa using hn)
  by_cases hv : ∀ p ∈ params, Valid p.2
  · obtain ⟨st, e, hst⟩ := h1 hv
    rw [List.nil_append] at hst
    have hdep : ∀ u v, Edge st.graph u v ↔ DependsOn params v u := by
      intro u v
      rw [hst.edge]
      constructor
      · rintro ⟨f, a, p, h3, h4⟩; exact ⟨true, f, a, p, h3, h4⟩
      · rintro ⟨ip, f, a, p, h3, h4⟩
        have := (hv _ h3).1
        subst this
        exact ⟨f, a, p, h3, h4⟩
    have hcyc : Cyclic st.graph ↔ ∃ x, Relation.TransGen (DependsOn params) x x := by
      unfold Cyclic
      refine exists_congr fun x => ?_
      rw [transGen_congr hdep]
      exact Relation.transGen_swap
    obtain ⟨h3, h4⟩ := lazyOrder_spec hord hst
    have hright : ((∃ n, (n, PVal.other) ∈ params) ∨
      (∃ n ip f args, (n, PVal.lazy ip f args) ∈ params ∧ (ip = false ∨ args = none)) ∨
      ∃ x, Relation.TransGen (DependsOn params) x x) ↔ Cyclic st.graph := by
      rw [hcyc]
      constructor
      · rintro (⟨n, hm⟩ | ⟨n, ip, f, args, hm, h5⟩ | h5)
        · exact (hv _ hm).elim
        · obtain ⟨rfl, a, rfl⟩ := hv _ hm
          rcases h5 with h5 | h5 <;> cases h5
        · exact h5
      · exact fun h => Or.inr (Or.inr h)
    rw [hright]
    unfold classify
    simp only [e]
    by_cases hc : Cyclic st.graph
    · simp [h3 hc, hc]
    · obtain ⟨r, hr, -⟩ := h4 hc
      simp [hr, hc]
  · push Not at hv
    have he := h2 hv
    unfold classify
    simp only [he]
    constructor
    · intro _
      obtain ⟨p, hp, hp'⟩ := hv
      obtain ⟨n, v⟩ := p
      cases v with
      | other => exact Or.inl ⟨n, hp⟩
      | lazy ip f args =>
        refine Or.inr (Or.inl ⟨n, ip, f, args, hp, ?_⟩)
        cases ip with
        | false => exact Or.inl rfl
        | true =>
          cases args with
          | none => exact Or.inr rfl
          | some a => exact absurd ⟨rfl, a, rfl⟩ hp'
      | none => exact absurd trivial hp'
      | dist b => exact absurd trivial hp'
      | num q => exact absurd trivial hp'
      | str s => exact absurd trivial hp'
    · intro _; exact ⟨_, rfl⟩

/-- C35 (partial): if every alias names a parameter that is not itself an alias, every parameter has a role. -/
theorem C35_nothing_dropped_partial (ord : List String → List String) (params : Dict String (PVal α))
    (hn : (keys params).Nodup) (c : Classified α) (h : classify ord params = .ok c)
    (hal : ∀ n t, (n, PVal.str t) ∈ params → ∃ v, (t, v) ∈ params ∧ ∀ s, v ≠ .str s) (n : String) (hin : n ∈ keys params) :
    n ∈ keys c.constants ∨ n ∈ keys c.vars ∨ n ∈ keys c.aliases := by
  have hR := C35_roles ord params hn c h
  obtain ⟨⟨n', v⟩, hm, rfl⟩ := List.mem_map.1 hin
  have some_const : ∀ m w, get? c.constants m = some w → m ∈ keys c.constants := by
    intro m w hw; rw [mem_keys_iff, hw]; rfl
  have some_var : ∀ m w, get? c.vars m = some w → m ∈ keys c.vars := by
    intro m w hw; rw [mem_keys_iff, hw]; rfl
  have no_other : ∀ m, (m, PVal.other) ∉ params := by
    intro m hm'
    have := (pass1_spec params [] {} Inv1.init (by simpa using hn)).2 ⟨_, hm', by simp [Valid]⟩
    unfold classify at h
    simp [this] at h
  cases v with
  | none => exact Or.inl (some_const _ _ (hR.null _ hm))
  | num q => exact Or.inl (some_const _ _ (hR.number _ q hm))
  | dist b => exact Or.inr (Or.inl (some_var _ _ (hR.dist _ b hm)))
  | lazy ip f args =>
    obtain ⟨a, -, h2, -⟩ := hR.lazy _ _ _ _ hm
    exact Or.inr (Or.inl (some_var _ _ h2))
  | other => exact absurd hm (no_other _)
  | str t =>
    obtain ⟨v, hv, hvs⟩ := hal _ t hm
    have hal' : t ∈ keys c.vars → n' ∈ keys c.aliases := by
      intro ht
      rw [mem_keys_iff, (hR.aliasVar n' t).2 ⟨hm, ht⟩]; rfl
    cases v with
    | none => exact Or.inl (some_const _ _ (hR.aliasNull _ t hm hv))
    | num q => exact Or.inl (some_const _ _ (hR.aliasNumber _ t q hm hv))
    | dist b => exact Or.inr (Or.inr (hal' (some_var _ _ (hR.dist _ b hv))))
    | lazy ip f args =>
      obtain ⟨a, -, h2, -⟩ := hR.lazy _ _ _ _ hv
      exact Or.inr (Or.inr (hal' (some_var _ _ h2)))
    | other => exact absurd hv (no_other _)
    | str s => exact absurd rfl (hvs s)

/-- C35 fails for aliases of aliases and for aliases of unknown names: the parameter silently gets no role at all, although the
same chain the other way round (target first) is resolved when it ends in a constant. -/
theorem C35_alias_chain_dropped_violated :
    ∃ (params params' : Dict String (PVal ℚ)) (c c' : Classified ℚ), params'.Perm params ∧ (keys params).Nodup ∧
      classify id params = .ok c ∧ classify id params' = .ok c' ∧
      "a" ∈ keys params ∧ "a" ∉ keys c.constants ∧ "a" ∉ keys c.vars ∧ "a" ∉ keys c.aliases ∧
      get? c'.constants "a" = some (some 3) := by
  refine ⟨[("a", .str "b"), ("b", .str "k"), ("k", .num 3)], [("b", .str "k"), ("a", .str "b"), ("k", .num 3)],
    ⟨[("k", some 3), ("b", some 3)], [], [], [], []⟩, ⟨[("k", some 3), ("b", some 3), ("a", some 3)], [], [], [], []⟩,
    List.Perm.swap _ _ _, by decide, ?_, ?_, ?_⟩
  · rfl
  · rfl
  · decide

/-- C35: the lazy order of an accepted table has no repetitions, contains every lazy variable that has dependencies, and
places each such variable after all its dependencies, except those that are ordinary distributions. -/
theorem C35_lazy_order (ord : List String → List String) (hord : ∀ l, (ord l).Perm l) (params : Dict String (PVal α))
    (hn : (keys params).Nodup) (c : Classified α) (h : classify ord params = .ok c) :
    c.lazyOrder.Nodup ∧
    (∀ v, (∃ u, DependsOn params v u) → v ∈ c.lazyOrder) ∧
    (∀ x ∈ c.lazyOrder, (∃ y, DependsOn params x y ∨ DependsOn params y x) ∧ ∀ b, (x, PVal.dist b) ∉ params) ∧
    ∀ v u, DependsOn params v u → (∃ b, (u, PVal.dist b) ∈ params) ∨ Before c.lazyOrder u v := by
  obtain ⟨st, h1, -, -, hlo, -⟩ := classify_ok hn h
  have hval : ∀ v ip f a, (v, PVal.lazy ip f (some a)) ∈ params → ip = true := by
    intro v ip f a hm
    by_contra hcon
    have := (pass1_spec params [] {} Inv1.init (by simpa using hn)).2 ⟨_, hm, by simp [Valid, hcon]⟩
    unfold classify at h
    simp [this] at h
  have hdep : ∀ u v, Edge st.graph u v ↔ DependsOn params v u := by
    intro u v
    rw [h1.edge]
    constructor
    · rintro ⟨f, a, p, h3, h4⟩; exact ⟨true, f, a, p, h3, h4⟩
    · rintro ⟨ip, f, a, p, h3, h4⟩
      have := hval _ _ _ _ h3
      subst this
      exact ⟨f, a, p, h3, h4⟩
  have hvroot : ∀ v u, DependsOn params v u → v ∉ st.roots := by
    rintro v u ⟨ip, f, a, p, h3, h4⟩ hr
    obtain ⟨b, hb⟩ := (h1.roots v).1 hr
    cases unique_value hn h3 hb
  obtain ⟨h3, h4⟩ := lazyOrder_spec hord h1
  by_cases hc : Cyclic st.graph
  · rw [h3 hc] at hlo; cases hlo
  obtain ⟨r, hr, h5, h6, h7⟩ := h4 hc
  rw [hr, Except.ok.injEq] at hlo
  subst hlo
  refine ⟨h5, ?_, ?_, ?_⟩
  · rintro v ⟨u, hu⟩
    exact (h6 v).2 ⟨⟨u, Or.inr ((hdep u v).2 hu)⟩, hvroot v u hu⟩
  · intro x hx
    obtain ⟨⟨y, hy⟩, hxr⟩ := (h6 x).1 hx
    refine ⟨⟨y, ?_⟩, fun b hb => hxr ((h1.roots x).2 ⟨b, hb⟩)⟩
    rw [hdep, hdep] at hy
    exact hy.symm
  · intro v u hu
    rcases h7 u v ((hdep u v).2 hu) with h8 | h8 | h8
    · exact Or.inl ((h1.roots u).1 h8)
    · exact absurd h8 (hvroot v u hu)
    · exact Or.inr h8

/-- The set-up of an accepted table, unfolded. -/
theorem setup_ok {ord : List String → List String} {params : Dict String (PVal α)} {extra : Dict String (Option ℚ)}
    {s : Setup α} (h : setup ord params extra = .ok s) :
    ∃ c, classify ord params = .ok c ∧ s.constants = extra.foldl (fun d p => set d p.1 p.2) c.constants ∧
      s.names = sortedNames c.vars ∧ c.aliases.foldl aliasStep (.ok (enumerate 0 s.names)) = .ok s.index ∧
      s.marginals = s.names.filterMap (get? c.vars) ∧ s.names ≠ [] ∧
      ((c.lazyOrder = [] ∧ s.lazy = none) ∨
        ∃ deps order, s.lazy = some (deps, order) ∧ indexLazy s.names c.lazyDeps = .ok deps ∧
          indexAll s.names c.lazyOrder = .ok order ∧ order.length = deps.length ∧ c.lazyOrder ≠ []) := by
  unfold setup at h
  cases hc : classify ord params with
  | error e => simp [hc] at h
  | ok c =>
    simp only [hc] at h
    cases hi : c.aliases.foldl aliasStep (.ok (enumerate 0 (sortedNames c.vars))) with
    | error e => simp [hi] at h
    | ok index =>
      simp only [hi] at h
      split_ifs at h with h1 h2
      · simp only [Except.ok.injEq] at h
        subst h
        refine ⟨c, rfl, rfl, rfl, hi, rfl, by simpa using h1, Or.inl ⟨by simpa using h2, rfl⟩⟩
      · cases hd : indexLazy (sortedNames c.vars) c.lazyDeps with
        | error e => simp [hd] at h
        | ok deps =>
          cases ho : indexAll (sortedNames c.vars) c.lazyOrder with
          | error e => simp [hd, ho] at h
          | ok order =>
            simp only [hd, ho] at h
            split_ifs at h with h3
            simp only [Except.ok.injEq] at h
            subst h
            exact ⟨c, rfl, rfl, rfl, hi, rfl, by simpa using h1,
              Or.inr ⟨deps, order, rfl, hd, ho, by simpa using h3, by simpa using h2⟩⟩

theorem sortedNames_spec (vars : Dict String (Marg α)) (hn : (keys vars).Nodup) :
    (sortedNames vars).Nodup ∧ (sortedNames vars).Pairwise (· ≤ ·) ∧ ∀ k, k ∈ sortedNames vars ↔ k ∈ keys vars := by
  have hp := List.perm_insertionSort (· ≤ ·) (keys vars)
  exact ⟨hp.nodup_iff.2 hn, List.pairwise_insertionSort _ _, fun k => hp.mem_iff⟩

theorem vars_nodup {ord : List String → List String} {params : Dict String (PVal α)} (hn : (keys params).Nodup)
    {c : Classified α} (h : classify ord params = .ok c) :
    (keys c.vars).Nodup ∧ (keys c.lazyDeps).Nodup ∧ (keys c.aliases).Nodup := by
  obtain ⟨st, h1, h2, h3, -, h4⟩ := classify_ok hn h
  rw [h2, h3]; exact ⟨h1.varKeys, h1.lazyKeys, h4.nodup⟩

theorem filterMap_get {vars : Dict String (Marg α)} {names : List String} (h : ∀ k ∈ names, k ∈ keys vars) (i : Nat) :
    (names.filterMap (get? vars))[i]? = names[i]?.bind (get? vars) ∧ (names.filterMap (get? vars)).length = names.length := by
  induction names generalizing i with
  | nil => simp
  | cons n names ih =>
    have hn := h n (by simp)
    rw [mem_keys_iff, Option.isSome_iff_exists] at hn
    obtain ⟨m, hm⟩ := hn
    rw [List.filterMap_cons_some hm]
    have ih' := fun i => ih (fun k hk => h k (by simp [hk])) i
    refine ⟨?_, by simp [(ih' 0).2]⟩
    cases i with
    | zero => simp [hm]
    | succ i => simpa using (ih' i).1

/-- C35: the variables get the indices `0 … n-1` in sorted order of their names, marginal `i` is the distribution of variable
`i`, an alias has the index of the variable it names, and nothing else has an index. -/
theorem C35_indices (ord : List String → List String) (params : Dict String (PVal α)) (hn : (keys params).Nodup)
    (extra : Dict String (Option ℚ)) (s : Setup α) (h : setup ord params extra = .ok s) :
    ∃ c, classify ord params = .ok c ∧
      s.names.Nodup ∧ s.names.Pairwise (· ≤ ·) ∧ (∀ k, k ∈ s.names ↔ k ∈ keys c.vars) ∧
      (∀ (i : Nat) k, s.names[i]? = some k → s.marginals[i]? = get? c.vars k) ∧ s.marginals.length = s.names.length ∧
      ∀ k i, get? s.index k = some i ↔
        s.names[i]? = some k ∨ ∃ t, get? c.aliases k = some t ∧ s.names[i]? = some t := by
  obtain ⟨c, hc, -, h2, h3, h4, -, -⟩ := setup_ok h
  obtain ⟨hnv, -, hna⟩ := vars_nodup hn hc
  have hR := C35_roles ord params hn c hc
  obtain ⟨hs1, hs2, hs3⟩ := sortedNames_spec c.vars hnv
  rw [← h2] at hs1 hs2 hs3
  refine ⟨c, hc, hs1, hs2, hs3, ?_, ?_, ?_⟩
  · intro i k hk
    rw [h4, (filterMap_get (fun k hk => (hs3 k).1 hk) i).1, hk]; rfl
  · rw [h4, (filterMap_get (fun k hk => (hs3 k).1 hk) 0).2]
  · intro k i
    have hen : ∀ k i, get? (enumerate 0 s.names) k = some i ↔ s.names[i]? = some k := by
      intro k i; rw [get?_enumerate hs1]; simp
    have hnone : ∀ k, k ∉ s.names → get? (enumerate 0 s.names) k = none := by
      intro k hk
      cases hh : get? (enumerate 0 s.names) k with
      | none => rfl
      | some j => exact absurd (List.mem_of_getElem? ((hen k j).1 hh)) hk
    have haliasN : ∀ k t, get? c.aliases k = some t → k ∉ s.names := by
      intro k t hk hin
      refine hR.varNotAlias k ((hs3 k).1 hin) ?_
      rw [mem_keys_iff, hk]; rfl
    have := aliases_ok hna (ix := enumerate 0 s.names) (by
      intro k t hk
      refine ⟨hnone k (haliasN k t hk), ?_⟩
      cases ht : get? c.aliases t with
      | none => rfl
      | some t' =>
        exfalso
        refine hR.varNotAlias t ((hR.aliasVar k t).1 hk).2 ?_
        rw [mem_keys_iff, ht]; rfl) h3 k
    rw [this]
    cases hk : get? c.aliases k with
    | none => simp [hen]
    | some t =>
      simp only [hen, Option.some.injEq, exists_eq_left']
      constructor
      · exact Or.inr
      · rintro (h5 | h5)
        · exact absurd (List.mem_of_getElem? h5) (haliasN k t hk)
        · exact h5

/-- C35: the model's own constants take precedence over those of the prior table. -/
theorem C35_model_constants_win (ord : List String → List String) (params : Dict String (PVal α))
    (extra : Dict String (Option ℚ)) (hx : (keys extra).Nodup) (s : Setup α) (h : setup ord params extra = .ok s) :
    ∃ c, classify ord params = .ok c ∧ ∀ k, get? s.constants k =
      match get? extra k with
      | some v => some v
      | none => get? c.constants k := by
  obtain ⟨c, hc, h1, -⟩ := setup_ok h
  refine ⟨c, hc, ?_⟩
  rw [h1]
  clear h h1 hc
  generalize c.constants = d
  intro k
  induction extra generalizing d with
  | nil => simp [get?]
  | cons p extra ih =>
    simp only [keys, List.map_cons, List.nodup_cons] at hx
    rw [List.foldl_cons, ih hx.2]
    simp only [get?]
    split_ifs with hk
    · subst hk
      have : get? extra p.1 = none := by rw [get?_eq_none_iff]; exact hx.1
      rw [this]; simp [get?_set_self]
    · cases get? extra k with
      | none => simp only; rw [get?_set_ne _ _ (Ne.symm hk)]
      | some v => rfl

/-- C35 with C04: if every lazy prior has at least one dependency (which `get_processed_priors` guarantees) and all priors are
scalar, the lazy prior handed to the sampler is a consistent lazy joint distribution in the sense of C04 whose dependencies are
the named variables; without a lazy part no marginal is lazy. -/
theorem C35_lazy_setup_is_consistent (ord : List String → List String) (hord : ∀ l, (ord l).Perm l)
    (params : Dict String (PVal α)) (hn : (keys params).Nodup) (extra : Dict String (Option ℚ)) (s : Setup α)
    (h : setup ord params extra = .ok s)
    (hdeps : ∀ n ip f a, (n, PVal.lazy ip f (some a)) ∈ params → a ≠ [])
    (hdist : ∀ n b, (n, PVal.dist b) ∈ params → b.shape = none ∧ ∀ k, Joint.Fits (.base b) (b.sample k))
    (hlazy : ∀ n ip f args, (n, PVal.lazy ip f args) ∈ params →
      ∀ kw, (f kw).shape = none ∧ ∀ k, Joint.Fits (.base (f kw)) ((f kw).sample k)) :
    (s.lazy = none → ∀ m ∈ s.marginals, ∃ b, m = .dist b) ∧
    ∀ deps order, s.lazy = some (deps, order) →
      GW.Lazy.Consistent s.marginals deps order none ∧ GW.Lazy.ScalarDeps s.marginals deps none ∧
      ∀ (i : Nat) n ip f a, s.names[i]? = some n → (n, PVal.lazy ip f (some a)) ∈ params →
        ∃ d, (i, d) ∈ deps ∧ List.Forall₂ (fun q r => q.1 = r.1 ∧ s.names[q.2]? = some r.2) d a := by
  obtain ⟨c, hc, hs1, hs2, hs3, hs4, hlen, -⟩ := C35_indices ord params hn extra s h
  obtain ⟨c', hc', -, -, -, -, -, hcase⟩ := setup_ok h
  have : c' = c := by rw [hc] at hc'; simpa using hc'.symm
  subst this
  have hR := C35_roles ord params hn c' hc
  obtain ⟨ho1, ho2, ho3, ho4⟩ := C35_lazy_order ord hord params hn c' hc
  obtain ⟨st, hst, hvars, hlz, -, -⟩ := classify_ok hn hc
  obtain ⟨hnv, hnl, -⟩ := vars_nodup hn hc
  -- what marginal `i` is
  have hmarg : ∀ (i : Nat) m, s.marginals[i]? = some m → ∃ n, s.names[i]? = some n ∧
      ((∃ b, (n, PVal.dist b) ∈ params ∧ m = .dist b) ∨ ∃ f a, (n, PVal.lazy true f (some a)) ∈ params ∧ m = .part f) := by
    intro i m hm
    have hi := (List.getElem?_eq_some_iff.1 hm).1
    rw [hlen] at hi
    have hni : s.names[i]? = some s.names[i] := List.getElem?_eq_getElem hi
    refine ⟨_, hni, ?_⟩
    rw [hs4 i _ hni, hvars] at hm
    exact (hst.vars _ m).1 hm
  have hlazyIn : ∀ n f a, (n, PVal.lazy true f (some a)) ∈ params → n ∈ c'.lazyOrder := by
    intro n f a hm
    obtain ⟨⟨p, u⟩, hpu⟩ := List.exists_mem_of_ne_nil _ (hdeps _ _ _ _ hm)
    exact ho2 n ⟨u, true, f, a, p, hm, hpu⟩
  constructor
  · intro hnone m hm
    rcases hcase with ⟨he, -⟩ | ⟨deps, order, he, -⟩
    · obtain ⟨i, hi, rfl⟩ := List.getElem_of_mem hm
      obtain ⟨n, -, ⟨b, -, hb⟩ | ⟨f, a, h2, -⟩⟩ := hmarg i _ (List.getElem?_eq_getElem hi)
      · exact ⟨b, hb⟩
      · have := hlazyIn n f a h2
        rw [he] at this; cases this
    · rw [he] at hnone; cases hnone
  · intro deps order hsome
    rcases hcase with ⟨-, he⟩ | ⟨deps', order', he, hi1, hi2, -, hne⟩
    · rw [he] at hsome; cases hsome
    rw [he] at hsome
    simp only [Option.some.injEq, Prod.mk.injEq] at hsome
    obtain ⟨rfl, rfl⟩ := hsome
    obtain ⟨hd1, hd2⟩ := indexLazy_ok hi1
    obtain ⟨hq1, hq2⟩ := indexAll_ok hi2
    have hidx : ∀ k ∈ s.names, s.names[s.names.idxOf k]? = some k := by
      intro k hk
      exact List.getElem?_idxOf hk
    have hinj : ∀ a ∈ s.names, ∀ b ∈ s.names, s.names.idxOf a = s.names.idxOf b → a = b := by
      intro a ha b hb hab
      have h1 := hidx a ha
      rw [hab, hidx b hb] at h1
      simpa using h1.symm
    have hof : ∀ (i : Nat) k, s.names[i]? = some k → s.names.idxOf k = i := by
      intro i k hk
      have h1 := (List.getElem?_eq_some_iff.1 hk)
      obtain ⟨h1, rfl⟩ := h1
      exact hs1.idxOf_getElem i h1
    -- lazy names are the keys of the dependency dict
    have hlk : ∀ n a, (n, a) ∈ c'.lazyDeps ↔ ∃ f, (n, PVal.lazy true f (some a)) ∈ params := by
      intro n a
      rw [← hst.lazyDeps, ← hlz]
      exact ⟨fun hm => get?_of_mem hnl hm, fun hm => mem_of_get? hm⟩
    -- names in the lazy order are lazy variables
    have hol : ∀ x ∈ c'.lazyOrder, ∃ f a, (x, PVal.lazy true f (some a)) ∈ params := by
      intro x hx
      have hxn := hq2 x hx
      rw [hs3, mem_keys_iff, Option.isSome_iff_exists, hvars] at hxn
      obtain ⟨m, hm⟩ := hxn
      rcases (hst.vars x m).1 hm with ⟨b, h1, -⟩ | ⟨f, a, h1, -⟩
      · exact absurd h1 ((ho3 x hx).2 b)
      · exact ⟨f, a, h1⟩
    have hmemO : ∀ k ∈ s.names, (s.names.idxOf k ∈ order' ↔ k ∈ c'.lazyOrder) := by
      intro k hk
      rw [hq1, List.mem_map]
      constructor
      · rintro ⟨y, hy, hyk⟩
        rwa [← hinj y (hq2 y hy) k hk hyk]
      · exact fun h => ⟨k, h, rfl⟩
    have hkeysEq : deps'.map Prod.fst = c'.lazyDeps.map (fun p => s.names.idxOf p.1) := by
      rw [hd1]; simp
    have hkN : (deps'.map Prod.fst).Nodup := by
      rw [hkeysEq, show (fun p : String × Dict String String => s.names.idxOf p.1) = s.names.idxOf ∘ Prod.fst from rfl,
        ← List.map_map]
      refine List.Nodup.map_on ?_ hnl
      intro x hx y hy hxy
      obtain ⟨p, hp, rfl⟩ := List.mem_map.1 hx
      obtain ⟨q, hq, rfl⟩ := List.mem_map.1 hy
      exact hinj _ (hd2 p hp).1 _ (hd2 q hq).1 hxy
    have hoN : order'.Nodup := by
      rw [hq1]
      exact List.Nodup.map_on (fun x hx y hy hxy => hinj x (hq2 x hx) y (hq2 y hy) hxy) ho1
    have hperm : order'.Perm (deps'.map Prod.fst) := by
      rw [List.perm_ext_iff_of_nodup hoN hkN]
      intro i
      rw [hq1, hkeysEq, List.mem_map, List.mem_map]
      constructor
      · rintro ⟨x, hx, rfl⟩
        obtain ⟨f, a, hm⟩ := hol x hx
        exact ⟨(x, a), (hlk x a).2 ⟨f, hm⟩, rfl⟩
      · rintro ⟨⟨n, a⟩, hp, rfl⟩
        obtain ⟨f, hm⟩ := (hlk n a).1 hp
        exact ⟨n, hlazyIn n f a hm, rfl⟩
    refine ⟨⟨?_, hkN, hperm, ?_, ?_, ?_, ?_, ?_⟩, ?_, ?_⟩
    · intro hcon
      rw [hcon] at hq1
      exact hne (List.map_eq_nil_iff.1 hq1.symm)
    · intro i
      constructor
      · intro hi
        rw [hq1, List.mem_map] at hi
        obtain ⟨x, hx, rfl⟩ := hi
        obtain ⟨f, a, hm⟩ := hol x hx
        refine ⟨f, ?_⟩
        rw [hs4 _ x (hidx x (hq2 x hx)), hvars]
        exact (hst.vars x _).2 (Or.inr ⟨f, a, hm, rfl⟩)
      · rintro ⟨f, hf⟩
        obtain ⟨n, hni, ⟨b, -, hb⟩ | ⟨f', a, h2, -⟩⟩ := hmarg i _ hf
        · cases hb
        · rw [← hof i n hni]
          exact (hmemO n (List.mem_of_getElem? hni)).2 (hlazyIn n f' a h2)
    · intro pre i post hord' dep hdep q hq
      rw [hd1, List.mem_map] at hdep
      obtain ⟨⟨n, a⟩, hp, he2⟩ := hdep
      simp only [Prod.mk.injEq] at he2
      obtain ⟨rfl, rfl⟩ := he2
      obtain ⟨r, hr, rfl⟩ := List.mem_map.1 hq
      have hrn := (hd2 _ hp).2 r hr
      have hnn := (hd2 _ hp).1
      obtain ⟨f, hm⟩ := (hlk n a).1 hp
      refine ⟨?_, ?_⟩
      · rw [hlen]; exact List.idxOf_lt_length_iff.2 hrn
      · intro hin
        have hrl := (hmemO r.2 hrn).1 hin
        rcases ho4 n r.2 ⟨true, f, a, r.1, hm, hr⟩ with ⟨b, hb⟩ | ⟨x, y, z, hxyz⟩
        · exact absurd hb ((ho3 r.2 hrl).2 b)
        · -- positions in a duplicate-free list
          rw [hq1, hxyz] at hord'
          simp only [List.map_append, List.map_cons] at hord'
          have hN : (x.map s.names.idxOf ++ s.names.idxOf r.2 :: y.map s.names.idxOf ++ s.names.idxOf n ::
              z.map s.names.idxOf).Nodup := by
            have := hoN
            rw [hq1, hxyz] at this
            simpa using this
          have hpre : pre = x.map s.names.idxOf ++ s.names.idxOf r.2 :: y.map s.names.idxOf := by
            rw [hord'] at hN
            have key : ∀ (l1 l2 r1 r2 : List Nat) (e : Nat), l1 ++ e :: r1 = l2 ++ e :: r2 → e ∉ l1 → e ∉ l2 → l1 = l2 := by
              intro l1
              induction l1 with
              | nil =>
                intro l2 r1 r2 e he _ h2
                cases l2 with
                | nil => rfl
                | cons b l2 => simp at he; exact absurd (by simp [he.1]) h2
              | cons a l1 ih =>
                intro l2 r1 r2 e he h1 h2
                cases l2 with
                | nil => simp at he; exact absurd (by simp [he.1]) h1
                | cons b l2 =>
                  simp at he
                  rw [he.1, ih l2 r1 r2 e he.2 (fun h => h1 (by simp [h])) (fun h => h2 (by simp [h]))]
            have hN' := hN
            rw [← hord'] at hN'
            rw [List.nodup_append] at hN hN'
            exact (key _ _ _ _ _ hord' (fun hx => hN'.2.2 _ hx _ (by simp) rfl)
              (fun hx => hN.2.2 _ hx _ (by simp) rfl)).symm
          rw [hpre]; simp
    · intro i f kw hf
      obtain ⟨n, hni, ⟨b, -, hb⟩ | ⟨f', a, h2, h3⟩⟩ := hmarg i _ hf
      · cases hb
      · simp only [Marg.part.injEq] at h3
        subst h3
        exact Or.inl ⟨Or.inl rfl, (hlazy _ _ _ _ h2 kw).1⟩
    · intro i b k hb
      obtain ⟨n, hni, ⟨b', h2, h3⟩ | ⟨f', a, h2, h3⟩⟩ := hmarg i _ hb
      · simp only [Marg.dist.injEq] at h3
        subst h3
        exact (hdist _ _ h2).2 k
      · cases h3
    · intro i f kw k hf
      obtain ⟨n, hni, ⟨b, -, hb⟩ | ⟨f', a, h2, h3⟩⟩ := hmarg i _ hf
      · cases hb
      · simp only [Marg.part.injEq] at h3
        subst h3
        exact (hlazy _ _ _ _ h2 kw).2 k
    · intro p hp q hq j hj
      refine ⟨fun b hb => ?_, fun f _ => Or.inl ⟨Or.inl rfl, rfl⟩⟩
      obtain ⟨n, hni, ⟨b', h2, h3⟩ | ⟨f', a, h2, h3⟩⟩ := hmarg j _ hb
      · simp only [Marg.dist.injEq] at h3
        subst h3
        exact (hdist _ _ h2).1
      · cases h3
    · intro i n ip f a hni hm
      obtain ⟨a', ha', -, hl⟩ := hR.lazy n ip f _ hm
      simp only [Option.some.injEq] at ha'
      subst ha'
      have hp : (n, a) ∈ c'.lazyDeps := mem_of_get? hl
      refine ⟨a.map fun q => (q.1, s.names.idxOf q.2), ?_, ?_⟩
      · rw [hd1, List.mem_map]
        exact ⟨(n, a), hp, by rw [hof i n hni]⟩
      · rw [List.forall₂_map_left_iff, List.forall₂_same]
        intro q hq
        exact ⟨rfl, hidx q.2 ((hd2 _ hp).2 q hq)⟩

/-! A table with every kind of entry: a chain of two lazy priors, an alias of a variable, an alias of a constant. -/

def exBase : Base ℚ := ⟨none, fun _ => .ninf, fun _ => true, fun _ => .one 0⟩

def exParams : Dict String (PVal ℚ) :=
  [("z", .lazy true (fun _ => exBase) (some [("low", "m"), ("high", "b")])), ("dup", .str "b"), ("k", .num 2),
    ("m", .lazy true (fun _ => exBase) (some [("low", "b")])), ("b", .dist exBase), ("k2", .str "k"), ("off", .none)]

example : (keys exParams).Nodup := by decide +kernel

example : ∃ s, setup id exParams [("extra", some 1)] = .ok s ∧ s.names = ["b", "m", "z"] ∧
    s.index = [("b", 0), ("m", 1), ("z", 2), ("dup", 0)] ∧
    s.lazy = some ([(2, [("low", 1), ("high", 0)]), (1, [("low", 0)])], [1, 2]) ∧
    s.constants = [("k", some 2), ("off", none), ("k2", some 2), ("extra", some 1)] := by
  refine ⟨_, rfl, ?_, ?_, ?_, ?_⟩ <;> decide +kernel

/-- A circle is rejected. -/
example : (classify id ([("a", .lazy true (fun _ => exBase) (some [("low", "b")])),
    ("b", .lazy true (fun _ => exBase) (some [("low", "a")]))] : Dict String (PVal ℚ))).toOption.isNone := by decide +kernel

/-- A lazy prior that depends on a constant is rejected by the set-up (the name is not a variable). -/
example : (setup id ([("a", .lazy true (fun _ => exBase) (some [("low", "k")])), ("k", .num 2)] : Dict String (PVal ℚ))
    []).toOption.isNone := by decide +kernel

end GW.Guru
