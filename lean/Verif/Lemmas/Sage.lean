import Verif.Spec.Sage
import Verif.Props.Guru
import Verif.Props.Likelihood
import Verif.Lemmas.Lazy

/-! Lemmas about a whole analysis of discrete data. -/

namespace GW.Sage
open GW PyDict Joint XR
open GW.Lazy (Marg LazyJoint mkLazy kwargs instLoop eventEnv)
open GW.Guru (PVal)
open GW.Likelihood (FRow)

variable {params : Dict String (PVal XR)} {extra : Dict String (Option ℚ)} {ord : List String → List String} {s : Guru.Setup XR}

/-! ## Marginals and prior distributions -/

/-- Marginal `i` is what the table says of name `i`. -/
theorem marginal (hm : Meaningful params) (h : Guru.setup ord params extra = .ok s) (i : Nat) (n : String) (hi : s.names[i]? = some n) :
    (∃ b, (n, PVal.dist b) ∈ params ∧ s.marginals[i]? = some (.dist b)) ∨
      ∃ f a, (n, PVal.lazy true f (some a)) ∈ params ∧ s.marginals[i]? = some (.part f) := by
  obtain ⟨c, hc, -, -, hs3, hs4, -, -⟩ := Guru.C35_indices ord params hm.nodup extra s h
  obtain ⟨st, hst, hvars, -, -, -⟩ := Guru.classify_ok hm.nodup hc
  have hin := (hs3 n).1 (List.mem_of_getElem? hi)
  rw [mem_keys_iff, Option.isSome_iff_exists] at hin
  obtain ⟨m, hm'⟩ := hin
  rw [hs4 i n hi, hm']
  rw [hvars] at hm'
  rcases (hst.vars n m).1 hm' with ⟨b, h1, rfl⟩ | ⟨f, a, h1, rfl⟩
  · exact Or.inl ⟨b, h1, rfl⟩
  · exact Or.inr ⟨f, a, h1, rfl⟩

/-- A distribution that is never used. -/
def junk : Base XR := ⟨none, fun _ => .nan, fun _ => false, fun _ => .one .nan⟩

/-- The distribution of `n`. -/
def inst (params : Dict String (PVal XR)) (value : String → XR) (n : String) : Base XR := (priorOf params value n).getD junk

theorem inst_dist (hm : Meaningful params) {n b} (h : (n, PVal.dist b) ∈ params) (value : String → XR) : priorOf params value n = some b := by
  simp [priorOf, get?_of_mem hm.nodup h]

theorem inst_lazy (hm : Meaningful params) {n ip f a} (h : (n, PVal.lazy ip f (some a)) ∈ params) (value : String → XR) :
    priorOf params value n = some (f (a.map fun p => (p.1, [value p.2]))) := by
  simp [priorOf, get?_of_mem hm.nodup h]

theorem priorOf_some (hm : Meaningful params) (h : Guru.setup ord params extra = .ok s) (value : String → XR) (n : String) (hn : n ∈ s.names) :
    priorOf params value n = some (inst params value n) := by
  obtain ⟨i, hi⟩ := List.getElem?_of_mem hn
  rcases marginal hm h i n hi with ⟨b, hb, -⟩ | ⟨f, a, hb, -⟩
  · simp [inst, inst_dist hm hb]
  · simp [inst, inst_lazy hm hb]

theorem inst_scalar (hm : Meaningful params) (h : Guru.setup ord params extra = .ok s) (value : String → XR) (n : String) (hn : n ∈ s.names) :
    (inst params value n).shape = none := by
  obtain ⟨i, hi⟩ := List.getElem?_of_mem hn
  rcases marginal hm h i n hi with ⟨b, hb, -⟩ | ⟨f, a, hb, -⟩
  · simpa [inst, inst_dist hm hb] using (hm.dist n b hb).1
  · simpa [inst, inst_lazy hm hb] using (hm.lazy n _ f _ hb _).1

theorem fits (hm : Meaningful params) (h : Guru.setup ord params extra = .ok s) (value : String → XR) :
    ∀ names : List String, (∀ n ∈ names, n ∈ s.names) →
      List.Forall₂ Fits ((names.map (inst params value)).map Dist.base) (names.map fun n => Slice.one (value n))
  | [], _ => by simp
  | n :: names, hs => by
    refine List.Forall₂.cons ?_ (fits hm h value names fun k hk => hs k (by simp [hk]))
    simp [Fits, Dist.shape, inst_scalar hm h value n (hs n (by simp))]

theorem flat (value : String → XR) : ∀ names : List String, (names.map fun n => Slice.one (value n)).flatMap Slice.toList = names.map value
  | [] => rfl
  | n :: names => by simpa [Slice.toList] using flat value names

theorem zip_log (params : Dict String (PVal XR)) (value : String → XR) : ∀ names : List String,
    List.zipWith Base.logProb (names.map (inst params value)) (names.map fun n => Slice.one (value n)) =
      names.map fun n => (inst params value n).logProb (.one (value n))
  | [] => rfl
  | n :: names => by simp [zip_log params value names]

theorem zip_support (params : Dict String (PVal XR)) (value : String → XR) : ∀ names : List String,
    List.zipWith Base.support (names.map (inst params value)) (names.map fun n => Slice.one (value n)) =
      names.map fun n => (inst params value n).support (.one (value n))
  | [] => rfl
  | n :: names => by simp [zip_support params value names]

theorem logs_eq (hm : Meaningful params) (h : Guru.setup ord params extra = .ok s) (value : String → XR) :
    (s.names.map fun n => (inst params value n).logProb (.one (value n))) = s.names.map (logPriorOf params value) := by
  apply List.map_congr_left
  intro n hn
  simp [logPriorOf, priorOf_some hm h value n hn]

theorem supports_eq (hm : Meaningful params) (h : Guru.setup ord params extra = .ok s) (value : String → XR) :
    (s.names.map fun n => (inst params value n).support (.one (value n))) = s.names.map (inPrior params value) := by
  apply List.map_congr_left
  intro n hn
  simp [inPrior, priorOf_some hm h value n hn]

/-- `log_prob` and `support` of the joint of the instantiated priors. -/
theorem joint_values (hm : Meaningful params) (h : Guru.setup ord params extra = .ok s) (value : String → XR) :
    LP ((s.names.map (inst params value)).map Dist.base) (s.names.map value) = some (XR.sum (s.names.map (logPriorOf params value))) ∧
      SP ((s.names.map (inst params value)).map Dist.base) (s.names.map value) = some (s.names.all (inPrior params value)) := by
  have hf := fits hm h value s.names fun _ hk => hk
  have h1 := GW.Lazy.LP_blocks _ _ hf
  have h2 := GW.Lazy.SP_blocks _ _ hf
  rw [flat, zip_log, logs_eq hm h] at h1
  rw [flat, zip_support, supports_eq hm h] at h2
  refine ⟨by rw [h1, XR.sum_eq], ?_⟩
  rw [h2, List.all_map]
  rfl

theorem allDists_eq : ∀ (ms : List (Marg XR)), (∀ m ∈ ms, ∃ b, m = .dist b) → ∃ bs, allDists ms = some bs ∧ ms = bs.map Marg.dist
  | [], _ => ⟨[], rfl, rfl⟩
  | m :: ms, h => by
    obtain ⟨b, rfl⟩ := h m (by simp)
    obtain ⟨bs, h1, h2⟩ := allDists_eq ms fun m hm => h m (by simp [hm])
    exact ⟨b :: bs, by simp [allDists, h1], by rw [h2, List.map_cons]⟩

/-- The facts about the prior of an accepted table. -/
theorem consistent (hord : ∀ l, (ord l).Perm l) (hm : Meaningful params) (h : Guru.setup ord params extra = .ok s) :
    (s.lazy = none → ∀ m ∈ s.marginals, ∃ b, m = .dist b) ∧
    ∀ deps order, s.lazy = some (deps, order) →
      GW.Lazy.Consistent s.marginals deps order none ∧ GW.Lazy.ScalarDeps s.marginals deps none ∧
      ∀ (i : Nat) n ip f a, s.names[i]? = some n → (n, PVal.lazy ip f (some a)) ∈ params →
        ∃ d, (i, d) ∈ deps ∧ List.Forall₂ (fun q r => q.1 = r.1 ∧ s.names[q.2]? = some r.2) d a :=
  Guru.C35_lazy_setup_is_consistent ord hord params hm.nodup extra s h (fun n ip f a hl => hm.deps n ip f a hl)
    (fun n b hb => hm.dist n b hb) (fun n ip f args hl kw => hm.lazy n ip f args hl kw)

theorem marginals_length (hm : Meaningful params) (h : Guru.setup ord params extra = .ok s) : s.marginals.length = s.names.length := by
  obtain ⟨-, -, -, -, -, -, hl, -⟩ := Guru.C35_indices ord params hm.nodup extra s h
  exact hl

/-- Without lazily defined priors the marginals are the distributions of the table. -/
theorem marginals_dist (hord : ∀ l, (ord l).Perm l) (hm : Meaningful params) (h : Guru.setup ord params extra = .ok s) (hl : s.lazy = none)
    (value : String → XR) : s.marginals = (s.names.map (inst params value)).map Marg.dist := by
  have hd := (consistent hord hm h).1 hl
  apply List.ext_getElem?
  intro i
  rw [List.map_map, List.getElem?_map]
  cases hi : s.names[i]? with
  | none =>
    have : s.marginals.length ≤ i := by rw [marginals_length hm h]; exact List.getElem?_eq_none_iff.1 hi
    rw [List.getElem?_eq_none this]; rfl
  | some n =>
    rcases marginal hm h i n hi with ⟨b, hb, e⟩ | ⟨f, a, hb, e⟩
    · simp [e, inst, inst_dist hm hb]
    · obtain ⟨b, hb⟩ := hd _ (List.mem_of_getElem? e)
      cases hb

/-- Dependencies by index and by name give the same values. -/
theorem deps_values {names : List String} (value : String → XR) {val : Nat → List XR}
    (hval : ∀ i n, names[i]? = some n → val i = [value n]) {d : List (String × Nat)} {a : List (String × String)}
    (h : List.Forall₂ (fun q r => q.1 = r.1 ∧ names[q.2]? = some r.2) d a) :
    d.map (fun q => (q.1, val q.2)) = a.map fun p => (p.1, [value p.2]) := by
  induction h with
  | nil => rfl
  | @cons q r d a hq _ ih => rw [List.map_cons, List.map_cons, ih, hq.1, hval _ _ hq.2]

/-- The values of the sampled parameters by index. -/
def at_ (value : String → XR) (names : List String) (i : Nat) : List XR := ((names.map value)[i]?).toList

theorem at_eq (value : String → XR) (names : List String) (i n) (h : names[i]? = some n) : at_ value names i = [value n] := by
  simp [at_, List.getElem?_map, h]

/-- With lazily defined priors, instantiating them at a vector of values gives the distributions of the table. -/
theorem instantiated (hord : ∀ l, (ord l).Perm l) (hm : Meaningful params) (h : Guru.setup ord params extra = .ok s) {deps order}
    (hl : s.lazy = some (deps, order)) (value : String → XR) :
    instLoop (eventEnv (s.names.map value)) deps s.marginals = some ((s.names.map (inst params value)).map Marg.dist) := by
  obtain ⟨hc, -, hdeps⟩ := (consistent hord hm h).2 deps order hl
  have hkeys : ∀ i, i ∈ deps.map Prod.fst ↔ i ∈ order := fun i => hc.orderPerm.mem_iff.symm
  obtain ⟨ms', h1, h2, h3, h4⟩ := GW.Lazy.instLoop_spec (env := eventEnv (s.names.map value)) (val := at_ value s.names) deps s.marginals
    hc.keysNodup
    (by
      intro p hp
      exact (hc.isLazy p.1).1 ((hkeys p.1).1 (List.mem_map.2 ⟨p, hp, rfl⟩)))
    (by
      intro p hp q hq
      have hin : p.1 ∈ order := (hkeys p.1).1 (List.mem_map.2 ⟨p, hp, rfl⟩)
      obtain ⟨pre, post, hpp⟩ := List.append_of_mem hin
      have hlt := (hc.respects pre p.1 post hpp p.2 hp q hq).1
      rw [marginals_length hm h] at hlt
      have he : s.names[q.2]? = some s.names[q.2] := List.getElem?_eq_getElem hlt
      rw [at_eq value _ _ _ he]
      simp [eventEnv, List.getElem?_map, he])
  rw [h1]
  congr 1
  apply List.ext_getElem?
  intro i
  rw [List.map_map, List.getElem?_map]
  cases hi : s.names[i]? with
  | none =>
    have : ms'.length ≤ i := by rw [h2, marginals_length hm h]; exact List.getElem?_eq_none_iff.1 hi
    rw [List.getElem?_eq_none this]; rfl
  | some n =>
    rcases marginal hm h i n hi with ⟨b, hb, e⟩ | ⟨f, a, hb, e⟩
    · have hni : i ∉ deps.map Prod.fst := by
        rw [hkeys, hc.isLazy]
        rintro ⟨f, hf⟩
        rw [e] at hf; cases hf
      rw [h4 i hni, e]
      simp [inst, inst_dist hm hb]
    · obtain ⟨d, hd, hfa⟩ := hdeps i n true f a hi hb
      rw [h3 (i, d) hd f e, deps_values value (at_eq value s.names) hfa]
      simp [inst, inst_lazy hm hb]

theorem names_ne (h : Guru.setup ord params extra = .ok s) : s.names ≠ [] := by
  obtain ⟨-, -, -, -, -, -, hne, -⟩ := Guru.setup_ok h
  exact hne

/-- An accepted table always makes a prior, whose log density is the sum of those of the table and `-inf` outside its support. -/
theorem prior_ok (hord : ∀ l, (ord l).Perm l) (hm : Meaningful params) (h : Guru.setup ord params extra = .ok s) :
    ∃ pr, prior s = .ok pr ∧ ∀ value : String → XR,
      pr.support (s.names.map value) = s.names.all (inPrior params value) ∧
      pr.logProb (s.names.map value) = if s.names.all (inPrior params value) then XR.sum (s.names.map (logPriorOf params value)) else .ninf := by
  cases hl : s.lazy with
  | none =>
    obtain ⟨bs, h1, h2⟩ := allDists_eq s.marginals ((consistent hord hm h).1 hl)
    have hne : bs ≠ [] := by
      rintro rfl
      have := marginals_length hm h
      rw [h2] at this
      exact names_ne h (List.length_eq_zero_iff.1 (by simpa using this.symm))
    have hj : mkJoint (bs.map Dist.base) .none none = .ok (.joint (bs.map Dist.base) none) := by
      cases bs with
      | nil => exact absurd rfl hne
      | cons _ _ => rfl
    refine ⟨_, by simp only [prior, hl, h1, hj]; rfl, fun value => ?_⟩
    have hbs : bs = s.names.map (inst params value) := by
      have := marginals_dist hord hm h hl value
      rw [h2] at this
      exact List.map_injective_iff.2 (fun a b hab => by simpa using hab) this
    obtain ⟨e1, e2⟩ := joint_values hm h value
    rw [← hbs] at e1 e2
    have e1' : (Dist.joint (bs.map Dist.base) none).logProb (.many (s.names.map value)) = some (XR.sum (s.names.map (logPriorOf params value))) := by
      rw [Dist.logProb]; exact e1
    have e2' : (Dist.joint (bs.map Dist.base) none).support (.many (s.names.map value)) = some (s.names.all (inPrior params value)) := by
      rw [Dist.support]; exact e2
    simp [checkedPrior, e1', e2', Mass.validated, select]
  | some p =>
    obtain ⟨deps, order⟩ := p
    obtain ⟨hc, -, -⟩ := (consistent hord hm h).2 deps order hl
    have hlen : order.length = deps.length := by rw [hc.orderPerm.length_eq]; simp
    have hshape : ∀ value, GW.Lazy.shapeLoop none 0 0 s.marginals =
        some (shapedValues 0 ((s.names.map (inst params value)).map Dist.base), 0 + Dist.total ((s.names.map (inst params value)).map Dist.base)) := by
      intro value
      apply GW.Lazy.shapeLoop_eq
      · rw [marginals_length hm h]; simp
      · intro j m b hj hb
        rw [List.getElem?_map] at hb
        cases hn : s.names[j]? with
        | none => rw [hn] at hb; cases hb
        | some n =>
          rw [hn] at hb
          simp only [Option.map_some, Option.some.injEq] at hb
          have hs := inst_scalar hm h value n (List.mem_of_getElem? hn)
          rw [← hb, hs]
          rcases marginal hm h j n hn with ⟨b', hb', e⟩ | ⟨f, a, hb', e⟩
          · rw [hj] at e
            simp only [Option.some.injEq] at e
            subst e
            simpa [GW.Lazy.eventShape] using (hm.dist n b' hb').1
          · rw [hj] at e
            simp only [Option.some.injEq] at e
            subst e
            rfl
    have hmne : ¬ s.marginals.isEmpty = true := by
      intro he
      have := marginals_length hm h
      rw [List.isEmpty_iff.1 he] at this
      exact names_ne h (List.length_eq_zero_iff.1 (by simpa using this.symm))
    have hone : ¬ deps.length = 0 := fun he => hc.nonempty (List.length_eq_zero_iff.1 (hlen.trans he))
    have hmk : ∀ value, mkLazy s.marginals (some deps) order none none = .ok ⟨s.marginals, deps, order,
        shapedValues 0 ((s.names.map (inst params value)).map Dist.base), 0 + Dist.total ((s.names.map (inst params value)).map Dist.base), none⟩ := by
      intro value
      simp only [mkLazy, if_neg hmne, hlen, if_neg hone, ne_eq, not_true_eq_false, if_false, hshape value]
    refine ⟨_, by simp only [prior, hl, hmk fun _ => .nan]; rfl, fun value => ?_⟩
    have heq := hmk fun _ => .nan
    rw [hmk value] at heq
    simp only [Except.ok.injEq] at heq
    rw [← heq]
    obtain ⟨e1, e2⟩ := joint_values hm h value
    have hi := instantiated hord hm h hl value
    have hlen' : (s.names.map (inst params value)).length = (shapedValues 0 ((s.names.map (inst params value)).map Dist.base)).length := by
      have : ∀ (k : Nat) (ds : List (Joint.Dist XR)), (shapedValues k ds).length = ds.length := by
        intro k ds
        induction ds generalizing k with
        | nil => rfl
        | cons d ds ih => rw [shapedValues]; split <;> simp [ih]
      rw [this]; simp
    have e1' : (LazyJoint.logProb ⟨s.marginals, deps, order, shapedValues 0 ((s.names.map (inst params value)).map Dist.base),
        0 + Dist.total ((s.names.map (inst params value)).map Dist.base), none⟩ (s.names.map value)) =
        some (XR.sum (s.names.map (logPriorOf params value))) := by
      simp only [LazyJoint.logProb, hi, Option.bind_eq_bind, Option.bind_some]
      rw [GW.Lazy.logProbLoop_eq _ _ _ hlen']
      exact e1
    have e2' : (LazyJoint.support ⟨s.marginals, deps, order, shapedValues 0 ((s.names.map (inst params value)).map Dist.base),
        0 + Dist.total ((s.names.map (inst params value)).map Dist.base), none⟩ (s.names.map value)) =
        some (s.names.all (inPrior params value)) := by
      simp only [LazyJoint.support, hi, Option.bind_eq_bind, Option.bind_some]
      rw [GW.Lazy.supportLoop_eq _ _ _ hlen']
      exact e2
    simp only [checkedPrior, e1', e2', Mass.validated, select, Option.getD_some, if_true, and_self]

/-! ## Keyword arguments -/

theorem get?_append {V : Type} (l m : List (String × V)) (n : String) : get? (l ++ m) n = (get? l n).or (get? m n) := by
  induction l with
  | nil => simp [get?]
  | cons p l ih =>
    simp only [List.cons_append, get?]
    split_ifs <;> simp [ih]

theorem get?_map_snd {V W : Type} (g : V → W) (l : List (String × V)) (n : String) : get? (l.map fun p => (p.1, g p.2)) n = (get? l n).map g := by
  induction l with
  | nil => rfl
  | cons p l ih =>
    simp only [List.map_cons, get?]
    split_ifs <;> simp [ih]

theorem get?_numbers : ∀ (c : Dict String (Option ℚ)), (keys c).Nodup → ∀ n, get? (numbers c) n = (get? c n).bind fun v => v.map num
  | [], _, n => rfl
  | (k, v) :: c, h, n => by
    simp only [keys, List.map_cons, List.nodup_cons] at h
    have ih := get?_numbers c h.2 n
    by_cases hk : k = n
    · subst hk
      have hno : get? c k = none := (get?_eq_none_iff c k).2 h.1
      rw [hno] at ih
      cases v with
      | none => simpa [numbers, get?] using ih
      | some q => simp [numbers, get?]
    · cases v with
      | none => simpa [numbers, get?, hk] using ih
      | some q => simpa [numbers, get?, hk] using ih

theorem foldl_nodup {P V : Type} (step : Dict String (Option ℚ) × V → P → Dict String (Option ℚ) × V)
    (hs : ∀ st p, (keys st.1).Nodup → (keys (step st p).1).Nodup) : ∀ (l : List P) st, (keys st.1).Nodup → (keys (l.foldl step st).1).Nodup
  | [], _, h => h
  | p :: l, st, h => foldl_nodup step hs l _ (hs st p h)

theorem set_nodup : ∀ (l : Dict String (Option ℚ)) (d : Dict String (Option ℚ)), (keys d).Nodup → (keys (l.foldl (fun d p => set d p.1 p.2) d)).Nodup
  | [], _, h => h
  | p :: l, _, h => set_nodup l _ (nodup_keys_set h p.1 p.2)

theorem constants_nodup (hm : Meaningful params) (h : Guru.setup ord params extra = .ok s) : (keys s.constants).Nodup := by
  obtain ⟨c, hc, h1, -⟩ := Guru.setup_ok h
  rw [h1]
  refine set_nodup _ _ ?_
  unfold Guru.classify at hc
  obtain ⟨h3, h4⟩ := Guru.pass1_spec params [] {} Guru.Inv1.init (by simpa [keys] using hm.nodup)
  by_cases hv : ∀ p ∈ params, Guru.Valid p.2
  · obtain ⟨st, e, hst⟩ := h3 hv
    simp only [e] at hc
    cases hl : Guru.lazyOrder ord st with
    | error e => simp [hl] at hc
    | ok order =>
      simp only [hl, Except.ok.injEq] at hc
      rw [← hc]
      refine foldl_nodup _ ?_ params _ hst.constKeys
      intro st' p hst'
      unfold Guru.pass2Step
      split
      · split
        · exact nodup_keys_set hst' _ _
        · split_ifs <;> exact hst'
      · exact hst'
  · push Not at hv
    simp [h4 hv] at hc

/-- The keyword arguments of the model and of the where-functions are those the table means. -/
theorem kwargs_meaning (hm : Meaningful params) (hx : (keys extra).Nodup) (h : Guru.setup ord params extra = .ok s)
    (hdis : ¬ (keys s.constants).any (· ∈ keys s.index) = true) (value : String → XR) :
    kwargsOf s.constants (numbers s.constants ++ s.index.map fun p => (p.1, (s.names.map value).getD (min p.2 ((s.names.map value).length - 1)) 0)) =
      meaning params extra value := by
  obtain ⟨c, hc, hs1, hs2, hs3, hs4, hlen, hidx⟩ := Guru.C35_indices ord params hm.nodup extra s h
  obtain ⟨c', hc', hconst⟩ := Guru.C35_model_constants_win ord params extra hx s h
  have : c' = c := by rw [hc] at hc'; simpa using hc'.symm
  subst this
  have hR := Guru.C35_roles ord params hm.nodup c' hc
  have hdis' : ∀ n, n ∈ keys s.constants → get? s.index n = none := by
    intro n hn
    rw [get?_eq_none_iff]
    intro hin
    exact hdis (List.any_eq_true.2 ⟨n, hn, by simpa using hin⟩)
  have hcoord : ∀ i t, s.names[i]? = some t → (s.names.map value).getD (min i ((s.names.map value).length - 1)) 0 = value t := by
    intro i t ht
    have hi := (List.getElem?_eq_some_iff.1 ht).1
    rw [List.length_map, show min i (s.names.length - 1) = i by omega, List.getD_eq_getElem?_getD, List.getElem?_map, ht]
    rfl
  -- the variables of the table
  have hvar : ∀ n, n ∈ keys c'.vars → ∀ v, (n, v) ∈ params → direct value n v = some (some (value n)) := by
    intro n hn v hv
    obtain ⟨i, hi⟩ := List.getElem?_of_mem ((hs3 n).2 hn)
    rcases marginal hm h i n hi with ⟨b, hb, -⟩ | ⟨f, a, hb, -⟩
    · rw [Guru.unique_value hm.nodup hv hb]; rfl
    · rw [Guru.unique_value hm.nodup hv hb]; rfl
  have hkeyget : ∀ {V : Type} (d : Dict String V) n, n ∈ keys d → ∃ v, get? d n = some v := by
    intro V d n hn
    rw [mem_keys_iff, Option.isSome_iff_exists] at hn
    exact hn
  funext n
  have hlook := get?_append (numbers s.constants) (s.index.map fun p => (p.1, (s.names.map value).getD (min p.2 ((s.names.map value).length - 1)) 0)) n
  rw [get?_numbers _ (constants_nodup hm h), get?_map_snd fun i => (s.names.map value).getD (min i ((s.names.map value).length - 1)) 0] at hlook
  generalize numbers s.constants ++ s.index.map (fun p => (p.1, (s.names.map value).getD (min p.2 ((s.names.map value).length - 1)) 0)) = A at hlook
  unfold meaning
  have hcn := hconst n
  have hdn : ∀ v, get? s.constants n = some v → get? s.index n = none := by
    intro v hv
    exact hdis' n (by rw [mem_keys_iff, hv]; rfl)
  -- a name with a constant
  have hC : ∀ v, get? s.constants n = some v → kwargsOf s.constants A n = some (v.map num) := by
    intro v hv
    rw [hdn v hv, hv] at hlook
    unfold kwargsOf
    rw [hlook, hv]
    cases v <;> simp
  -- a name with an index
  have hI : ∀ i t, get? s.constants n = none → get? s.index n = some i → s.names[i]? = some t →
      kwargsOf s.constants A n = some (some (value t)) := by
    intro i t h1 h2 h3
    rw [h1, h2] at hlook
    simp only [Option.bind_none, Option.none_or, Option.map_some, hcoord i t h3] at hlook
    unfold kwargsOf
    rw [hlook]
  cases hxn : get? extra n with
  | some v =>
    rw [hxn] at hcn
    exact hC v hcn
  | none =>
    rw [hxn] at hcn
    simp only at hcn
    cases hp : get? params n with
    | none =>
      have hno : n ∉ keys params := (get?_eq_none_iff params n).1 hp
      have h1 : get? c'.constants n = none := (get?_eq_none_iff _ n).2 fun hk => hno (hR.known n (Or.inl hk))
      have h2 : get? s.index n = none := by
        cases hi : get? s.index n with
        | none => rfl
        | some i =>
          exfalso
          rcases (hidx n i).1 hi with h5 | ⟨t, h5, -⟩
          · exact hno (hR.known n (Or.inr (Or.inl ((hs3 n).1 (List.mem_of_getElem? h5)))))
          · exact hno (hR.known n (Or.inr (Or.inr (by rw [mem_keys_iff, h5]; rfl))))
      rw [hcn, h1, h2] at hlook
      unfold kwargsOf
      rw [hlook, hcn, h1]
      simp
    | some w =>
      have hmem := mem_of_get? hp
      -- a variable
      have hV : n ∈ keys c'.vars → direct value n w = some (some (value n)) ∧ ∃ i, get? s.index n = some i ∧ s.names[i]? = some n := by
        intro hk
        obtain ⟨i, hi⟩ := List.getElem?_of_mem ((hs3 n).2 hk)
        exact ⟨hvar n hk w hmem, i, (hidx n i).2 (Or.inl hi), hi⟩
      have hVn : n ∈ keys c'.vars → get? s.constants n = none := by
        intro hk
        rw [hcn, get?_eq_none_iff]
        exact fun hk' => hR.constNotVar n hk' hk
      cases w with
      | none => simpa [direct, num] using hC none (by rw [hcn]; exact hR.null n hmem)
      | num q => simpa [direct, num] using hC (some q) (by rw [hcn]; exact hR.number n q hmem)
      | dist b =>
        have hk : n ∈ keys c'.vars := by rw [mem_keys_iff, hR.dist n b hmem]; rfl
        obtain ⟨hd, i, h5, h6⟩ := hV hk
        rw [hI i n (hVn hk) h5 h6]
        exact hd.symm
      | lazy ip f args =>
        obtain ⟨a, -, h7, -⟩ := hR.lazy n ip f args hmem
        have hk : n ∈ keys c'.vars := by rw [mem_keys_iff, h7]; rfl
        obtain ⟨hd, i, h5, h6⟩ := hV hk
        rw [hI i n (hVn hk) h5 h6]
        exact hd.symm
      | other =>
        exfalso
        have := (Guru.pass1_spec params [] {} Guru.Inv1.init (by simpa [keys] using hm.nodup)).2 ⟨_, hmem, by simp [Guru.Valid]⟩
        unfold Guru.classify at hc
        simp [this] at hc
      | str t =>
        obtain ⟨v, hv, hns⟩ := hm.aliases n t hmem
        simp only [get?_of_mem hm.nodup hv, Option.bind_some]
        have hA : t ∈ keys c'.vars → ∃ i, get? s.index n = some i ∧ s.names[i]? = some t ∧ get? s.constants n = none := by
          intro hk
          obtain ⟨i, hi⟩ := List.getElem?_of_mem ((hs3 t).2 hk)
          have ha := (hR.aliasVar n t).2 ⟨hmem, hk⟩
          refine ⟨i, (hidx n i).2 (Or.inr ⟨t, ha, hi⟩), hi, ?_⟩
          rw [hcn, get?_eq_none_iff]
          intro hk'
          exact hR.constNotAlias n hk' (by rw [mem_keys_iff, ha]; rfl)
        cases v with
        | none => simpa [direct, num] using hC none (by rw [hcn]; exact hR.aliasNull n t hmem hv)
        | num q => simpa [direct, num] using hC (some q) (by rw [hcn]; exact hR.aliasNumber n t q hmem hv)
        | str u => exact absurd rfl (hns u)
        | dist b =>
          have hk : t ∈ keys c'.vars := by rw [mem_keys_iff, hR.dist t b hv]; rfl
          obtain ⟨i, h5, h6, h7⟩ := hA hk
          rw [hI i t h7 h5 h6]
          rfl
        | lazy ip f args =>
          obtain ⟨a, -, h8, -⟩ := hR.lazy t ip f args hv
          have hk : t ∈ keys c'.vars := by rw [mem_keys_iff, h8]; rfl
          obtain ⟨i, h5, h6, h7⟩ := hA hk
          rw [hI i t h7 h5 h6]
          rfl
        | other =>
          exfalso
          have := (Guru.pass1_spec params [] {} Guru.Inv1.init (by simpa [keys] using hm.nodup)).2 ⟨_, hv, by simp [Guru.Valid]⟩
          unfold Guru.classify at hc
          simp [this] at hc

/-! ## Sample sites -/

theorem mem_independent : ∀ (ms : List (Marg XR)) (i j : Nat), j ∈ independent i ms ↔ ∃ k b, j = i + k ∧ ms[k]? = some (.dist b)
  | [], i, j => by simp [independent]
  | .dist b :: ms, i, j => by
    rw [independent, List.mem_cons, mem_independent ms (i + 1) j]
    constructor
    · rintro (rfl | ⟨k, b', rfl, hk⟩)
      · exact ⟨0, b, rfl, by simp⟩
      · exact ⟨k + 1, b', by omega, by simpa using hk⟩
    · rintro ⟨k, b', rfl, hk⟩
      cases k with
      | zero => exact Or.inl rfl
      | succ k => exact Or.inr ⟨k, b', by omega, by simpa using hk⟩
  | .part f :: ms, i, j => by
    rw [independent, mem_independent ms (i + 1) j]
    constructor
    · rintro ⟨k, b', rfl, hk⟩
      exact ⟨k + 1, b', by omega, by simpa using hk⟩
    · rintro ⟨k, b', rfl, hk⟩
      cases k with
      | zero => simp at hk
      | succ k => exact ⟨k, b', by omega, by simpa using hk⟩

theorem independent_nodup : ∀ (ms : List (Marg XR)) (i : Nat), (independent i ms).Nodup
  | [], i => by simp [independent]
  | .dist b :: ms, i => by
    rw [independent, List.nodup_cons]
    refine ⟨?_, independent_nodup ms (i + 1)⟩
    rw [mem_independent]
    rintro ⟨k, b', hk, -⟩
    omega
  | .part f :: ms, i => independent_nodup ms (i + 1)

theorem sitesInd_eq (x : List XR) (G : Nat → XR) : ∀ (ms : List (Marg XR)) (i : Nat),
    (∀ k b, ms[k]? = some (.dist b) → b.logProb (.one (x.getD (i + k) .nan)) = G (i + k)) →
    sitesInd i ms x = ((independent i ms).map G).sum
  | [], i, _ => rfl
  | .dist b :: ms, i, h => by
    have h0 := h 0 b (by simp)
    rw [sitesInd, independent, List.map_cons, List.sum_cons, sitesInd_eq x G ms (i + 1)]
    · rw [← Nat.add_zero i, h0]
    · intro k b' hk
      have := h (k + 1) b' (by simpa using hk)
      rwa [show i + 1 + k = i + (k + 1) by omega]
  | .part f :: ms, i, h => by
    rw [sitesInd, independent, sitesInd_eq x G ms (i + 1)]
    intro k b' hk
    have := h (k + 1) b' (by simpa using hk)
    rwa [show i + 1 + k = i + (k + 1) by omega]

/-- Log prior by index. -/
noncomputable def term (params : Dict String (PVal XR)) (value : String → XR) (names : List String) (i : Nat) : XR :=
  ((names[i]?).map (logPriorOf params value)).getD 0

theorem sum_term (params : Dict String (PVal XR)) (value : String → XR) (names : List String) :
    ((List.range names.length).map (term params value names)).sum = (names.map (logPriorOf params value)).sum := by
  congr 1
  apply List.ext_getElem?
  intro i
  rw [List.getElem?_map, List.getElem?_map]
  by_cases hi : i < names.length
  · simp [hi, term]
  · rw [List.getElem?_eq_none (by simpa using hi), List.getElem?_eq_none (by simpa using hi)]; rfl

theorem sites_eq (hord : ∀ l, (ord l).Perm l) (hm : Meaningful params) (h : Guru.setup ord params extra = .ok s) (value : String → XR) :
    sites s (s.names.map value) = some (XR.sum (s.names.map (logPriorOf params value))) := by
  have hget : ∀ i n, s.names[i]? = some n → (s.names.map value).getD i .nan = value n := by
    intro i n hi
    rw [List.getD_eq_getElem?_getD, List.getElem?_map, hi]; rfl
  have hind : sitesInd 0 s.marginals (s.names.map value) = ((independent 0 s.marginals).map (term params value s.names)).sum := by
    refine sitesInd_eq _ _ _ 0 fun k b hk => ?_
    have hk' : k < s.names.length := by rw [← marginals_length hm h]; exact (List.getElem?_eq_some_iff.1 hk).1
    have hn : s.names[k]? = some s.names[k] := List.getElem?_eq_getElem hk'
    rw [Nat.zero_add, hget k _ hn, term, hn]
    rcases marginal hm h k _ hn with ⟨b', hb, e⟩ | ⟨f, a, hb, e⟩
    · rw [hk] at e
      simp only [Option.some.injEq, Marg.dist.injEq] at e
      subst e
      simp [logPriorOf, inst_dist hm hb]
    · rw [hk] at e; cases e
  cases hl : s.lazy with
  | none =>
    obtain ⟨bs, h1, h2⟩ := allDists_eq s.marginals ((consistent hord hm h).1 hl)
    simp only [sites, hl, h1, Option.some.injEq]
    rw [hind, XR.sum_eq, ← sum_term]
    congr 1
    have : independent 0 s.marginals = List.range s.names.length := by
      rw [← marginals_length hm h, h2]
      have : ∀ (bs : List (Base XR)) i, independent i (bs.map Marg.dist) = List.range' i bs.length := by
        intro bs
        induction bs with
        | nil => intro i; rfl
        | cons b bs ih => intro i; simp [independent, ih, List.range'_succ]
      rw [this, List.length_map, List.range_eq_range']
    rw [this]
  | some p =>
    obtain ⟨deps, order⟩ := p
    obtain ⟨hc, -, hdeps⟩ := (consistent hord hm h).2 deps order hl
    have hordN : order.Nodup := hc.orderPerm.nodup_iff.2 hc.keysNodup
    have key : ∀ (is pre done : List Nat), order = pre ++ is → (∀ v ∈ pre, v ∈ done) → (∀ v ∈ independent 0 s.marginals, v ∈ done) →
        sitesLazy s.marginals deps (s.names.map value) is done = some ((is.map (term params value s.names)).sum) := by
      intro is
      induction is with
      | nil => intro pre done _ _ _; rfl
      | cons i is ih =>
        intro pre done hpre hd1 hd2
        obtain ⟨f, hf⟩ := (hc.isLazy i).1 (by rw [hpre]; simp)
        have hi' : i < s.names.length := by rw [← marginals_length hm h]; exact (List.getElem?_eq_some_iff.1 hf).1
        have hn : s.names[i]? = some s.names[i] := List.getElem?_eq_getElem hi'
        rcases marginal hm h i _ hn with ⟨b', hb, e⟩ | ⟨f', a, hb, e⟩
        · rw [hf] at e; cases e
        rw [hf] at e
        simp only [Option.some.injEq, Marg.part.injEq] at e
        subst e
        obtain ⟨d, hd, hfa⟩ := hdeps i _ true f a hn hb
        have hkw : kwargs (fun v => if v ∈ done then ((s.names.map value)[v]?).map ([·]) else none) d =
            some (a.map fun p => (p.1, [value p.2])) := by
          rw [← deps_values value (at_eq value s.names) hfa]
          refine GW.Lazy.kwargs_eq fun q hq => ?_
          obtain ⟨hq1, hq2⟩ := hc.respects pre i is hpre d hd q hq
          have hqn : s.names[q.2]? = some (s.names[q.2]'(by rw [← marginals_length hm h]; exact hq1)) := List.getElem?_eq_getElem _
          have hin : q.2 ∈ done := by
            by_cases ho : q.2 ∈ order
            · exact hd1 _ (hq2 ho)
            · refine hd2 _ ((mem_independent _ _ _).2 ?_)
              rcases marginal hm h q.2 _ hqn with ⟨b', -, e⟩ | ⟨f', a', -, e⟩
              · exact ⟨q.2, b', by omega, e⟩
              · exact absurd ((hc.isLazy q.2).2 ⟨f', e⟩) ho
          simp only [if_pos hin]
          rw [at_eq value _ _ _ hqn, List.getElem?_map, hqn]; rfl
        have ih' := ih (pre ++ [i]) (i :: done) (by rw [hpre]; simp) (by
          intro v hv
          rcases List.mem_append.1 hv with hv | hv
          · exact List.mem_cons_of_mem _ (hd1 v hv)
          · rw [List.mem_singleton.1 hv]; simp) (fun v hv => List.mem_cons_of_mem _ (hd2 v hv))
        rw [sitesLazy, GW.Lazy.lookup_of_mem hc.keysNodup hd]
        simp only [Option.bind_eq_bind, Option.bind_some, hkw, hf, ih']
        rw [hget i _ hn, List.map_cons, List.sum_cons]
        simp [term, hn, logPriorOf, inst_lazy hm hb]
    have hk := key order [] (independent 0 s.marginals) rfl (by simp) (fun _ hv => hv)
    simp only [sites, hl, hk, Option.bind_eq_bind, Option.bind_some]
    rw [hind, XR.sum_eq, ← sum_term, ← List.sum_append, ← List.map_append]
    refine congrArg some (List.Perm.sum_eq (List.Perm.map _ ?_))
    rw [List.perm_ext_iff_of_nodup]
    · intro j
      rw [List.mem_append, List.mem_range, mem_independent]
      constructor
      · rintro (⟨k, b, rfl, hk'⟩ | ho)
        · rw [← marginals_length hm h, Nat.zero_add]; exact (List.getElem?_eq_some_iff.1 hk').1
        · obtain ⟨f, hf⟩ := (hc.isLazy j).1 ho
          rw [← marginals_length hm h]; exact (List.getElem?_eq_some_iff.1 hf).1
      · intro hj
        rcases marginal hm h j _ (List.getElem?_eq_getElem hj) with ⟨b, -, e⟩ | ⟨f, a, -, e⟩
        · exact Or.inl ⟨j, b, by omega, e⟩
        · exact Or.inr ((hc.isLazy j).2 ⟨f, e⟩)
    · rw [List.nodup_append]
      refine ⟨independent_nodup _ _, hordN, ?_⟩
      rintro a ha b hb rfl
      obtain ⟨k, b', hk1, hk2⟩ := (mem_independent _ _ _).1 ha
      obtain ⟨f, hf⟩ := (hc.isLazy a).1 hb
      rw [show a = k by omega, hk2] at hf
      cases hf
    · exact List.nodup_range

end GW.Sage
