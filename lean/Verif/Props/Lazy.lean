import Verif.Lemmas.Lazy
import Verif.Spec.Lazy

/-!
# C04: LazyJointDistribution
-/

namespace GW.Lazy
open GW GW.Joint

variable {α : Type}

theorem map_const_range_get {β : Type} (n : Nat) (g : Nat → β) (i : Nat) (h : i < n) :
    ((List.range n).map g)[i]? = some (g i) := by simp [h]

/-- If the first `v+1` marginals are scalar then coordinate `v` of the concatenation is the draw of marginal `v`. -/
theorem coord_of_scalar_prefix : ∀ (ss : List (Slice α)) (v : Nat), v < ss.length →
    (∀ j ≤ v, ∀ s, ss[j]? = some s → ∃ a, s = .one a) →
    ∃ a, ss[v]? = some (.one a) ∧ (ss.flatMap Slice.toList)[v]? = some a
  | [], v, h, _ => by simp at h
  | s :: ss, 0, _, hs => by
    obtain ⟨a, rfl⟩ := hs 0 (Nat.le_refl _) s (by simp)
    exact ⟨a, by simp, by simp [Slice.toList]⟩
  | s :: ss, v + 1, h, hs => by
    obtain ⟨a, rfl⟩ := hs 0 (Nat.zero_le _) s (by simp)
    obtain ⟨b, h1, h2⟩ := coord_of_scalar_prefix ss v (by simpa using h)
      (fun j hj s' hs' => hs (j + 1) (by omega) s' (by simpa using hs'))
    exact ⟨b, by simpa using h1, by simpa [Slice.toList] using h2⟩

/-- The declared shape is the one the constructor uses. -/
theorem eventShape_declared {shapes : Option (List (Option Nat))} {i : Nat} {sh : Option Nat} (h : Declared shapes i sh)
    (f : List (String × List α) → Base α) : eventShape shapes i (Marg.part f) = some sh := by
  rcases h with ⟨rfl | rfl, rfl⟩ | ⟨a, l, rfl, h⟩
  · rfl
  · rfl
  · exact h

theorem ScalarDeps.shape {ms : List (Marg α)} {deps : List (Nat × List (String × Nat))} {shapes : Option (List (Option Nat))} (h : ScalarDeps ms deps shapes) :
    ∀ p ∈ deps, ∀ q ∈ p.2, ∀ j ≤ q.2, ∀ m, ms[j]? = some m → eventShape shapes j m = some none := by
  intro p hp q hq j hj m hm
  cases m with
  | dist b => rw [eventShape, (h p hp q hq j hj).1 b hm]
  | part f => exact eventShape_declared ((h p hp q hq j hj).2 f hm) f

/-- **C04 (part).** For a consistent lazy joint whose dependencies are preceded only by scalar marginals, and
for every iteration order `ind` of the independent indices: `sample` succeeds; each marginal draws once, with a key of its
own, from its distribution instantiated with the values *drawn* for its dependencies; the sample is the
concatenation of these draws; and `log_prob`/`support` of that sample evaluate exactly the same instantiated
distributions at exactly these draws.

Missing for the full property: vector-valued marginals before a dependency, where it is false
(`C04_vector_marginal_violated`). -/
theorem C04_sample_and_logProb_agree_partial (ms : List (Marg α)) (deps : List (Nat × List (String × Nat)))
    (order : List Nat) (shapes : Option (List (Option Nat))) (hc : Consistent ms deps order shapes)
    (hs : ScalarDeps ms deps shapes) (ind : List Nat) (hind : ind.Nodup)
    (hmem : ∀ i, i ∈ ind ↔ i < ms.length ∧ i ∉ order) (junk : α) (key : Key) :
    ∃ (d : LazyJoint α) (insts : List (Base α)) (keys : List Key) (draws : List (Slice α)),
      mkLazy ms (some deps) order shapes none = .ok d ∧
      insts.length = ms.length ∧ keys.length = ms.length ∧ keys.Nodup ∧
      draws = List.zipWith Base.sample insts keys ∧
      (∀ (i : Nat) (b : Base α), ms[i]? = some (.dist b) → insts[i]? = some b) ∧
      (∀ (i : Nat) f, ms[i]? = some (.part f) → ∃ dep, (i, dep) ∈ deps ∧
        insts[i]? = some (f (dep.map fun q => (q.1, ((draws[q.2]?).map Slice.toList).getD [])))) ∧
      d.sample ind junk key = some (draws.flatMap Slice.toList) ∧
      d.logProb (draws.flatMap Slice.toList) = some (List.zipWith Base.logProb insts draws).sum ∧
      d.support (draws.flatMap Slice.toList) = some ((List.zipWith Base.support insts draws).all id) := by
  classical
  have hlt : ∀ i ∈ order, i < ms.length := fun i hi => by
    obtain ⟨f, hf⟩ := (hc.isLazy i).1 hi
    exact (List.getElem?_eq_some_iff.1 hf).1
  have hordN : order.Nodup := hc.orderPerm.nodup_iff.2 hc.keysNodup
  -- sampling
  have hnd0 : ([] ++ ind : List Nat).Nodup := by simpa using hind
  have hindD : ∀ i ∈ ind, ∃ b, ms[i]? = some (.dist b) := by
    intro i hi
    obtain ⟨h1, h2⟩ := (hmem i).1 hi
    have := List.getElem?_eq_getElem h1
    cases hm : ms[i] with
    | dist b => exact ⟨b, by rw [this, hm]⟩
    | part f => exact absurd ((hc.isLazy i).2 ⟨f, by rw [this, hm]⟩) h2
  obtain ⟨s1, hs1, hinv1⟩ := sampleInd_spec (deps := deps) (key0 := key) ind [] _ (Inv.init ms deps key junk) hnd0 hindD
  have hnd1 : (ind ++ order).Nodup := by
    rw [List.nodup_append]
    refine ⟨hind, hordN, ?_⟩
    rintro a ha b hb rfl
    exact ((hmem a).1 ha).2 hb
  simp only [List.nil_append] at hs1 hinv1
  obtain ⟨k', S, hs2, hinv⟩ := sampleOrd_spec hc.keysNodup order ind s1 hinv1 hnd1 (by
    intro pre i post e
    obtain ⟨f, hf⟩ := (hc.isLazy i).1 (by simp [e])
    have : i ∈ deps.map Prod.fst := hc.orderPerm.mem_iff.1 (by simp [e])
    obtain ⟨⟨i', dep⟩, hd, hi'⟩ := List.mem_map.1 this
    simp only at hi'; subst hi'
    refine ⟨f, dep, hf, hd, fun q hq => ?_⟩
    obtain ⟨h1, h2⟩ := hc.respects pre i' post e dep hd q hq
    refine ⟨?_, h1⟩
    by_cases ho : q.2 ∈ order
    · simp [h2 ho]
    · simp [(hmem q.2).2 ⟨h1, ho⟩])
  set done := ind ++ order with hdone
  have hall : ∀ i, i < ms.length → i ∈ done := by
    intro i hi
    by_cases ho : i ∈ order
    · simp [hdone, ho]
    · simp [hdone, (hmem i).2 ⟨hi, ho⟩]
  -- position of each index in the processing order
  have hpos : ∀ i, i < ms.length → done[done.idxOf i]? = some i := fun i hi => by
    have h := List.idxOf_lt_length_iff.2 (hall i hi)
    rw [List.getElem?_eq_getElem h]
    simp
  have hex : ∀ i, i < ms.length → ∃ b,
      S[i]? = some (b.sample (.sub (chain key (done.idxOf i)) 1)).toList ∧
      (ms[i]? = some (.dist b) ∨ ∃ f dep, ms[i]? = some (.part f) ∧ (i, dep) ∈ deps ∧
      (∀ q ∈ dep, q.2 ∈ done ∧ q.2 < ms.length) ∧
      b = f (dep.map fun q => (q.1, (S[q.2]?).getD []))) := fun i hi => hinv.ok _ i (hpos i hi)
  -- lists
  have hlist : ∃ insts : List (Base α), insts.length = ms.length ∧ ∀ (i : Nat) (b : Base α), insts[i]? = some b →
      S[i]? = some (b.sample (.sub (chain key (done.idxOf i)) 1)).toList ∧
      (ms[i]? = some (.dist b) ∨ ∃ f dep, ms[i]? = some (.part f) ∧ (i, dep) ∈ deps ∧
      (∀ q ∈ dep, q.2 ∈ done ∧ q.2 < ms.length) ∧
      b = f (dep.map fun q => (q.1, (S[q.2]?).getD []))) := by
    refine ⟨(List.finRange ms.length).map fun (i : Fin ms.length) => (hex i.1 i.2).choose, by simp, ?_⟩
    intro i b hb
    obtain ⟨hi, hb⟩ := List.getElem?_eq_some_iff.1 hb
    simp only [List.length_map, List.length_finRange] at hi
    simp only [List.getElem_map, List.getElem_finRange] at hb
    subst hb
    exact (hex i hi).choose_spec
  obtain ⟨insts, hil, hinsts⟩ := hlist
  set keys := (List.range ms.length).map fun i => Key.sub (chain key (done.idxOf i)) 1 with hkeys
  have hkl : keys.length = ms.length := by simp [hkeys]
  set draws := List.zipWith Base.sample insts keys with hdraws
  have hdl : draws.length = ms.length := by simp [hdraws, hil, hkl]
  have hget : ∀ (i : Nat) (b : Base α), insts[i]? = some b →
      draws[i]? = some (b.sample (.sub (chain key (done.idxOf i)) 1)) := by
    intro i b hb
    have hi : i < ms.length := by rw [← hil]; exact (List.getElem?_eq_some_iff.1 hb).1
    have hk : keys[i]? = some (Key.sub (chain key (done.idxOf i)) 1) := by simp [hkeys, hi]
    rw [hdraws, List.getElem?_zipWith, hb, hk]
  have hinstEx : ∀ i, i < ms.length → ∃ b, insts[i]? = some b := fun i hi =>
    ⟨_, List.getElem?_eq_getElem (by rw [hil]; exact hi)⟩
  have hSd : ∀ i : Nat, S[i]? = (draws[i]?).map Slice.toList := by
    intro i
    by_cases hi : i < ms.length
    · obtain ⟨b, hb⟩ := hinstEx i hi
      rw [hget i b hb, (hinsts i b hb).1]; rfl
    · rw [List.getElem?_eq_none (by rw [hinv.len]; omega), List.getElem?_eq_none (by rw [hdl]; omega)]; rfl
  have hS : S = draws.map Slice.toList := by
    apply List.ext_getElem?
    intro i
    rw [hSd, List.getElem?_map]
  have hflat : S.flatten = draws.flatMap Slice.toList := by rw [hS, List.flatMap]
  have hdist : ∀ (i : Nat) (b : Base α), ms[i]? = some (.dist b) → insts[i]? = some b := by
    intro i b hb
    obtain ⟨b', hb'⟩ := hinstEx i (List.getElem?_eq_some_iff.1 hb).1
    rcases (hinsts i b' hb').2 with h | ⟨f, _, h, _⟩
    · rw [hb] at h; cases h; exact hb'
    · rw [hb] at h; cases h
  have hpart : ∀ (i : Nat) f, ms[i]? = some (.part f) → ∃ dep, (i, dep) ∈ deps ∧
        insts[i]? = some (f (dep.map fun q => (q.1, ((draws[q.2]?).map Slice.toList).getD []))) := by
    intro i f hf
    obtain ⟨b', hb'⟩ := hinstEx i (List.getElem?_eq_some_iff.1 hf).1
    rcases (hinsts i b' hb').2 with h | ⟨g, dep, h, h2, h3, h4⟩
    · rw [hf] at h; cases h
    · rw [hf] at h; cases h
      refine ⟨dep, h2, ?_⟩
      rw [hb', h4]
      simp only [hSd]
  -- shapes
  have hshape : ∀ (j : Nat) m b, ms[j]? = some m → insts[j]? = some b →
      eventShape shapes j m = some b.shape := by
    intro j m b hm hb
    cases m with
    | dist b' =>
      have := hdist j b' hm
      rw [hb] at this; cases this; rfl
    | part f =>
      obtain ⟨dep, _, h⟩ := hpart j f hm
      rw [hb] at h; cases h
      exact eventShape_declared (hc.shapeOk j f _ hm) f
  have hfits : List.Forall₂ Fits (insts.map Dist.base) draws := by
    rw [List.forall₂_iff_get]
    refine ⟨by simp [hil, hdl], fun i h1 h2 => ?_⟩
    simp only [List.length_map] at h1
    have hb : insts[i]? = some insts[i] := List.getElem?_eq_getElem h1
    have hd := hget i _ hb
    have hdi : draws[i]? = some draws[i] := List.getElem?_eq_getElem h2
    rw [hdi] at hd
    simp only [Option.some.injEq] at hd
    simp only [List.get_eq_getElem, List.getElem_map]
    rw [hd]
    have hi : i < ms.length := by omega
    have hmi := List.getElem?_eq_getElem hi
    cases hm : ms[i] with
    | dist b' =>
      rw [hm] at hmi
      have := hdist i b' hmi
      rw [hb] at this
      simp only [Option.some.injEq] at this
      rw [this]
      exact hc.drawDist i b' _ hmi
    | part f =>
      rw [hm] at hmi
      obtain ⟨dep, _, h⟩ := hpart i f hmi
      rw [hb] at h
      simp only [Option.some.injEq] at h
      rw [h]
      exact hc.drawPart i f _ _ hmi
  have hloop := shapeLoop_eq shapes ms insts 0 0 hil.symm (by
    intro j m b hm hb; rw [Nat.zero_add]; exact hshape j m b hm hb)
  have hmsne : ms.isEmpty = false := by
    cases hms : ms with
    | nil =>
      obtain ⟨i, hi⟩ := List.exists_mem_of_ne_nil _ hc.nonempty
      have := hlt i hi
      simp [hms] at this
    | cons _ _ => rfl
  have hol : order.length = deps.length := by simpa using hc.orderPerm.length_eq
  have hmk : mkLazy ms (some deps) order shapes none =
      .ok ⟨ms, deps, order, shapedValues 0 (insts.map Dist.base), 0 + Dist.total (insts.map Dist.base), none⟩ := by
    have h0 : order.length ≠ 0 := by simpa using hc.nonempty
    simp only [mkLazy, hmsne, Bool.false_eq_true, if_false, hol, ne_eq, not_true_eq_false, hloop]
    have : deps.length ≠ 0 := by omega
    simp [this]
  -- instantiation from the event vector
  have henv : ∀ p ∈ deps, ∀ q ∈ p.2,
      eventEnv (draws.flatMap Slice.toList) q.2 = some (((draws[q.2]?).map Slice.toList).getD []) := by
    intro p hp q hq
    have hpo : p.1 ∈ order := hc.orderPerm.mem_iff.2 (List.mem_map.2 ⟨p, hp, rfl⟩)
    obtain ⟨pre, post, e⟩ := List.append_of_mem hpo
    have hql := (hc.respects pre p.1 post e p.2 hp q hq).1
    obtain ⟨a, h1, h2⟩ := coord_of_scalar_prefix draws q.2 (by rw [hdl]; exact hql) (by
      intro j hj s hsj
      have hjl : j < ms.length := by omega
      have hsh := hs.shape p hp q hq j hj _ (List.getElem?_eq_getElem hjl)
      obtain ⟨b, hb⟩ := hinstEx j hjl
      have h1 := hshape j _ b (List.getElem?_eq_getElem hjl) hb
      rw [hsh] at h1
      have hf := (List.forall₂_iff_get.1 hfits).2 j (by simpa [hil] using hjl) (by rw [hdl]; exact hjl)
      simp only [List.get_eq_getElem, List.getElem_map] at hf
      have e1 : insts[j]'(by rw [hil]; exact hjl) = b := by
        have := List.getElem?_eq_getElem (l := insts) (i := j) (by rw [hil]; exact hjl)
        rw [hb] at this; simpa using this.symm
      have e2 : draws[j]'(by rw [hdl]; exact hjl) = s := by
        have := List.getElem?_eq_getElem (l := draws) (i := j) (by rw [hdl]; exact hjl)
        rw [hsj] at this; simpa using this.symm
      rw [e1, e2] at hf
      simp only [Option.some.injEq] at h1
      rcases fits_cases hf with ⟨_, a, rfl⟩ | ⟨l, hd, rfl⟩
      · exact ⟨a, rfl⟩
      · simp [Dist.shape, ← h1] at hd)
    simp [eventEnv, h1, h2, Slice.toList]
  obtain ⟨ms', hi1, hi2, hi3, hi4⟩ := instLoop_spec (val := fun v => ((draws[v]?).map Slice.toList).getD [])
    deps ms hc.keysNodup (fun p hp => (hc.isLazy p.1).1 (hc.orderPerm.mem_iff.2 (List.mem_map.2 ⟨p, hp, rfl⟩))) henv
  have hms' : ms' = insts.map Marg.dist := by
    apply List.ext_getElem?
    intro i
    rw [List.getElem?_map]
    by_cases hi : i < ms.length
    · have hmi := List.getElem?_eq_getElem hi
      cases hm : ms[i] with
      | dist b =>
        rw [hm] at hmi
        rw [hdist i b hmi, hi4 i, hmi]; · rfl
        intro hk
        have := (hc.isLazy i).1 (hc.orderPerm.mem_iff.2 hk)
        obtain ⟨f, hf⟩ := this
        rw [hmi] at hf; cases hf
      | part f =>
        rw [hm] at hmi
        obtain ⟨dep, h1, h2⟩ := hpart i f hmi
        rw [h2, hi3 (i, dep) h1 f hmi]; rfl
    · rw [List.getElem?_eq_none (by omega), List.getElem?_eq_none (by omega)]; rfl
  have hsl : insts.length = (shapedValues 0 (insts.map Dist.base)).length := by
    have : ∀ k (l : List (Joint.Dist α)), (shapedValues k l).length = l.length := by
      intro k l
      induction l generalizing k with
      | nil => rfl
      | cons d l ih => rw [shapedValues]; cases d.shape <;> simp [ih]
    rw [this]; simp
  refine ⟨_, insts, keys, draws, hmk, hil, hkl, ?_, rfl, hdist, hpart, ?_, ?_, ?_⟩
  · rw [hkeys]
    refine List.Nodup.map_on ?_ List.nodup_range
    intro i hi j hj h
    simp only [Key.sub.injEq, and_true] at h
    have h := congrArg depth h
    rw [depth_chain, depth_chain] at h
    have : done.idxOf i = done.idxOf j := by omega
    have hi' := hpos i (by simpa using hi)
    have hj' := hpos j (by simpa using hj)
    rw [this, hj'] at hi'
    simpa using hi'.symm
  · simp only [LazyJoint.sample, Option.bind_eq_bind]
    rw [show sampleInd ms ind key (ms.map fun _ => [junk]) = _ from hs1]
    simp only [Option.bind_some]
    rw [hs2]
    simp only [Option.bind_some, Option.pure_def, Option.some.injEq]
    exact hflat
  · simp only [LazyJoint.logProb, hi1, Option.bind_eq_bind, Option.bind_some]
    rw [hms', logProbLoop_eq _ _ _ hsl]
    exact LP_blocks insts draws hfits
  · simp only [LazyJoint.support, hi1, Option.bind_eq_bind, Option.bind_some]
    rw [hms', supportLoop_eq _ _ _ hsl]
    exact SP_blocks insts draws hfits

/-- A scalar marginal that always draws `5`. -/
noncomputable def exFive : Base Nat := ⟨none, fun _ => 0, fun s => s.toList == [5], fun _ => .one 5⟩
/-- A two-dimensional marginal that always draws `(1, 2)`. -/
noncomputable def exPair : Base Nat := ⟨some 2, fun _ => 0, fun s => s.toList == [1, 2], fun _ => .many [1, 2]⟩
/-- A lazy marginal concentrated on the value of its dependency. -/
noncomputable def exDirac (kw : List (String × List Nat)) : Base Nat :=
  ⟨none, fun _ => 0, fun s => s.toList == [(kw.flatMap (·.2)).headD 0], fun _ => .one ((kw.flatMap (·.2)).headD 0)⟩

theorem exDirac_fits (kw k) : Fits (.base (exDirac kw)) ((exDirac kw).sample k) := by
  simp [Fits, Dist.shape, exDirac]

theorem ex_cases {m₀ : List (Base Nat)} {i : Nat} {b : Base Nat} {f : List (String × List Nat) → Base Nat}
    (h : ((m₀.map Marg.dist) ++ [Marg.part f])[i]? = some (.dist b)) : b ∈ m₀ := by
  rcases Nat.lt_or_ge i m₀.length with hlt | hge
  · rw [List.getElem?_append_left (by simpa using hlt), List.getElem?_map] at h
    cases h' : m₀[i]? with
    | none => rw [h'] at h; simp at h
    | some c =>
      rw [h'] at h
      simp only [Option.map_some, Option.some.injEq, Marg.dist.injEq] at h
      subst h
      exact List.mem_of_getElem? h'
  · rw [List.getElem?_append_right (by simpa using hge)] at h
    cases hk : i - (List.map Marg.dist m₀).length with
    | zero => rw [hk] at h; simp at h
    | succ n => rw [hk] at h; simp at h

theorem ex_part {m₀ : List (Base Nat)} {i : Nat} {f g : List (String × List Nat) → Base Nat} :
    ((m₀.map Marg.dist) ++ [Marg.part f])[i]? = some (.part g) ↔ i = m₀.length ∧ g = f := by
  constructor
  · intro h
    rcases Nat.lt_or_ge i m₀.length with hlt | hge
    · rw [List.getElem?_append_left (by simpa using hlt), List.getElem?_map] at h
      cases h' : m₀[i]? <;> rw [h'] at h <;> simp at h
    · rw [List.getElem?_append_right (by simpa using hge)] at h
      cases hk : i - (List.map Marg.dist m₀).length with
      | zero =>
        rw [hk] at h
        simp only [List.length_map] at hk
        simp only [List.getElem?_cons_zero, Option.some.injEq, Marg.part.injEq] at h
        exact ⟨by omega, h.symm⟩
      | succ n => rw [hk] at h; simp at h
  · rintro ⟨rfl, rfl⟩
    rw [List.getElem?_append_right (by simp)]
    simp

/-- A lazy joint with independent marginals `m₀` and one lazy marginal depending on marginal `v` is consistent. -/
theorem ex_consistent (m₀ : List (Base Nat)) (v : Nat) (hv : v < m₀.length)
    (hm : ∀ b ∈ m₀, ∀ k, Fits (.base b) (b.sample k)) :
    Consistent (m₀.map Marg.dist ++ [.part exDirac]) [(m₀.length, [("loc", v)])] [m₀.length] none where
  nonempty := by simp
  keysNodup := by simp
  orderPerm := by simp
  isLazy := by intro i; simp [ex_part]
  respects := by
    intro pre i post h dep hd q hq
    simp only [List.mem_singleton, Prod.mk.injEq] at hd
    obtain ⟨_, rfl⟩ := hd
    simp only [List.mem_singleton] at hq
    subst hq
    simp only [List.length_append, List.length_map, List.length_singleton, List.mem_singleton]
    omega
  shapeOk := by
    intro i f kw h
    obtain ⟨_, rfl⟩ := ex_part.1 h
    exact Or.inl ⟨Or.inl rfl, rfl⟩
  drawDist := fun i b k h => hm b (ex_cases h) k
  drawPart := by
    intro i f kw k h
    obtain ⟨_, rfl⟩ := ex_part.1 h
    exact exDirac_fits kw k

/-- The hypotheses of `C04_sample_and_logProb_agree_partial` are met by a two-scalar, one-lazy joint. -/
example : ∃ (ms : List (Marg Nat)) (deps : List (Nat × List (String × Nat))) (order ind : List Nat)
    (shapes : Option (List (Option Nat))), Consistent ms deps order shapes ∧ ScalarDeps ms deps shapes ∧ ind.Nodup ∧
    (∀ i, i ∈ ind ↔ i < ms.length ∧ i ∉ order) := by
  refine ⟨_, _, _, [0, 1], none, ex_consistent [exFive, exFive] 1 (by simp) ?_, ?_, by simp, ?_⟩
  · intro b hb k
    simp only [List.mem_cons, List.not_mem_nil, or_false, or_self] at hb
    subst hb
    simp [Fits, Dist.shape, exFive]
  · intro p hp q hq j hj
    refine ⟨fun b hb => ?_, fun f _ => Or.inl ⟨Or.inl rfl, rfl⟩⟩
    have := ex_cases hb
    simp only [List.mem_cons, List.not_mem_nil, or_false, or_self] at this
    subst this
    rfl
  · intro i
    simp
    omega

/-- A lazy vector-valued marginal that repeats the value of its dependency. -/
noncomputable def exTwice (kw : List (String × List Nat)) : Base Nat :=
  ⟨some 2, fun _ => 0, fun s => s.toList == List.replicate 2 ((kw.flatMap (·.2)).headD 0), fun _ => .many (List.replicate 2 ((kw.flatMap (·.2)).headD 0))⟩

/-- So are they by a joint with a declared vector-valued lazy marginal. -/
example : Consistent [.dist exFive, .part exTwice] [(1, [("loc", 0)])] [1] (some [none, some 2]) ∧
    ScalarDeps [.dist exFive, .part exTwice] [(1, [("loc", 0)])] (some [none, some 2]) := by
  have hp : ∀ (i : Nat) f, ([.dist exFive, .part exTwice] : List (Marg Nat))[i]? = some (.part f) ↔ i = 1 ∧ f = exTwice := by
    intro i f
    match i with
    | 0 => simp
    | 1 => simp [eq_comm]
    | n + 2 => simp
  have hd : ∀ (i : Nat) b, ([.dist exFive, .part exTwice] : List (Marg Nat))[i]? = some (.dist b) → i = 0 ∧ b = exFive := by
    intro i b
    match i with
    | 0 => simp [eq_comm]
    | 1 => simp
    | n + 2 => simp
  refine ⟨⟨by simp, by simp, by simp, by intro i; simp [hp], ?_, ?_, ?_, ?_⟩, ?_⟩
  · intro pre i post h dep hdep q hq
    simp only [List.mem_singleton, Prod.mk.injEq] at hdep
    obtain ⟨_, rfl⟩ := hdep
    simp only [List.mem_singleton] at hq
    subst hq
    simp
  · intro i f kw h
    obtain ⟨rfl, rfl⟩ := (hp i f).1 h
    exact Or.inr ⟨none, [some 2], rfl, rfl⟩
  · intro i b k h
    obtain ⟨rfl, rfl⟩ := hd i b h
    simp [Fits, Dist.shape, exFive]
  · intro i f kw k h
    obtain ⟨rfl, rfl⟩ := (hp i f).1 h
    simp [Fits, Dist.shape, exTwice]
  · intro p hpm q hq j hj
    simp only [List.mem_singleton] at hpm
    subst hpm
    simp only [List.mem_singleton] at hq
    subst hq
    obtain rfl : j = 0 := by simpa using hj
    exact ⟨fun b hb => by obtain ⟨_, rfl⟩ := hd 0 b hb; rfl, fun f hf => by simp at hf⟩

/-- **C04 (finding).** With a vector-valued marginal in front, `sample` hands a lazy marginal the draw of *marginal*
`v` while `log_prob`/`support` read *coordinate* `v` of the event: there is a consistent lazy joint, all of whose
marginals always draw inside their own support, whose own sample is outside its support. -/
theorem C04_vector_marginal_violated :
    ∃ (ms : List (Marg Nat)) (deps : List (Nat × List (String × Nat))) (order ind : List Nat) (d : LazyJoint Nat),
      Consistent ms deps order none ∧ mkLazy ms (some deps) order none none = .ok d ∧
      (∀ (i : Nat) b k, ms[i]? = some (.dist b) → b.support (b.sample k) = true) ∧
      (∀ (i : Nat) f kw k, ms[i]? = some (.part f) → (f kw).support ((f kw).sample k) = true) ∧
      (∀ i, i ∈ ind ↔ i < ms.length ∧ i ∉ order) ∧
      ∀ key, ∃ x, d.sample ind 0 key = some x ∧ d.support x = some false := by
  refine ⟨_, _, _, [0, 1], ⟨[exPair, exFive].map Marg.dist ++ [.part exDirac], [(2, [("loc", 1)])], [2],
    [.range 0 2, .idx 2, .idx 3], 4, none⟩,
    ex_consistent [exPair, exFive] 1 (by simp) ?_, rfl, ?_, ?_, ?_, ?_⟩
  · intro b hb k
    simp only [List.mem_cons, List.not_mem_nil, or_false] at hb
    rcases hb with rfl | rfl
    · simp [Fits, Dist.shape, exPair]
    · simp [Fits, Dist.shape, exFive]
  · intro i b k h
    have := ex_cases h
    simp only [List.mem_cons, List.not_mem_nil, or_false] at this
    rcases this with rfl | rfl <;> rfl
  · intro i f kw k h
    obtain ⟨_, rfl⟩ := ex_part.1 h
    simp [exDirac, Slice.toList]
  · intro i
    simp
    omega
  · intro key
    exact ⟨[1, 2, 5, 5], rfl, rfl⟩

/-- **C04.** Inconsistent constructor arguments raise: no marginals, empty order, missing dependencies, or
`partial_order` and `dependencies` of different lengths. -/
theorem C04_bad_arguments_rejected (ms : List (Marg α)) (deps : Option (List (Nat × List (String × Nat))))
    (order : List Nat) (shapes : Option (List (Option Nat))) (supp : Option (List α → Bool))
    (h : ms = [] ∨ order = [] ∨ deps = none ∨ ∃ l, deps = some l ∧ order.length ≠ l.length) :
    ∃ e, mkLazy ms deps order shapes supp = .error e := by
  unfold mkLazy
  split_ifs with h1 h2
  · exact ⟨_, rfl⟩
  · exact ⟨_, rfl⟩
  · rcases h with rfl | rfl | rfl | ⟨l, rfl, h⟩
    · simp at h1
    · simp at h2
    · exact ⟨_, rfl⟩
    · simp only [ne_eq, h, not_false_eq_true, if_true]
      exact ⟨_, rfl⟩

end GW.Lazy
