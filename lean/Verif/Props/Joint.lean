import Verif.Lemmas.Joint

/-!
# C01, C02, C03: JointDistribution
-/

namespace GW.Joint
open GW

variable {α : Type}

/-- **C01.** `JointDistribution(d₁,…,dₙ).log_prob` at the concatenation of one block per marginal (block `k`
of the event shape of `dₖ`) is the sum of the marginals' log-probs at their own blocks. -/
theorem C01_logProb_is_sum_over_blocks (ds : List (Dist α)) (hne : ds ≠ []) (bs : List (Slice α))
    (hfit : List.Forall₂ Fits ds bs) :
    ∃ d ls, mkJoint ds .none none = .ok d ∧
      List.Forall₂ (fun (p : Dist α × Slice α) l => p.1.logProb p.2 = some l) (ds.zip bs) ls ∧
      d.logProb (.many (bs.flatMap Slice.toList)) = some ls.sum := by
  have hd : mkJoint ds .none none = .ok (.joint ds none) := by
    cases ds with
    | nil => exact absurd rfl hne
    | cons _ _ => rfl
  suffices h : ∃ ls, List.Forall₂ (fun (p : Dist α × Slice α) l => p.1.logProb p.2 = some l) (ds.zip bs) ls ∧
      LP ds (bs.flatMap Slice.toList) = some ls.sum by
    obtain ⟨ls, h1, h2⟩ := h
    exact ⟨_, ls, hd, h1, by rw [Dist.logProb]; exact h2⟩
  clear hd hne
  induction hfit with
  | nil => exact ⟨[], by simp, by simp [LP_nil]⟩
  | @cons d b ds bs hf _ ih =>
    obtain ⟨ls, h1, h2⟩ := ih
    obtain ⟨l, hl⟩ := logProb_isSome d b hf
    refine ⟨l :: ls, by simpa using ⟨hl, h1⟩, ?_⟩
    rw [List.flatMap_cons, LP_cons hf, hl, h2]
    simp

/-- **C01.** Every vector of the joint event length is the concatenation of exactly one list of fitting
blocks, so the previous theorem determines `log_prob` everywhere. -/
theorem C01_blocks_exist_unique (ds : List (Dist α)) (hne : ds ≠ []) (x : List α) :
    ∃ d, mkJoint ds .none none = .ok d ∧
      (d.shape = some x.length →
        ∃! bs : List (Slice α), List.Forall₂ Fits ds bs ∧ bs.flatMap Slice.toList = x) := by
  have hd : mkJoint ds .none none = .ok (.joint ds none) := by
    cases ds with
    | nil => exact absurd rfl hne
    | cons _ _ => rfl
  refine ⟨_, hd, ?_⟩
  intro hx
  simp only [Dist.shape, Option.some.injEq] at hx
  clear hd hne
  induction ds generalizing x with
  | nil =>
    have : x = [] := by simpa [Dist.total] using hx.symm
    subst this
    exact ⟨[], by simp, by rintro bs ⟨h, _⟩; cases h; rfl⟩
  | cons d ds ih =>
    rw [Dist.total] at hx
    obtain ⟨s, z, hf, rfl, hz⟩ := exists_fit d x (by omega)
    obtain ⟨bs, ⟨hb1, hb2⟩, huniq⟩ := ih z (by omega)
    refine ⟨s :: bs, ⟨List.Forall₂.cons hf hb1, by rw [List.flatMap_cons, hb2]⟩, ?_⟩
    rintro cs ⟨hc1, hc2⟩
    cases hc1 with
    | @cons _ c _ cs hc hcs =>
      rw [List.flatMap_cons] at hc2
      have hlen : c.toList.length = s.toList.length := by rw [hc.size, hf.size]
      obtain ⟨h1, h2⟩ := List.append_inj hc2 hlen
      have : c = s := by
        rcases fits_cases hf with ⟨hd, a, rfl⟩ | ⟨l, hd, rfl⟩ <;>
          rcases fits_cases hc with ⟨hd', a', rfl⟩ | ⟨l', hd', rfl⟩ <;>
          simp_all [Slice.toList]
      rw [this, huniq cs ⟨hcs, h2⟩]

/-- **C01.** The slices stored in `shaped_values` select the coordinates `0, 1, …, event_size-1`, each exactly
once and in order: they are disjoint and cover the event. -/
theorem C01_slices_tile_event (ds : List (Dist α)) :
    (shapedValues 0 ds).length = ds.length ∧
    (shapedValues 0 ds).flatMap EvSlice.coords = List.range (Dist.total ds) := by
  have key : ∀ k, (shapedValues k ds).length = ds.length ∧
      (shapedValues k ds).flatMap EvSlice.coords = List.range' k (Dist.total ds) := by
    induction ds with
    | nil => intro k; simp [shapedValues, Dist.total]
    | cons d ds ih =>
      intro k
      cases h : d.shape with
      | none =>
        obtain ⟨h1, h2⟩ := ih (k + 1)
        simp only [shapedValues, h, List.length_cons, h1, List.flatMap_cons, h2, EvSlice.coords, Dist.total,
          shapeSize, true_and]
        rw [Nat.add_comm 1, List.range'_succ, List.singleton_append]
      | some n =>
        obtain ⟨h1, h2⟩ := ih (k + n)
        simp only [shapedValues, h, List.length_cons, h1, List.flatMap_cons, h2, EvSlice.coords, Dist.total,
          shapeSize, true_and]
        rw [show k + n - k = n by omega]
        have := List.range'_append (s := k) (m := n) (n := Dist.total ds) (step := 1)
        simpa only [Nat.one_mul] using this
  have := key 0
  rwa [← List.range_eq_range'] at this

/-- **C01.** A joint of no marginals is rejected (whatever the other arguments). -/
theorem C01_empty_rejected (m : Method) (sp : Option (List α → Bool)) :
    mkJoint ([] : List (Dist α)) m sp = .error .noMarginals := rfl

/-- A concrete scalar/vector mixture used to show the hypotheses are satisfiable. -/
noncomputable def exScalar : Base ℝ :=
  ⟨none, fun s => match s with | .one a => .fin (-a) | _ => .nan, fun _ => true, fun _ => .one 0⟩
/-- A two-dimensional marginal. -/
noncomputable def exVec : Base ℝ :=
  ⟨some 2, fun s => .fin s.toList.sum, fun s => s.toList.length == 2, fun _ => .many [1, 2]⟩

example : List.Forall₂ Fits [Dist.base exScalar, .base exVec, .joint [.base exScalar, .base exScalar] none]
    [.one 1, .many [2, 3], .many [4, 5]] := by
  simp [Fits, Dist.shape, exScalar, exVec, Dist.total, shapeSize]

/-- **C02.** Whatever the flatten method (`None`, `"shallow"`, `"deep"`), the constructed joint has the same
event shape and the same density at every point of that length as the unflattened joint. -/
theorem C02_flatten_preserves_density (ds : List (Dist α)) (hne : ds ≠ []) (m : Method)
    (hm : ∀ s, m ≠ .other s) :
    ∃ d d₀, mkJoint ds m none = .ok d ∧ mkJoint ds .none none = .ok d₀ ∧ d.shape = d₀.shape ∧
      ∀ x : List α, d₀.shape = some x.length → d.logProb (.many x) = d₀.logProb (.many x) := by
  cases ds with
  | nil => exact absurd rfl hne
  | cons d ds =>
    cases m with
    | none => exact ⟨_, _, rfl, rfl, rfl, fun _ _ => rfl⟩
    | shallow =>
      refine ⟨_, _, rfl, rfl, by simp [Dist.shape, total_flattenShallow], fun x hx => ?_⟩
      simp only [Dist.shape, Option.some.injEq] at hx
      rw [Dist.logProb, Dist.logProb]
      exact LP_flattenShallow _ x hx.symm
    | deep =>
      refine ⟨_, _, rfl, rfl, by simp [Dist.shape, total_flattenDeep], fun x hx => ?_⟩
      simp only [Dist.shape, Option.some.injEq] at hx
      rw [Dist.logProb, Dist.logProb]
      exact LP_flattenDeep _ x hx.symm
    | other s => exact absurd rfl (hm s)

/-- **C02.** If no nested joint carries a user-supplied support, flattening does not change the support. -/
theorem C02_flatten_preserves_default_support (ds : List (Dist α)) (hne : ds ≠ []) (m : Method)
    (hm : ∀ s, m ≠ .other s) (hdef : AllDefault ds) :
    ∃ d d₀, mkJoint ds m none = .ok d ∧ mkJoint ds .none none = .ok d₀ ∧
      ∀ x : List α, d₀.shape = some x.length → d.support (.many x) = d₀.support (.many x) := by
  cases ds with
  | nil => exact absurd rfl hne
  | cons d ds =>
    cases m with
    | none => exact ⟨_, _, rfl, rfl, fun _ _ => rfl⟩
    | shallow =>
      refine ⟨_, _, rfl, rfl, fun x hx => ?_⟩
      simp only [Dist.shape, Option.some.injEq] at hx
      rw [Dist.support, Dist.support]
      exact SP_flattenShallow _ x hx.symm hdef
    | deep =>
      refine ⟨_, _, rfl, rfl, fun x hx => ?_⟩
      simp only [Dist.shape, Option.some.injEq] at hx
      rw [Dist.support, Dist.support]
      exact SP_flattenDeep _ x hx.symm hdef
    | other s => exact absurd rfl (hm s)

example : AllDefault [Dist.base exScalar, .joint [.base exVec, .joint [.base exScalar] none] none] := by
  simp [AllDefault, Dist.DefaultSupport]

/-- **C02 (finding).** Flattening drops the user-supplied support of a nested joint: the flattened joint then
accepts points that the unflattened one rejects. -/
theorem C02_flatten_drops_nested_support :
    ∃ (ds : List (Dist ℝ)) (d d₀ : Dist ℝ) (x : List ℝ), mkJoint ds .deep none = .ok d ∧
      mkJoint ds .none none = .ok d₀ ∧ d₀.shape = some x.length ∧
      d.support (.many x) = some true ∧ d₀.support (.many x) = some false := by
  refine ⟨[.joint [.base exScalar] (some fun _ => false)], .joint [.base exScalar] none,
    .joint [.joint [.base exScalar] (some fun _ => false)] none, [0], rfl, rfl, ?_, ?_, ?_⟩
  · simp [Dist.shape, Dist.total, shapeSize, exScalar]
  · have h : Fits (Dist.base exScalar) (.one 0) := by simp [Fits, Dist.shape, exScalar]
    have := SP_singleton h
    rw [Dist.support]
    exact this
  · have h : Fits (Dist.joint [.base exScalar] (some fun _ => false)) (.many [0]) := by
      simp [Fits, Dist.shape, Dist.total, shapeSize, exScalar]
    have := SP_singleton h
    rw [Dist.support]
    exact this

mutual
theorem flattenDeepOne_leaves : ∀ d : Dist α, ∀ e ∈ flattenDeepOne d, e.isJoint = false
  | .base b => by simp [flattenDeepOne, Dist.isJoint]
  | .joint ms _ => by
    have h := flattenDeep_leaves ms
    rw [flattenDeepOne]; exact h
theorem flattenDeep_leaves : ∀ ds : List (Dist α), ∀ e ∈ flattenDeep ds, e.isJoint = false
  | [] => by simp [flattenDeep]
  | d :: ds => by
    have h1 := flattenDeepOne_leaves d
    have h2 := flattenDeep_leaves ds
    intro e he
    rw [flattenDeep, List.mem_append] at he
    exact he.elim (h1 e) (h2 e)
end

/-- **C02.** Deep flattening leaves no joint among the marginals, shallow flattening opens exactly the
top-level joints and `None` keeps the list. -/
theorem C02_flatten_shape (ds : List (Dist α)) :
    (∃ ms, flatten ds .deep = .ok ms ∧ ∀ e ∈ ms, e.isJoint = false) ∧
    flatten ds .none = .ok ds ∧
    flatten ds .shallow = .ok (ds.flatMap fun | .joint ms _ => ms | d => [d]) := by
  refine ⟨⟨_, rfl, flattenDeep_leaves ds⟩, rfl, ?_⟩
  simp only [flatten, Except.ok.injEq]
  induction ds with
  | nil => rfl
  | cons d ds ih => cases d <;> simp [flattenShallow, ih]

/-- **C02.** Deep flattening is idempotent. -/
theorem C02_deep_idempotent (ds : List (Dist α)) : flattenDeep (flattenDeep ds) = flattenDeep ds := by
  have key : ∀ es : List (Dist α), (∀ e ∈ es, e.isJoint = false) → flattenDeep es = es := by
    intro es
    induction es with
    | nil => intro _; rfl
    | cons e es ih =>
      intro h
      have h1 := h e (by simp)
      cases e with
      | base b => simp [flattenDeep, flattenDeepOne, ih fun e he => h e (by simp [he])]
      | joint _ _ => simp [Dist.isJoint] at h1
  exact key _ (flattenDeep_leaves ds)

/-- **C02.** Any other flatten method raises. -/
theorem C02_unknown_method_rejected (ds : List (Dist α)) (hne : ds ≠ []) (s : String)
    (sp : Option (List α → Bool)) : mkJoint ds (.other s) sp = .error .unknownMethod := by
  cases ds with
  | nil => exact absurd rfl hne
  | cons _ _ => rfl

/-- The draw of each marginal, with the key it is given. -/
theorem sampleLoop_eq (ds : List (Dist α)) (ks : List Key) :
    Dist.sampleLoop ds ks = (List.zipWith Dist.sample ds ks).flatMap Slice.toList := by
  induction ds generalizing ks with
  | nil => simp [Dist.sampleLoop]
  | cons d ds ih => cases ks <;> simp [Dist.sampleLoop, ih]

theorem split_eq (k : Key) (n : Nat) : k.split n = (List.range n).map (Key.sub k) := rfl

/-- **C03.** A joint sample is the concatenation of the marginals' own draws, the `i`-th marginal drawing with
the `i`-th sub-key; if every draw has its marginal's event shape, then `log_prob` of the joint sample evaluates every
marginal at exactly its own draw; and if every draw is in its marginal's support the joint sample is in the joint
support. -/
theorem C03_sample_layout (ds : List (Dist α)) (hne : ds ≠ []) (k : Key)
    (hshape : ∀ d ∈ ds, ∀ k', Fits d (d.sample k')) :
    ∃ d draws, mkJoint ds .none none = .ok d ∧
      draws = (ds.zip (k.split ds.length)).map (fun p => p.1.sample p.2) ∧
      draws.length = ds.length ∧
      d.sample k = .many (draws.flatMap Slice.toList) ∧
      (∃ ls, List.Forall₂ (fun (p : Dist α × Slice α) l => p.1.logProb p.2 = some l) (ds.zip draws) ls ∧
        d.logProb (d.sample k) = some ls.sum) ∧
      ((∀ p ∈ ds.zip draws, p.1.support p.2 = some true) → d.support (d.sample k) = some true) := by
  have hd : mkJoint ds .none none = .ok (.joint ds none) := by
    cases ds with
    | nil => exact absurd rfl hne
    | cons _ _ => rfl
  set draws := (ds.zip (k.split ds.length)).map (fun p => p.1.sample p.2) with hdr
  have hlen : draws.length = ds.length := by simp [hdr, Key.split]
  have hs : (Dist.joint ds none).sample k = .many (draws.flatMap Slice.toList) := by
    rw [Dist.sample, sampleLoop_eq, hdr, List.zip_eq_zipWith, List.map_zipWith]
  have hfit : List.Forall₂ Fits ds draws := by
    rw [List.forall₂_iff_get]
    refine ⟨hlen.symm, fun i h1 h2 => ?_⟩
    simp only [hdr, List.get_eq_getElem, List.getElem_map, List.getElem_zip]
    exact hshape _ (List.getElem_mem _) _
  obtain ⟨d', ls, hd', h1, h2⟩ := C01_logProb_is_sum_over_blocks ds hne draws hfit
  rw [hd] at hd'
  cases hd'
  refine ⟨_, draws, hd, rfl, hlen, hs, ⟨ls, h1, by rw [hs, h2]⟩, ?_⟩
  intro hsup
  rw [hs, Dist.support]
  clear hs hlen h1 h2 hd hshape hne
  clear hdr
  clear_value draws
  induction hfit with
  | nil => exact SP_nil _
  | @cons d b ds bs hf _ ih =>
    rw [List.flatMap_cons]
    have := SP_cons hf ds (bs.flatMap Slice.toList)
    rw [SP] at this
    rw [this, hsup (d, b) (by simp)]
    have ih := ih (fun p hp => hsup p (by simp [hp]))
    rw [SP, ih]; rfl

/-- **C03.** The sub-keys used by one joint sample are pairwise distinct. -/
theorem C03_keys_distinct (k : Key) (n : Nat) : (k.split n).Nodup := by
  rw [split_eq]
  exact List.Nodup.map (fun a b h => by simpa using h) List.nodup_range

example : ∀ d ∈ [Dist.base exScalar, .base exVec], ∀ k', Fits d (d.sample k') := by
  simp [Fits, Dist.shape, Dist.sample, exScalar, exVec]

end GW.Joint
