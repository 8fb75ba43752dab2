import Verif.Lemmas.Likelihood
import Verif.Props.Jenks

/-!
# C06, C07: the discrete Poisson likelihood
-/

namespace GW.Likelihood
open GW

/-- The arguments the model and the where-functions receive at the point `x`. -/
abbrev Setup.args {θ} (S : Setup θ) (x : List XR) : List (String × XR) := S.constants ++ S.mapParams x

/-- **C06.** Whatever the model, the prior and the rate estimator return, the flowMC log-posterior is finite or `-inf`. -/
theorem C06_never_nan_or_posinf {θ : Type} (S : Setup θ) (x : List XR) (bs : List (Bucket θ)) :
    S.flowMC x bs ≠ .nan ∧ S.flowMC x bs ≠ .pinf := by
  have key : ∀ y : XR, XR.nanToNum .ninf .ninf .ninf y ≠ .nan ∧ XR.nanToNum .ninf .ninf .ninf y ≠ .pinf := by
    intro y; cases y <;> simp [XR.nanToNum]
  unfold Setup.flowMC
  cases S.whereFns with
  | none => exact key _
  | some fns =>
    simp only
    split_ifs
    · exact key _
    · simp

/-- **C06.** With where-functions configured (possibly an empty list), the result is `-inf` as soon as one where-function
rejects the point, the prior support excludes it, or a coordinate is not finite. -/
theorem C06_rejected_points_get_neginf {θ : Type} (S : Setup θ) (x : List XR) (bs : List (Bucket θ))
    (fns : List (List (String × XR) → Bool)) (hw : S.whereFns = some fns)
    (h : (∃ f ∈ fns, f (S.args x) = false) ∨ S.priorSupport x = false ∨ ∃ v ∈ x, ∀ a : ℝ, v ≠ .fin a) :
    S.flowMC x bs = .ninf := by
  unfold Setup.flowMC
  rw [hw]
  simp only
  rw [if_neg]
  unfold Setup.predicate
  simp only [foldl_and, Bool.and_eq_true, List.all_eq_true, not_and]
  rintro h1 h2 h3
  rcases h with ⟨f, hf, hf'⟩ | h | ⟨v, hv, h⟩
  · rw [h3 f hf] at hf'; cases hf'
  · rw [h] at h2; cases h2
  · obtain ⟨a, ha⟩ := (XR.isFinite_iff v).1 (h1 v hv)
    exact h a ha

/-- **C06.** A prior log density of `-inf` (or NaN) always gives `-inf`, with or without where-functions. -/
theorem C06_zero_prior_rejected {θ : Type} (S : Setup θ) (x : List XR) (bs : List (Bucket θ))
    (h : S.priorLogProb x = .ninf ∨ S.priorLogProb x = .nan) : S.flowMC x bs = .ninf := by
  have : S.likelihoodFn x bs = .ninf := by
    unfold Setup.likelihoodFn
    simp only
    rcases h with h | h <;> rw [h]
    · generalize totalLogLikelihood _ _ _ - _ = y
      cases y <;> rfl
    · rw [XR.nan_add]; rfl
  unfold Setup.flowMC
  split
  · exact this
  · split_ifs
    · exact this
    · rfl

/-- **C06.** For an accepted point with everything finite the value is
`log prior + (constant + Σ_events log Σ_samples exp(log p - log π) - expected rate)`. -/
theorem C06_finite_value {θ : Type} (S : Setup θ) (x : List XR) (bs : List (Bucket θ))
    (hacc : S.whereFns = none ∨ ∃ fns, S.whereFns = some fns ∧ S.priorSupport x = true ∧
      (∀ f ∈ fns, f (S.args x) = true) ∧ ∀ v ∈ x, ∃ a : ℝ, v = .fin a)
    (lp c rate : ℝ) (hlp : S.priorLogProb x = .fin lp) (hc : S.logConstants = .fin c)
    (hr : S.poissonMean (S.distFn (S.args x)) = .fin rate)
    (hlog : ∀ ev ∈ allEvents bs, ∀ p ∈ ev, ((S.distFn (S.args x)).logProb p.1 - p.2).IsLog)
    (hpos : ∀ ev ∈ allEvents bs, 0 < (ev.map fun p => ((S.distFn (S.args x)).logProb p.1 - p.2).expR).sum) :
    S.flowMC x bs = .fin (lp + ((c + ((allEvents bs).map fun ev =>
      Real.log (ev.map fun p => ((S.distFn (S.args x)).logProb p.1 - p.2).expR).sum).sum) - rate)) := by
  have : S.flowMC x bs = S.likelihoodFn x bs := by
    unfold Setup.flowMC
    rcases hacc with h | ⟨fns, h, h1, h2, h3⟩
    · rw [h]
    · rw [h]
      simp only
      rw [if_pos]
      unfold Setup.predicate
      simp only [foldl_and, Bool.and_eq_true, List.all_eq_true]
      refine ⟨fun v hv => ?_, h1, fun f hf => h2 f hf⟩
      obtain ⟨a, rfl⟩ := h3 v hv
      rfl
  rw [this]
  unfold Setup.likelihoodFn
  simp only
  rw [hlp, hr, total_eq, hc, sum_eventTerm_fin _ _ hlog hpos]
  simp [XR.nanToNum]

/-- **C06.** An event none of whose samples is possible under the model makes the whole value `-inf`. -/
theorem C06_impossible_event_rejected {θ : Type} (S : Setup θ) (x : List XR) (bs : List (Bucket θ))
    (hlog : ∀ ev ∈ allEvents bs, ∀ p ∈ ev, ((S.distFn (S.args x)).logProb p.1 - p.2).IsLog)
    (ev : List (θ × XR)) (hev : ev ∈ allEvents bs)
    (h0 : ∀ p ∈ ev, (S.distFn (S.args x)).logProb p.1 - p.2 = .ninf) : S.flowMC x bs = .ninf := by
  have hz : (ev.map fun p => ((S.distFn (S.args x)).logProb p.1 - p.2).expR).sum = 0 := by
    apply List.sum_eq_zero
    intro v hv
    obtain ⟨p, hp, rfl⟩ := List.mem_map.1 hv
    rw [h0 p hp]; rfl
  have hsum : XR.sum ((allEvents bs).map (eventTerm (S.distFn (S.args x)).logProb)) = .ninf := by
    refine sum_ninf _ ?_ ?_
    · intro v hv
      obtain ⟨e, he, rfl⟩ := List.mem_map.1 hv
      exact isLog_eventTerm _ _ (hlog e he)
    · exact List.mem_map.2 ⟨ev, hev, eventTerm_ninf _ _ (hlog ev hev) hz⟩
  have : S.likelihoodFn x bs = .ninf := by
    unfold Setup.likelihoodFn
    simp only
    rw [total_eq, hsum]
    generalize S.poissonMean _ = r
    generalize S.priorLogProb x = p
    generalize S.logConstants = c
    cases c <;> cases r <;> cases p <;> rfl
  unfold Setup.flowMC
  split
  · exact this
  · split_ifs
    · exact this
    · rfl

/-- **C06 (limit of the claim).** Without where-functions (`where_fns=None`) the prior support is not consulted: a prior
whose log density is finite outside its own support (numpyro's `Uniform` without argument validation, for instance) lets an
excluded point through with a finite value. -/
theorem C06_support_unchecked_without_where_fns :
    ∃ (S : Setup Unit) (x : List XR), S.whereFns = none ∧ S.priorSupport x = false ∧ S.flowMC x [] = .fin 0 := by
  refine ⟨⟨fun _ => ⟨fun _ => .fin 0, fun _ _ => ()⟩, fun _ => .fin 0, fun _ => false, [], .fin 0, fun _ => .fin 0,
    none, []⟩, [.fin 7], rfl, rfl, ?_⟩
  simp [Setup.flowMC, Setup.likelihoodFn, totalLogLikelihood, XR.nanToNum]

/-- **C06, numpyro form.** The number handed to `numpyro.factor` is always finite: NaN, `+inf` and `-inf` likelihoods and
rejected points all become `-big`, the most negative float (so a rejected point is *not* `-inf`). -/
theorem C06_numpyro_factor_finite {θ : Type} (S : Setup θ) (big : ℝ) (x : List XR) (bs : List (Bucket θ)) :
    (∃ a : ℝ, S.numpyroFactor big x bs = .fin a) ∧
    (∀ f fs, S.whereFns = some (f :: fs) → (∃ g ∈ f :: fs, g (S.args x) = false) →
      S.numpyroFactor big x bs = .fin (-big)) ∧
    ((∀ a : ℝ, totalLogLikelihood (S.distFn (S.args x)) S.logConstants bs -
        S.poissonMean (S.distFn (S.args x)) ≠ .fin a) → S.numpyroFactor big x bs = .fin (-big)) := by
  have core : S.numpyroCore x bs = .ninf ∨ ∃ a : ℝ, S.numpyroCore x bs = .fin a := by
    unfold Setup.numpyroCore
    simp only
    generalize totalLogLikelihood _ _ _ - _ = y
    cases y <;> simp [XR.nanToNum]
  have full : ∀ P : XR → Prop, P (.fin (-big)) → (∀ a, S.numpyroCore x bs = .fin a → P (.fin a)) →
      P (S.numpyroFactor big x bs) := by
    intro P h1 h2
    have h3 : P (XR.nanToNum .ninf (.fin big) (.fin (-big)) (S.numpyroCore x bs)) := by
      rcases core with e | ⟨a, e⟩
      · rw [e]; exact h1
      · rw [e]; exact h2 a e
    unfold Setup.numpyroFactor
    simp only
    split
    · exact h3
    · exact h3
    · split_ifs
      · exact h3
      · exact h1
  refine ⟨full (fun y => ∃ a, y = .fin a) ⟨_, rfl⟩ (fun a _ => ⟨a, rfl⟩), ?_, ?_⟩
  · rintro f fs hw ⟨g, hg, hg'⟩
    unfold Setup.numpyroFactor
    rw [hw]
    simp only [foldl_and]
    rw [if_neg]
    · rfl
    · intro h
      simp only [Bool.and_eq_true, List.all_eq_true] at h
      rcases List.mem_cons.1 hg with rfl | hg
      · rw [h.1] at hg'; cases hg'
      · rw [h.2 g hg] at hg'; cases hg'
  · intro h
    refine full (fun y => y = .fin (-big)) rfl ?_
    intro a ha
    exfalso
    unfold Setup.numpyroCore at ha
    simp only at ha
    revert ha h
    generalize totalLogLikelihood _ _ _ - _ = y
    intro h ha
    cases y <;> simp [XR.nanToNum] at ha h

/-- **C06, numpyro form.** When accepted and finite the factor is `constant + Σ log Σ exp(log p - log π) - rate`. -/
theorem C06_numpyro_value {θ : Type} (S : Setup θ) (big : ℝ) (x : List XR) (bs : List (Bucket θ))
    (hacc : ∀ fns, S.whereFns = some fns → ∀ f ∈ fns, f (S.args x) = true)
    (c rate : ℝ) (hc : S.logConstants = .fin c) (hr : S.poissonMean (S.distFn (S.args x)) = .fin rate)
    (hlog : ∀ ev ∈ allEvents bs, ∀ p ∈ ev, ((S.distFn (S.args x)).logProb p.1 - p.2).IsLog)
    (hpos : ∀ ev ∈ allEvents bs, 0 < (ev.map fun p => ((S.distFn (S.args x)).logProb p.1 - p.2).expR).sum) :
    S.numpyroFactor big x bs = .fin ((c + ((allEvents bs).map fun ev =>
      Real.log (ev.map fun p => ((S.distFn (S.args x)).logProb p.1 - p.2).expR).sum).sum) - rate) := by
  have core : S.numpyroCore x bs = .fin ((c + ((allEvents bs).map fun ev =>
      Real.log (ev.map fun p => ((S.distFn (S.args x)).logProb p.1 - p.2).expR).sum).sum) - rate) := by
    unfold Setup.numpyroCore
    simp only
    rw [hr, total_eq, hc, sum_eventTerm_fin _ _ hlog hpos]
    simp [XR.nanToNum]
  unfold Setup.numpyroFactor
  simp only
  split
  · rw [core]; rfl
  · rw [core]; rfl
  · rename_i f fs hw
    rw [if_pos, core]
    · rfl
    · rw [foldl_and]
      simp only [Bool.and_eq_true, List.all_eq_true]
      exact ⟨hacc _ hw f (by simp), fun g hg => hacc _ hw g (by simp [hg])⟩

/-- **C06.** Each model parameter is read from its own coordinate: with indices inside the vector, the model receives the
constants with their values and, for every parameter in turn, the coordinate its index names — nothing else. -/
theorem C06_parameters_from_coordinates {θ : Type} (S : Setup θ) (x : List XR)
    (hin : ∀ p ∈ S.variablesIndex, p.2 < x.length) :
    ∃ vs, S.args x = S.constants ++ vs ∧
      List.Forall₂ (fun (p : String × Nat) (q : String × XR) => q.1 = p.1 ∧ x[p.2]? = some q.2) S.variablesIndex vs := by
  refine ⟨S.mapParams x, rfl, ?_⟩
  unfold Setup.mapParams
  rw [List.forall₂_map_right_iff, List.forall₂_same]
  intro p hp
  have hi := hin p hp
  refine ⟨rfl, ?_⟩
  rw [show min p.2 (x.length - 1) = p.2 by omega, List.getD_eq_getElem?_getD, List.getElem?_eq_getElem hi]
  rfl

/-- A two-event set-up used for the examples: model log density `-1` everywhere, one where-function. -/
noncomputable def exSetup : Setup Unit :=
  { distFn := fun _ => ⟨fun _ => .fin (-1), fun _ _ => ()⟩, priorLogProb := fun _ => .fin 2,
    priorSupport := fun x => x.length == 1, variablesIndex := [("alpha", 0)], logConstants := .fin 3,
    poissonMean := fun _ => .fin 5, whereFns := some [fun a => a.length == 1], constants := [] }

/-- Two events with 2 and 1 samples, the second padded. -/
noncomputable def exBucket : Bucket Unit :=
  ⟨[[(), ()], [(), ()]], [[.fin 0, .fin 0], [.fin 0, .fin 0]], [[true, true], [true, false]]⟩

/-- Non-vacuity of C06: the example point is accepted and all hypotheses of `C06_finite_value` hold. -/
example : ∃ r : ℝ, exSetup.flowMC [.fin 1] [exBucket] = .fin r := by
  have hE : allEvents [exBucket] = [[((), .fin 0), ((), .fin 0)], [((), .fin 0)]] := rfl
  refine ⟨_, C06_finite_value exSetup [.fin 1] [exBucket] (Or.inr ⟨_, rfl, rfl, ?_, ?_⟩) 2 3 5 rfl rfl rfl ?_ ?_⟩
  · simp [exSetup, Setup.args, Setup.mapParams]
  · simp
  · rw [hE]
    simp [exSetup, XR.IsLog]
  · rw [hE]
    intro ev hev
    simp at hev
    rcases hev with rfl | rfl <;> simp [exSetup] <;> positivity

/-- **C07.** The event part is the constant plus one term per stored event, each computed from the *unmasked* samples
only — whatever is stored in the padded positions (and whatever the feasible point is), for any model output
including NaN and infinities. -/
theorem C07_only_unmasked_samples_matter {θ : Type} (M : Model θ) (c : XR) (bs : List (Bucket θ)) :
    totalLogLikelihood M c bs = c + XR.sum ((allEvents bs).map (eventTerm M.logProb)) := total_eq M bs c

/-- **C07.** Two bucketings that hold the same events (in any order, with any padding, in any number of buckets, the
samples of each event in any order) give the same likelihood, in both forms. -/
theorem C07_bucketing_irrelevant {θ : Type} (S : Setup θ) (bs bs' : List (Bucket θ))
    (h : SameEvents (allEvents bs) (allEvents bs')) (x : List XR) (big : ℝ) :
    S.flowMC x bs = S.flowMC x bs' ∧ S.numpyroFactor big x bs = S.numpyroFactor big x bs' := by
  have ht : ∀ (M : Model θ) c, totalLogLikelihood M c bs = totalLogLikelihood M c bs' := by
    intro M c
    rw [total_eq, total_eq, sum_terms_same _ h]
  have h1 : S.likelihoodFn x bs = S.likelihoodFn x bs' := by
    unfold Setup.likelihoodFn; simp only [ht]
  have h2 : S.numpyroCore x bs = S.numpyroCore x bs' := by
    unfold Setup.numpyroCore; simp only [ht]
  constructor
  · unfold Setup.flowMC; simp only [h1]
  · unfold Setup.numpyroFactor; simp only [h2]

/-- **C07.** Reading data: for any number of buckets, threshold and clustering result, the buckets hold exactly the input
events, each with its own reference priors. -/
theorem C07_read_data_keeps_events (orc : Jenks.Oracle) (ho : Jenks.OracleSorted orc)
    (data refs : List (Jenks.Arr FRow)) (hrows : ∀ i, (Jenks.pick data i).rows.length = (Jenks.pick refs i).rows.length)
    (nb : Option Nat) (thr : ℚ) (c : ℝ) (bs : List (Bucket FRow))
    (h : readData orc data refs nb thr = .ok (c, bs)) :
    (allEvents bs).Perm (inputEvents data refs) ∧ c = -(data.map fun d => Real.log d.rows.length).sum := by
  unfold readData at h
  split_ifs at h with hlen
  have hlen : data.length = refs.length := by simpa using hlen
  cases hp : Jenks.padAndStack orc (fun w => List.replicate w 0) [data, refs] nb thr with
  | error e => rw [hp] at h; cases h
  | ok r =>
    obtain ⟨padded, masks⟩ := r
    rw [hp] at h
    by_cases hd : data = []
    · subst hd
      have hr : refs = [] := List.eq_nil_of_length_eq_zero (by simpa using hlen.symm)
      subst hr
      have ht : 0 ≤ thr ∧ thr ≤ 100 := by
        by_contra hc
        have := Jenks.C08_bad_arguments_rejected orc (fun w => List.replicate w (0 : XR)) [[], []] nb thr (by
          by_contra h'
          simp only [not_or, not_lt] at h'
          exact hc ⟨h'.1, h'.2.1⟩)
        rw [this] at hp; cases hp
      have := Jenks.C08_no_events orc (fun w => List.replicate w (0 : XR)) 1 nb thr ht
      simp only [List.replicate] at this hp
      rw [this] at hp
      simp only [Except.ok.injEq, Prod.mk.injEq] at hp
      obtain ⟨rfl, rfl⟩ := hp
      simp only [Except.ok.injEq, Prod.mk.injEq] at h
      obtain ⟨rfl, rfl⟩ := h
      simp [allEvents, inputEvents]
    · obtain ⟨perm, groups, p1, p2, _, p4, p5, _⟩ := Jenks.C08_buckets_are_the_events orc ho _ data [refs] hd nb thr
        padded masks hp
      simp only [List.map_cons, List.map_nil] at p4
      subst p4 p5
      simp only [Except.ok.injEq, Prod.mk.injEq] at h
      obtain ⟨h1, h2⟩ := h
      refine ⟨?_, h1.symm⟩
      subst h2
      simp only [zipWith_map_same, zip_map_same]
      have hin : inputEvents data refs = (List.range data.length).map fun i =>
          (Jenks.pick data i).rows.zip ((Jenks.pick refs i).rows.map fun r => r.headD 0) := by
        unfold inputEvents
        apply List.ext_getElem
        · simp [hlen]
        · intro i hi1 hi2
          simp at hi1 hi2
          simp [Jenks.pick, List.getD_eq_getElem?_getD, hi1.1, hi1.2]
      rw [hin]
      refine List.Perm.trans (List.Perm.of_eq ?_) (p1.map _)
      rw [← p2, List.map_flatten, allEvents, List.flatMap_map, List.flatMap_def]
      congr 1
      refine List.map_congr_left fun g hg => ?_
      simp only [Bucket.events, zip_map_same, List.map_map, Function.comp_def]
      refine List.map_congr_left fun i hi => ?_
      have hgm : Jenks.groupMax refs g = Jenks.groupMax data g := by
        unfold Jenks.groupMax; congr 1; exact List.map_congr_left fun j _ => (hrows j).symm
      simp only [Jenks.padTo, List.length_replicate]
      obtain ⟨tail, ht⟩ := masked_refs (Jenks.pick refs i).rows (Jenks.pick data i).rows.length
        (Jenks.groupMax data g - (Jenks.pick data i).rows.length) (hrows i)
        (List.replicate (Jenks.groupMax refs g - (Jenks.pick refs i).rows.length)
          (List.replicate (Jenks.pick refs i).width 0))
      rw [ht]
      exact rowSamples_pad _ _ _ _ _ (by simp [hrows i])

/-- **C07.** The whole chain: reading the data with any bucketing and evaluating the event part gives the sum over the
input events of the log of the plain Monte-Carlo average `(1/n) Σ p/π`, for every model with proper log values. -/
theorem C07_sum_of_log_averages (orc : Jenks.Oracle) (ho : Jenks.OracleSorted orc)
    (data refs : List (Jenks.Arr FRow)) (hrows : ∀ i, (Jenks.pick data i).rows.length = (Jenks.pick refs i).rows.length)
    (nb : Option Nat) (thr : ℚ) (c : ℝ) (bs : List (Bucket FRow))
    (h : readData orc data refs nb thr = .ok (c, bs)) (M : Model FRow)
    (hlog : ∀ ev ∈ inputEvents data refs, ∀ p ∈ ev, (M.logProb p.1 - p.2).IsLog)
    (hpos : ∀ ev ∈ inputEvents data refs, 0 < (ev.map fun p => (M.logProb p.1 - p.2).expR).sum) :
    totalLogLikelihood M (.fin c) bs =
      .fin ((inputEvents data refs).map fun ev => Real.log (mcAverage M.logProb ev)).sum := by
  obtain ⟨h1, h2⟩ := C07_read_data_keeps_events orc ho data refs hrows nb thr c bs h
  have hlen : data.length = refs.length := by
    by_contra hne
    unfold readData at h
    rw [if_pos hne] at h
    cases h
  rw [total_eq, XR.sum_perm (h1.map _), sum_eventTerm_fin _ _ hlog hpos, XR.add_fin_fin]
  congr 1
  have hn : data.map (fun d => Real.log d.rows.length) =
      (inputEvents data refs).map fun ev => Real.log ev.length := by
    unfold inputEvents
    rw [List.map_map]
    apply List.ext_getElem
    · simp [hlen]
    · intro i hi1 hi2
      simp at hi1 hi2
      have := hrows i
      simp [Jenks.pick, List.getD_eq_getElem?_getD, hi2.1, hi2.2] at this
      simp [this]
  rw [h2, hn]
  generalize inputEvents data refs = evs at hpos
  clear * - hpos
  induction evs with
  | nil => simp
  | cons ev evs ih =>
    have ih := ih fun e he => hpos e (by simp [he])
    have hp := hpos ev (by simp)
    have hl : (ev.length : ℝ) ≠ 0 := by
      intro e
      have : ev = [] := List.eq_nil_of_length_eq_zero (by exact_mod_cast e)
      rw [this] at hp; simp at hp
    simp only [List.map_cons, List.sum_cons]
    rw [← ih, mcAverage, Real.log_div hp.ne' hl]
    ring

/-- Non-vacuity of C07: two events of different sizes are read and their likelihood is finite. -/
example : ∃ c bs, readData Jenks.exOracle [⟨[[.fin 1], [.fin 2]], 1⟩, ⟨[[.fin 3]], 1⟩]
    [⟨[[.fin 0], [.fin 0]], 1⟩, ⟨[[.fin 0]], 1⟩] (some 1) 3 = .ok (c, bs) ∧ bs.length = 1 := by
  unfold readData
  rw [if_neg (by simp)]
  have : Jenks.padAndStack Jenks.exOracle (fun w => List.replicate w (0 : XR))
      [[⟨[[.fin 1], [.fin 2]], 1⟩, ⟨[[.fin 3]], 1⟩], [⟨[[.fin 0], [.fin 0]], 1⟩, ⟨[[.fin 0]], 1⟩]] (some 1) 3 =
      .ok ([[[[[.fin 3], [0]], [[.fin 1], [.fin 2]]]], [[[[.fin 0], [0]], [[.fin 0], [.fin 0]]]]],
        [[[true, false], [true, true]]]) := by
    rw [Jenks.padAndStack, if_neg (by norm_num)]
    rfl
  rw [this]
  exact ⟨_, _, rfl, rfl⟩

end GW.Likelihood
