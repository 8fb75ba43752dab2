import Verif.Lemmas.Sage

/-!
# C82: an analysis of discrete data samples the posterior its input files describe

`inp` are the inputs of one analysis and `r` what `Sage.run` hands to the sampler.
-/

namespace GW.Sage
open GW PyDict Joint XR
open GW.Guru (PVal)
open GW.Likelihood (FRow inputEvents mcAverage)

noncomputable section

variable {ord : List String → List String} {orc : Jenks.Oracle} {inp : Inputs} {r : Analysis}

theorem run_ok (h : run ord orc inp = .ok r) :
    ∃ s pr c bs, Guru.setup ord inp.params inp.extra = .ok s ∧ prior s = .ok pr ∧
      Likelihood.readData orc inp.data inp.refs inp.nBuckets inp.threshold = .ok (c, bs) ∧
      ¬ (keys s.constants).any (· ∈ keys s.index) = true ∧
      r = ⟨s.names, fun x => (closure inp none s pr c).flowMC x bs,
        fun big x => (sites s x).map fun l => l + (closure inp (some true) s pr c).numpyroFactor big x bs⟩ := by
  unfold run at h
  cases hs : Guru.setup ord inp.params inp.extra with
  | error e => simp [hs] at h
  | ok s =>
    simp only [hs] at h
    cases hp : prior s with
    | error e => simp [hp] at h
    | ok pr =>
      simp only [hp] at h
      cases hd : Likelihood.readData orc inp.data inp.refs inp.nBuckets inp.threshold with
      | error e => simp [hd] at h
      | ok d =>
        obtain ⟨c, bs⟩ := d
        simp only [hd] at h
        split_ifs at h with h1
        simp only [Except.ok.injEq] at h
        exact ⟨s, pr, c, bs, rfl, hp, rfl, h1, h.symm⟩

theorem labels_of_setup {params : Dict String (PVal XR)} {extra : Dict String (Option ℚ)} {s : Guru.Setup XR} (hm : Meaningful params)
    (hs : Guru.setup ord params extra = .ok s) :
    s.names ≠ [] ∧ s.names.Nodup ∧ s.names.Pairwise (· ≤ ·) ∧ ∀ n, n ∈ s.names ↔ Sampled params n := by
  obtain ⟨cl, hc, hs1, hs2, hs3, -, -, -⟩ := Guru.C35_indices ord params hm.nodup extra s hs
  have hR := Guru.C35_roles ord params hm.nodup cl hc
  refine ⟨names_ne hs, hs1, hs2, fun n => ⟨fun hn => ?_, fun hn => ?_⟩⟩
  · obtain ⟨i, hi⟩ := List.getElem?_of_mem hn
    rcases marginal hm hs i n hi with ⟨b, hb, -⟩ | ⟨f, a, hb, -⟩
    · exact Or.inl ⟨b, hb⟩
    · exact Or.inr ⟨_, f, _, hb⟩
  · refine (hs3 n).2 ?_
    rw [mem_keys_iff]
    rcases hn with ⟨b, hb⟩ | ⟨ip, f, a, hb⟩
    · rw [hR.dist n b hb]; rfl
    · obtain ⟨a', -, h1, -⟩ := hR.lazy n ip f a hb
      rw [h1]; rfl

/-- **C82.**  The columns are the sampled parameters, each once, in alphabetical order, and there is at least one. -/
theorem C82_labels (hm : Meaningful inp.params) (h : run ord orc inp = .ok r) :
    r.labels ≠ [] ∧ r.labels.Nodup ∧ r.labels.Pairwise (· ≤ ·) ∧ ∀ n, n ∈ r.labels ↔ Sampled inp.params n := by
  obtain ⟨s, pr, c, bs, hs, -, -, -, rfl⟩ := run_ok h
  exact labels_of_setup hm hs

theorem args_meaning {s : Guru.Setup XR} {pr : Prior} {c : ℝ} (hm : Meaningful inp.params) (hx : (keys inp.extra).Nodup)
    (hs : Guru.setup ord inp.params inp.extra = .ok s) (hdis : ¬ (keys s.constants).any (· ∈ keys s.index) = true)
    (v : Option Bool) (value : String → XR) :
    kwargsOf s.constants ((closure inp v s pr c).args (s.names.map value)) = meaning inp.params inp.extra value :=
  kwargs_meaning hm hx hs hdis value

/-- The constant of the likelihood. -/
theorem constant_eq {s : Guru.Setup XR} {pr : Prior} {c : ℝ} (v : Option Bool) (hT : 0 < inp.tObs) :
    (closure inp v s pr c).logConstants = fin (c + inp.data.length * Real.log inp.tObs) := by
  simp only [closure]
  rw [log_fin_pos hT, mul_fin_fin, add_fin_fin]

/-- The sum over the events with the observing time. -/
theorem events_sum {c : ℝ} {bs : List (Likelihood.Bucket FRow)} (ho : Jenks.OracleSorted orc) (hrows : RowsMatch inp) (hT : 0 < inp.tObs)
    (hd : Likelihood.readData orc inp.data inp.refs inp.nBuckets inp.threshold = .ok (c, bs)) (M : Likelihood.Model FRow)
    (hlog : ∀ ev ∈ inputEvents inp.data inp.refs, ∀ p ∈ ev, (M.logProb p.1 - p.2).IsLog)
    (hpos : ∀ ev ∈ inputEvents inp.data inp.refs, 0 < (ev.map fun p => (M.logProb p.1 - p.2).expR).sum) :
    Likelihood.totalLogLikelihood M (fin (c + inp.data.length * Real.log inp.tObs)) bs =
      fin ((inputEvents inp.data inp.refs).map fun ev => Real.log (inp.tObs * mcAverage M.logProb ev)).sum := by
  have h1 := Likelihood.C07_sum_of_log_averages orc ho inp.data inp.refs hrows inp.nBuckets inp.threshold c bs hd M hlog hpos
  have hlen : inp.data.length = inp.refs.length := by
    by_contra hne
    unfold Likelihood.readData at hd
    rw [if_pos hne] at hd
    cases hd
  have hn : inp.data.length = (inputEvents inp.data inp.refs).length := by simp [inputEvents, hlen]
  rw [Likelihood.total_eq] at h1 ⊢
  have hsum : ((inputEvents inp.data inp.refs).map fun ev => Real.log (inp.tObs * mcAverage M.logProb ev)).sum =
      ((inputEvents inp.data inp.refs).map fun ev => Real.log (mcAverage M.logProb ev)).sum + inp.data.length * Real.log inp.tObs := by
    rw [hn]
    generalize inputEvents inp.data inp.refs = evs at hpos
    clear * - hpos hT
    induction evs with
    | nil => simp
    | cons ev evs ih =>
      have hp := hpos ev (by simp)
      have hl : (0 : ℝ) < ev.length := by
        rw [Nat.cast_pos]
        apply List.length_pos_of_ne_nil
        rintro rfl
        simp at hp
      have hav : 0 < mcAverage M.logProb ev := div_pos hp hl
      simp only [List.map_cons, List.sum_cons, List.length_cons, ih fun e he => hpos e (by simp [he])]
      rw [Real.log_mul hT.ne' hav.ne']
      push_cast
      ring
  have e2 : ∀ a b : ℝ, fin (a + b) = fin a + fin b := fun a b => (add_fin_fin a b).symm
  rw [hsum, e2, e2 _ (inp.data.length * Real.log inp.tObs), ← h1]
  generalize XR.sum _ = y
  cases y <;> simp [add_right_comm]

/-- The prior of the analysis at a vector of values. -/
theorem prior_at {params : Dict String (PVal XR)} {extra : Dict String (Option ℚ)} {s : Guru.Setup XR} {pr : Prior} (hord : ∀ l, (ord l).Perm l)
    (hm : Meaningful params) (hs : Guru.setup ord params extra = .ok s) (hp : prior s = .ok pr) (value : String → XR) :
    pr.support (s.names.map value) = s.names.all (inPrior params value) ∧
      pr.logProb (s.names.map value) = if s.names.all (inPrior params value) then XR.sum (s.names.map (logPriorOf params value)) else .ninf := by
  obtain ⟨pr', hp', h⟩ := prior_ok hord hm hs
  rw [hp] at hp'
  simp only [Except.ok.injEq] at hp'
  subst hp'
  exact h value

/-- **C82.**  The number handed to flowMC at a vector of values, one for each sampled parameter, is
`Σ log prior + Σ over events of log(T_obs · average of ρ/π) - expected number of events`,
with the priors and the keyword arguments of the model read off the prior table.  Buckets, padding and the internal indices do not appear. -/
theorem C82_flowMC_value (hord : ∀ l, (ord l).Perm l) (ho : Jenks.OracleSorted orc) (hm : Meaningful inp.params) (hx : (keys inp.extra).Nodup)
    (hrows : RowsMatch inp) (hT : 0 < inp.tObs) (h : run ord orc inp = .ok r) (value : String → ℝ) (M : Likelihood.Model FRow)
    (hM : M = inp.model none (meaning inp.params inp.extra fun n => fin (value n)))
    (hwhere : ∀ fns, inp.whereFns = some fns → ∀ f ∈ fns, f (meaning inp.params inp.extra fun n => fin (value n)) = true)
    (hin : ∀ n ∈ r.labels, inPrior inp.params (fun n => fin (value n)) n = true)
    (lp μ : ℝ) (hlp : XR.sum (r.labels.map (logPriorOf inp.params fun n => fin (value n))) = fin lp) (hμ : inp.rate M = fin μ)
    (hlog : ∀ ev ∈ inputEvents inp.data inp.refs, ∀ p ∈ ev, (M.logProb p.1 - p.2).IsLog)
    (hpos : ∀ ev ∈ inputEvents inp.data inp.refs, 0 < (ev.map fun p => (M.logProb p.1 - p.2).expR).sum) :
    r.flowMC (r.labels.map fun n => fin (value n)) =
      fin (lp + ((inputEvents inp.data inp.refs).map fun ev => Real.log (inp.tObs * mcAverage M.logProb ev)).sum - μ) := by
  obtain ⟨s, pr, c, bs, hs, hp, hd, hdis, rfl⟩ := run_ok h
  obtain ⟨h1, h2⟩ := prior_at hord hm hs hp fun n => fin (value n)
  have hall : s.names.all (inPrior inp.params fun n => fin (value n)) = true := List.all_eq_true.2 hin
  rw [hall] at h1 h2
  rw [if_pos rfl, hlp] at h2
  simp only at hlp ⊢
  have hargs := args_meaning (pr := pr) (c := c) hm hx hs hdis none fun n => fin (value n)
  have hdist : (closure inp none s pr c).distFn ((closure inp none s pr c).args (s.names.map fun n => fin (value n))) = M := by
    rw [hM, ← hargs]; rfl
  have hf : (closure inp none s pr c).flowMC (s.names.map fun n => fin (value n)) bs =
      (closure inp none s pr c).likelihoodFn (s.names.map fun n => fin (value n)) bs := by
    unfold Likelihood.Setup.flowMC
    cases hw : inp.whereFns with
    | none => simp [closure, hw]
    | some fns =>
      have hw' : (closure inp none s pr c).whereFns = some (fns.map fun f args => f (kwargsOf s.constants args)) := by simp [closure, hw]
      rw [hw']
      simp only
      rw [if_pos]
      unfold Likelihood.Setup.predicate
      simp only [Likelihood.foldl_and, Bool.and_eq_true, List.all_eq_true]
      refine ⟨?_, h1, ?_⟩
      · intro v hv
        obtain ⟨n, -, rfl⟩ := List.mem_map.1 hv
        rfl
      · intro g hg
        obtain ⟨f, hf, rfl⟩ := List.mem_map.1 hg
        show f (kwargsOf s.constants ((closure inp none s pr c).args _)) = true
        rw [hargs]
        exact hwhere fns hw f hf
  rw [hf]
  unfold Likelihood.Setup.likelihoodFn
  simp only
  have hd' : (closure inp none s pr c).distFn ((closure inp none s pr c).constants ++
      (closure inp none s pr c).mapParams (s.names.map fun n => fin (value n))) = M := hdist
  rw [hd', constant_eq none hT, events_sum ho hrows hT hd M hlog hpos]
  have hr : (closure inp none s pr c).poissonMean M = fin μ := hμ
  have hl : (closure inp none s pr c).priorLogProb (s.names.map fun n => fin (value n)) = fin lp := h2
  rw [hr, hl, sub_fin_fin, add_fin_fin]
  simp [nanToNum, add_sub_assoc]

/-- **C82.**  The log density numpyro explores, that of the sample sites plus the factor, is the same number, for the model built with `validate_args=True`. -/
theorem C82_numpyro_value (hord : ∀ l, (ord l).Perm l) (ho : Jenks.OracleSorted orc) (hm : Meaningful inp.params) (hx : (keys inp.extra).Nodup)
    (hrows : RowsMatch inp) (hT : 0 < inp.tObs) (h : run ord orc inp = .ok r) (value : String → ℝ) (M : Likelihood.Model FRow)
    (hM : M = inp.model (some true) (meaning inp.params inp.extra fun n => fin (value n)))
    (hwhere : ∀ fns, inp.whereFns = some fns → ∀ f ∈ fns, f (meaning inp.params inp.extra fun n => fin (value n)) = true)
    (lp μ : ℝ) (hlp : XR.sum (r.labels.map (logPriorOf inp.params fun n => fin (value n))) = fin lp) (hμ : inp.rate M = fin μ)
    (hlog : ∀ ev ∈ inputEvents inp.data inp.refs, ∀ p ∈ ev, (M.logProb p.1 - p.2).IsLog)
    (hpos : ∀ ev ∈ inputEvents inp.data inp.refs, 0 < (ev.map fun p => (M.logProb p.1 - p.2).expR).sum) (big : ℝ) :
    r.numpyro big (r.labels.map fun n => fin (value n)) =
      some (fin (lp + ((inputEvents inp.data inp.refs).map fun ev => Real.log (inp.tObs * mcAverage M.logProb ev)).sum - μ)) := by
  obtain ⟨s, pr, c, bs, hs, hp, hd, hdis, rfl⟩ := run_ok h
  simp only at hlp ⊢
  have hargs := args_meaning (pr := pr) (c := c) hm hx hs hdis (some true) fun n => fin (value n)
  have hdist : (closure inp (some true) s pr c).distFn ((closure inp (some true) s pr c).constants ++
      (closure inp (some true) s pr c).mapParams (s.names.map fun n => fin (value n))) = M := by
    rw [hM, ← hargs]; rfl
  rw [sites_eq hord hm hs, hlp, Option.map_some]
  have core : (closure inp (some true) s pr c).numpyroCore (s.names.map fun n => fin (value n)) bs =
      fin (((inputEvents inp.data inp.refs).map fun ev => Real.log (inp.tObs * mcAverage M.logProb ev)).sum - μ) := by
    unfold Likelihood.Setup.numpyroCore
    simp only
    rw [hdist, constant_eq (some true) hT, events_sum ho hrows hT hd M hlog hpos]
    have hr : (closure inp (some true) s pr c).poissonMean M = fin μ := hμ
    rw [hr, sub_fin_fin]
    rfl
  have hfac : (closure inp (some true) s pr c).numpyroFactor big (s.names.map fun n => fin (value n)) bs =
      fin (((inputEvents inp.data inp.refs).map fun ev => Real.log (inp.tObs * mcAverage M.logProb ev)).sum - μ) := by
    unfold Likelihood.Setup.numpyroFactor
    simp only
    rw [core]
    have : (closure inp (some true) s pr c).whereFns = inp.whereFns.map fun fns => fns.map fun f args => f (kwargsOf s.constants args) := rfl
    rw [this]
    cases hw : inp.whereFns with
    | none => rfl
    | some fns =>
      cases fns with
      | nil => rfl
      | cons f fs =>
        simp only [Option.map_some, List.map_cons]
        rw [if_pos]
        · rfl
        · rw [Likelihood.foldl_and, Bool.and_eq_true, List.all_eq_true]
          refine ⟨?_, ?_⟩
          · show f (kwargsOf s.constants ((closure inp (some true) s pr c).args _)) = true
            rw [hargs]
            exact hwhere _ hw f (by simp)
          · intro g hg
            obtain ⟨f', hf', rfl⟩ := List.mem_map.1 hg
            show f' (kwargsOf s.constants ((closure inp (some true) s pr c).args _)) = true
            rw [hargs]
            exact hwhere _ hw f' (by simp [hf'])
  rw [hfac, add_fin_fin, ← add_sub_assoc]

/-- **C82.**  A vector with one coordinate outside the support of its prior, or rejected by a where-function, is never accepted by flowMC: the log density is
`-inf`, with or without where-functions, whatever the likelihood. -/
theorem C82_outside_rejected (hord : ∀ l, (ord l).Perm l) (hm : Meaningful inp.params) (hx : (keys inp.extra).Nodup) (h : run ord orc inp = .ok r)
    (value : String → XR)
    (hout : (∃ n ∈ r.labels, inPrior inp.params value n = false) ∨
      ∃ fns, inp.whereFns = some fns ∧ ∃ f ∈ fns, f (meaning inp.params inp.extra value) = false) :
    r.flowMC (r.labels.map value) = .ninf := by
  obtain ⟨s, pr, c, bs, hs, hp, hd, hdis, rfl⟩ := run_ok h
  obtain ⟨h1, h2⟩ := prior_at hord hm hs hp value
  simp only at hout ⊢
  rcases hout with ⟨n, hn, hno⟩ | ⟨fns, hw, f, hf, hno⟩
  · apply Likelihood.C06_zero_prior_rejected
    left
    have hall : s.names.all (inPrior inp.params value) = false := by
      rw [List.all_eq_false]
      exact ⟨n, hn, by simp [hno]⟩
    rw [hall] at h2
    exact h2
  · apply Likelihood.C06_rejected_points_get_neginf _ _ _ (fns.map fun f args => f (kwargsOf s.constants args))
    · simp [closure, hw]
    · left
      refine ⟨_, List.mem_map.2 ⟨f, hf, rfl⟩, ?_⟩
      have hargs := args_meaning (pr := pr) (c := c) hm hx hs hdis none value
      simp only [hargs, hno]

/-- **C82.**  Neither the number of buckets, nor the threshold, nor the clustering, nor the order of the events changes the function handed to the sampler, at
any vector whatever. -/
theorem C82_buckets_irrelevant {orc' : Jenks.Oracle} {inp' : Inputs} {r' : Analysis} (ho : Jenks.OracleSorted orc) (ho' : Jenks.OracleSorted orc')
    (hrows : RowsMatch inp) (hrows' : RowsMatch inp') (hsame : SameButOrder inp inp') (h : run ord orc inp = .ok r) (h' : run ord orc' inp' = .ok r') :
    r'.labels = r.labels ∧ (∀ x, r'.flowMC x = r.flowMC x) ∧ ∀ big x, r'.numpyro big x = r.numpyro big x := by
  obtain ⟨s, pr, c, bs, hs, hp, hd, -, rfl⟩ := run_ok h
  obtain ⟨s', pr', c', bs', hs', hp', hd', -, rfl⟩ := run_ok h'
  rw [hsame.params, hsame.extra, hs] at hs'
  simp only [Except.ok.injEq] at hs'
  subst hs'
  rw [hp] at hp'
  simp only [Except.ok.injEq] at hp'
  subst hp'
  obtain ⟨e1, e2⟩ := Likelihood.C07_read_data_keeps_events orc ho _ _ hrows _ _ _ _ hd
  obtain ⟨e1', e2'⟩ := Likelihood.C07_read_data_keeps_events orc' ho' _ _ hrows' _ _ _ _ hd'
  have hlen : ∀ {i : Inputs} {o : Jenks.Oracle} {q}, Likelihood.readData o i.data i.refs i.nBuckets i.threshold = .ok q → i.data.length = i.refs.length := by
    intro i o q hq
    by_contra hne
    unfold Likelihood.readData at hq
    rw [if_pos hne] at hq
    cases hq
  have l1 := hlen hd
  have l2 := hlen hd'
  have hdata : inp.data.Perm inp'.data := by
    have := hsame.events.map Prod.fst
    rwa [List.map_fst_zip (by omega), List.map_fst_zip (by omega)] at this
  have hc : c' = c := by
    rw [e2, e2', (hdata.map fun d => Real.log d.rows.length).sum_eq]
  subst hc
  have hevents : (Likelihood.allEvents bs').Perm (Likelihood.allEvents bs) :=
    (e1'.trans (hsame.events.map _).symm).trans e1.symm
  have hsm : Likelihood.SameEvents (Likelihood.allEvents bs') (Likelihood.allEvents bs) :=
    ⟨_, hevents, List.forall₂_same.2 fun _ _ => List.Perm.refl _⟩
  have hcl : ∀ v, closure inp' v s pr c' = closure inp v s pr c' := by
    intro v
    simp only [closure, hsame.model, hsame.whereFns, hsame.rate, hsame.tObs, hdata.length_eq]
  refine ⟨rfl, fun x => ?_, fun big x => ?_⟩
  · simp only [hcl]
    exact (Likelihood.C07_bucketing_irrelevant _ bs' bs hsm x 0).1
  · simp only [hcl]
    rw [(Likelihood.C07_bucketing_irrelevant _ bs' bs hsm x big).2]

theorem repeated_iff {params : Dict String (PVal XR)} {extra : Dict String (Option ℚ)} {s : Guru.Setup XR} (hm : Meaningful params) (hx : (keys extra).Nodup)
    (hs : Guru.setup ord params extra = .ok s) :
    (keys s.constants).any (· ∈ keys s.index) = true ↔
      ∃ n ∈ keys extra, Sampled params n ∨ ∃ t, (n, PVal.str t) ∈ params ∧ Sampled params t := by
  obtain ⟨cl, hc, hs1, hs2, hs3, hs4, hlen, hidx⟩ := Guru.C35_indices ord params hm.nodup extra s hs
  obtain ⟨cl', hc', hconst⟩ := Guru.C35_model_constants_win ord params extra hx s hs
  have : cl' = cl := by rw [hc] at hc'; simpa using hc'.symm
  subst this
  have hR := Guru.C35_roles ord params hm.nodup cl' hc
  have hsam : ∀ n, Sampled params n ↔ n ∈ keys cl'.vars := by
    intro n
    constructor
    · rintro (⟨b, hb⟩ | ⟨ip, f, a, hb⟩)
      · rw [mem_keys_iff, hR.dist n b hb]; rfl
      · obtain ⟨a', -, h1, -⟩ := hR.lazy n ip f a hb
        rw [mem_keys_iff, h1]; rfl
    · intro hk
      obtain ⟨i, hi⟩ := List.getElem?_of_mem ((hs3 n).2 hk)
      rcases marginal hm hs i n hi with ⟨b, hb, -⟩ | ⟨f, a, hb, -⟩
      · exact Or.inl ⟨b, hb⟩
      · exact Or.inr ⟨_, f, _, hb⟩
  have hindex : ∀ n, n ∈ keys s.index ↔ Sampled params n ∨ ∃ t, (n, PVal.str t) ∈ params ∧ Sampled params t := by
    intro n
    rw [mem_keys_iff, Option.isSome_iff_exists]
    constructor
    · rintro ⟨i, hi⟩
      rcases (hidx n i).1 hi with h5 | ⟨t, h5, -⟩
      · exact Or.inl ((hsam n).2 ((hs3 n).1 (List.mem_of_getElem? h5)))
      · obtain ⟨h6, h7⟩ := (hR.aliasVar n t).1 h5
        exact Or.inr ⟨t, h6, (hsam t).2 h7⟩
    · rintro (h5 | ⟨t, h5, h6⟩)
      · obtain ⟨i, hi⟩ := List.getElem?_of_mem ((hs3 n).2 ((hsam n).1 h5))
        exact ⟨i, (hidx n i).2 (Or.inl hi)⟩
      · obtain ⟨i, hi⟩ := List.getElem?_of_mem ((hs3 t).2 ((hsam t).1 h6))
        exact ⟨i, (hidx n i).2 (Or.inr ⟨t, (hR.aliasVar n t).2 ⟨h5, (hsam t).1 h6⟩, hi⟩)⟩
  rw [List.any_eq_true]
  constructor
  · rintro ⟨n, hn, hi⟩
    have hi' : n ∈ keys s.index := by simpa using hi
    refine ⟨n, ?_, (hindex n).1 hi'⟩
    by_contra hno
    rw [← get?_eq_none_iff] at hno
    have h1 := hconst n
    rw [hno] at h1
    simp only at h1
    rw [mem_keys_iff, h1, ← mem_keys_iff] at hn
    rcases (hindex n).1 hi' with h5 | ⟨t, h5, h6⟩
    · exact hR.constNotVar n hn ((hsam n).1 h5)
    · refine hR.constNotAlias n hn ?_
      rw [mem_keys_iff, (hR.aliasVar n t).2 ⟨h5, (hsam t).1 h6⟩]; rfl
  · rintro ⟨n, hn, h5⟩
    refine ⟨n, ?_, by simpa using (hindex n).2 h5⟩
    rw [mem_keys_iff, Option.isSome_iff_exists] at hn
    obtain ⟨v, hv⟩ := hn
    have h1 := hconst n
    rw [hv] at h1
    rw [mem_keys_iff, h1]; rfl

/-- **C82.**  An analysis whose table and data are accepted goes ahead, unless a constant of the model is also sampled, or is another name of a sampled
parameter; then it stops with a `TypeError`. -/
theorem C82_stops_iff (hord : ∀ l, (ord l).Perm l) (hm : Meaningful inp.params) (hx : (keys inp.extra).Nodup) (s : Guru.Setup XR)
    (hs : Guru.setup ord inp.params inp.extra = .ok s) (c : ℝ) (bs : List (Likelihood.Bucket FRow))
    (hd : Likelihood.readData orc inp.data inp.refs inp.nBuckets inp.threshold = .ok (c, bs)) :
    ((∃ n ∈ keys inp.extra, Sampled inp.params n ∨ ∃ t, (n, PVal.str t) ∈ inp.params ∧ Sampled inp.params t) →
        run ord orc inp = .error .repeatedKeyword) ∧
      ((¬ ∃ n ∈ keys inp.extra, Sampled inp.params n ∨ ∃ t, (n, PVal.str t) ∈ inp.params ∧ Sampled inp.params t) →
        ∃ r, run ord orc inp = .ok r) := by
  obtain ⟨pr, hp, -⟩ := prior_ok hord hm hs
  have hany := repeated_iff hm hx hs
  constructor
  · intro hcon
    simp only [run, hs, hp, hd, if_pos (hany.2 hcon)]
  · intro hcon
    have : ¬ (keys s.constants).any (· ∈ keys s.index) = true := fun hb => hcon (hany.1 hb)
    simp only [run, hs, hp, hd, if_neg this]
    exact ⟨_, rfl⟩

/-- **C82.**  A number of reference priors other than the number of events is refused. -/
theorem C82_counts_must_match (h : inp.data.length ≠ inp.refs.length) : ¬ ∃ r, run ord orc inp = .ok r := by
  rintro ⟨r, hr⟩
  obtain ⟨s, pr, c, bs, -, -, hd, -, -⟩ := run_ok hr
  unfold Likelihood.readData at hd
  rw [if_pos h] at hd
  cases hd

example : ¬ ∃ r, run id Jenks.exOracle ⟨[], [], fun _ _ => ⟨fun _ => 0, fun _ _ => []⟩, none, [⟨[], 1⟩], [], none, 3, fun _ => 0, 1⟩ = .ok r :=
  C82_counts_must_match (by simp)

/-! One analysis: `a` is uniform between 0 and 1, `b` uniform between 0 and `a`, `rate` is another name of `a`, and `k` a constant; two events. -/

def exA : Base XR := ⟨none, fun _ => fin 0, fun v => match v with
  | .one (fin x) => decide (0 ≤ x ∧ x ≤ 1)
  | _ => false, fun _ => .one (fin (1 / 2))⟩

def exB (kw : List (String × List XR)) : Base XR := ⟨none, fun _ => match kw with
  | [(_, [fin a])] => fin (-Real.log a)
  | _ => nan, fun v => match v, kw with
  | .one (fin x), [(_, [fin a])] => decide (0 ≤ x ∧ x ≤ a)
  | _, _ => false, fun _ => .one (fin 0)⟩

def exTable : Dict String (PVal XR) := [("b", .lazy true exB (some [("high", "a")])), ("rate", .str "a"), ("k", .num 3), ("a", .dist exA)]

def exInputs : Inputs where
  params := exTable
  extra := [("N", some 1), ("off", none)]
  model := fun _ kw => ⟨fun _ => match kw "rate", kw "k", kw "off" with
    | some (some v), some (some k), some none => v + k
    | _, _, _ => nan, fun _ _ => []⟩
  whereFns := some [fun kw => (kw "N").isSome]
  data := [⟨[[.fin 1], [.fin 2]], 1⟩, ⟨[[.fin 3]], 1⟩]
  refs := [⟨[[.fin 0], [.fin 0]], 1⟩, ⟨[[.fin 0]], 1⟩]
  nBuckets := some 1
  threshold := 3
  rate := fun M => M.logProb []
  tObs := 2

theorem exTable_mem {n : String} {v : PVal XR} (h : (n, v) ∈ exTable) :
    (n, v) = ("b", .lazy true exB (some [("high", "a")])) ∨ (n, v) = ("rate", .str "a") ∨ (n, v) = ("k", .num 3) ∨ (n, v) = ("a", .dist exA) := by
  simpa [exTable] using h

theorem exTable_meaningful : Meaningful exTable where
  nodup := by decide +kernel
  dist := by
    intro n b h
    rcases exTable_mem h with h | h | h | h <;> simp at h
    obtain ⟨-, rfl⟩ := h
    exact ⟨rfl, fun _ => trivial⟩
  lazy := by
    intro n ip f a h kw
    rcases exTable_mem h with h | h | h | h <;> simp at h
    obtain ⟨-, -, rfl, -⟩ := h
    exact ⟨rfl, fun _ => trivial⟩
  deps := by
    intro n ip f a h
    rcases exTable_mem h with h | h | h | h <;> simp at h
    obtain ⟨-, -, -, rfl⟩ := h
    simp
  aliases := by
    intro n t h
    rcases exTable_mem h with h | h | h | h <;> simp at h
    obtain ⟨-, rfl⟩ := h
    exact ⟨.dist exA, by simp [exTable], by simp⟩

theorem exSetup : ∃ s, Guru.setup id exTable [("N", some 1), ("off", none)] = .ok s ∧ s.names = ["a", "b"] := ⟨_, rfl, by decide +kernel⟩

theorem exData : ∃ c bs, Likelihood.readData Jenks.exOracle exInputs.data exInputs.refs (some 1) 3 = .ok (c, bs) := by
  unfold Likelihood.readData
  rw [if_neg (by simp [exInputs])]
  have : ∃ a b m, Jenks.padAndStack Jenks.exOracle (fun w => List.replicate w (0 : XR)) [exInputs.data, exInputs.refs] (some 1) 3 = .ok ([a, b], m) := by
    rw [Jenks.padAndStack, if_neg (by norm_num)]
    exact ⟨_, _, _, rfl⟩
  obtain ⟨a, b, m, h⟩ := this
  rw [h]
  exact ⟨_, _, rfl⟩

theorem exRows : RowsMatch exInputs := by
  intro i
  rcases i with _ | _ | i <;> rfl

/-- The analysis runs. -/
theorem exRun : ∃ r, run id Jenks.exOracle exInputs = .ok r ∧ r.labels = ["a", "b"] := by
  obtain ⟨s, hs, hn⟩ := exSetup
  obtain ⟨c, bs, hd⟩ := exData
  obtain ⟨r, hr⟩ := (C82_stops_iff (inp := exInputs) (fun l => List.Perm.refl l) exTable_meaningful (by decide +kernel) s hs c bs hd).2 (by
    rintro ⟨n, hn, h⟩
    have hn : n = "N" ∨ n = "off" := by simpa [exInputs, keys] using hn
    rcases hn with rfl | rfl <;> simp [exInputs, Sampled, exTable] at h)
  refine ⟨r, hr, ?_⟩
  obtain ⟨s', pr, c, bs, hs', -, -, -, rfl⟩ := run_ok hr
  have : Guru.setup id exTable [("N", some 1), ("off", none)] = .ok s' := hs'
  rw [hs] at this
  cases this
  exact hn

example : ∃ r, run id Jenks.exOracle exInputs = .ok r ∧ ∃ y z, r.flowMC [fin (1 / 2), fin (1 / 4)] = fin y ∧
    (∀ big, r.numpyro big [fin (1 / 2), fin (1 / 4)] = some (fin z)) ∧ r.flowMC [fin (1 / 2), fin (3 / 4)] = .ninf := by
  obtain ⟨r, hr, hl⟩ := exRun
  refine ⟨r, hr, ?_⟩
  let value : String → ℝ := fun n => if n = "a" then 1 / 2 else 1 / 4
  have hv : r.labels.map (fun n => fin (value n)) = [fin (1 / 2), fin (1 / 4)] := by rw [hl]; simp [value]
  have hM : ∀ v, exInputs.model v (meaning exInputs.params exInputs.extra fun n => fin (value n)) = ⟨fun _ => fin (7 / 2), fun _ _ => []⟩ := by
    intro v
    have h1 : meaning exInputs.params exInputs.extra (fun n => fin (value n)) "rate" = some (some (fin (1 / 2))) := by
      simp [meaning, exInputs, exTable, get?, direct, value]
    have h2 : meaning exInputs.params exInputs.extra (fun n => fin (value n)) "k" = some (some (fin 3)) := by
      simp [meaning, exInputs, exTable, get?, direct]
    have h3 : meaning exInputs.params exInputs.extra (fun n => fin (value n)) "off" = some none := by
      simp [meaning, exInputs, exTable, get?]
    simp only [exInputs] at h1 h2 h3 ⊢
    simp only [h1, h2, h3]
    congr 1
    funext _
    rw [add_fin_fin]
    norm_num
  have hw : ∀ fns, exInputs.whereFns = some fns → ∀ f ∈ fns, f (meaning exInputs.params exInputs.extra fun n => fin (value n)) = true := by
    intro fns hf f hm
    cases hf
    simp only [List.mem_singleton] at hm
    subst hm
    simp [meaning, exInputs, get?]
  have hin : ∀ n ∈ r.labels, inPrior exInputs.params (fun n => fin (value n)) n = true := by
    rw [hl]
    intro n hn
    simp only [List.mem_cons, List.not_mem_nil, or_false] at hn
    rcases hn with rfl | rfl <;> simp [inPrior, priorOf, exInputs, exTable, get?, exA, exB, value] <;> norm_num
  have hlp : XR.sum (r.labels.map (logPriorOf exInputs.params fun n => fin (value n))) = fin (-Real.log (1 / 2)) := by
    rw [hl, XR.sum_eq]
    simp [logPriorOf, priorOf, exInputs, exTable, get?, exA, exB, value]
  have hlog : ∀ ev ∈ inputEvents exInputs.data exInputs.refs, ∀ p ∈ ev, (fin (7 / 2) - p.2 : XR).IsLog := by
    simp [inputEvents, exInputs, XR.IsLog]
    rintro a b (⟨-, rfl⟩ | ⟨-, rfl⟩) <;> simp
  have hpos : ∀ ev ∈ inputEvents exInputs.data exInputs.refs, 0 < (ev.map fun p => (fin (7 / 2) - p.2 : XR).expR).sum := by
    simp [inputEvents, exInputs, XR.expR]
    positivity
  have h1 := C82_flowMC_value (fun l => List.Perm.refl l) Jenks.exOracle_sorted exTable_meaningful (by decide +kernel) exRows (by norm_num [exInputs]) hr value
    _ (hM none).symm hw hin _ (7 / 2) hlp rfl hlog hpos
  have h2 := C82_numpyro_value (fun l => List.Perm.refl l) Jenks.exOracle_sorted exTable_meaningful (by decide +kernel) exRows (by norm_num [exInputs]) hr value
    _ (hM (some true)).symm hw _ (7 / 2) hlp rfl hlog hpos
  rw [hv] at h1
  simp only [hv] at h2
  refine ⟨_, _, h1, h2, ?_⟩
  let value' : String → XR := fun n => if n = "a" then fin (1 / 2) else fin (3 / 4)
  have h3 := C82_outside_rejected (fun l => List.Perm.refl l) exTable_meaningful (by decide +kernel) hr value' (Or.inl ⟨"b", by simp [hl], by
    simp [inPrior, priorOf, exInputs, exTable, get?, exB, value']
    norm_num⟩)
  rw [hl] at h3
  simpa [value'] using h3

/-- `C82_labels` for this analysis. -/
example : ∃ r, run id Jenks.exOracle exInputs = .ok r ∧ r.labels ≠ [] := by
  obtain ⟨r, hr, -⟩ := exRun
  exact ⟨r, hr, (C82_labels exTable_meaningful hr).1⟩

/-- The same events in the other order and in two buckets. -/
def exSwapped : Inputs :=
  { exInputs with data := [⟨[[.fin 3]], 1⟩, ⟨[[.fin 1], [.fin 2]], 1⟩], refs := [⟨[[.fin 0]], 1⟩, ⟨[[.fin 0], [.fin 0]], 1⟩], nBuckets := some 2 }

/-- The hypotheses of `C82_buckets_irrelevant`. -/
example : ∃ r r', run id Jenks.exOracle exInputs = .ok r ∧ run id Jenks.exOracle exSwapped = .ok r' ∧ ∀ x, r'.flowMC x = r.flowMC x := by
  obtain ⟨r, hr, -⟩ := exRun
  obtain ⟨s, hs, -⟩ := exSetup
  have : ∃ c bs, Likelihood.readData Jenks.exOracle exSwapped.data exSwapped.refs (some 2) 3 = .ok (c, bs) := by
    unfold Likelihood.readData
    rw [if_neg (by simp [exSwapped])]
    have : ∃ a b m, Jenks.padAndStack Jenks.exOracle (fun w => List.replicate w (0 : XR)) [exSwapped.data, exSwapped.refs] (some 2) 3 = .ok ([a, b], m) := by
      rw [Jenks.padAndStack, if_neg (by norm_num)]
      exact ⟨_, _, _, rfl⟩
    obtain ⟨a, b, m, h⟩ := this
    rw [h]
    exact ⟨_, _, rfl⟩
  obtain ⟨c, bs, hd⟩ := this
  obtain ⟨r', hr'⟩ := (C82_stops_iff (ord := id) (inp := exSwapped) (fun l => List.Perm.refl l) exTable_meaningful (by decide +kernel) s hs c bs hd).2 (by
    rintro ⟨n, hn, h⟩
    have hn : n = "N" ∨ n = "off" := by simpa [exSwapped, exInputs, keys] using hn
    rcases hn with rfl | rfl <;> simp [exSwapped, exInputs, Sampled, exTable] at h)
  have hrows : RowsMatch exSwapped := by
    intro i
    rcases i with _ | _ | i <;> rfl
  exact ⟨r, r', hr, hr', (C82_buckets_irrelevant Jenks.exOracle_sorted Jenks.exOracle_sorted exRows hrows
    ⟨rfl, rfl, rfl, rfl, rfl, rfl, List.Perm.swap _ _ _⟩ hr hr').2.1⟩

/-- A constant of the model that is also sampled stops the analysis. -/
example : run id Jenks.exOracle { exInputs with extra := [("rate", some 1)] } = .error .repeatedKeyword := by
  obtain ⟨c, bs, hd⟩ := exData
  obtain ⟨s, hs⟩ : ∃ s, Guru.setup id exTable [("rate", some 1)] = .ok s := ⟨_, rfl⟩
  refine (C82_stops_iff (inp := { exInputs with extra := [("rate", some 1)] }) (fun l => List.Perm.refl l) exTable_meaningful (by decide +kernel) s hs c bs hd).1 ?_
  exact ⟨"rate", by decide +kernel, Or.inr ⟨"a", by simp [exInputs, exTable], Or.inl ⟨exA, by simp [exInputs, exTable]⟩⟩⟩

end

end GW.Sage
