import Verif.Spec.Monk
import Verif.Lemmas.Sage
import Verif.Props.Sage
import Verif.Props.LaplaceFit
import Verif.Props.EventFiles

/-!
# C83: an analysis of Gaussian events samples the posterior its input files describe

`inp` are the inputs of one analysis and `r` what `Monk.run` hands to the sampler.
-/

namespace GW.Monk
open GW PyDict XR Matrix
open GW.Guru (PVal)
open GW.Sage (Meaningful meaning inPrior logPriorOf Sampled kwargsOf numbers prior)
open GW.Analytic (IsCholesky IsTril batchKey pool drawOf)
open scoped Classical

noncomputable section

variable {d : ℕ} {ord : List String → List String} {chol : Matrix (Fin d) (Fin d) ℝ → Matrix (Fin d) (Fin d) ℝ} {normals : Key → List (Fin d → ℝ)}
  {inp : Inputs d} {r : Analysis}

theorem run_ok (h : run ord chol normals inp = .ok r) :
    ∃ s pr ms cs events key, Guru.setup ord inp.params inp.extra = .ok s ∧ prior s = .ok pr ∧
      Events.readMeanCovariances inp.filename inp.file = .ok (ms, cs) ∧ stack d ms cs = .ok events ∧ likelihoodKey inp.seed = .ok key ∧
      ¬ (keys s.constants).any (· ∈ keys s.index) = true ∧ r = ⟨s.names, logLikelihoodFn inp chol normals s pr key events⟩ := by
  unfold run at h
  cases hs : Guru.setup ord inp.params inp.extra with
  | error e => simp [hs] at h
  | ok s =>
    simp only [hs] at h
    cases hp : prior s with
    | error e => simp [hp] at h
    | ok pr =>
      simp only [hp] at h
      cases hd : Events.readMeanCovariances inp.filename inp.file with
      | error e => simp [hd] at h
      | ok mc =>
        obtain ⟨ms, cs⟩ := mc
        simp only [hd] at h
        cases he : stack d ms cs with
        | error e => simp [he] at h
        | ok events =>
          simp only [he] at h
          cases hk : likelihoodKey inp.seed with
          | error e => simp [hk] at h
          | ok key =>
            simp only [hk] at h
            split_ifs at h with h1
            simp only [Except.ok.injEq] at h
            exact ⟨s, pr, ms, cs, events, key, rfl, hp, rfl, he, rfl, h1, h.symm⟩

theorem key_eq (seed : ℕ) : likelihoodKey seed = .ok (.sub (.sub (.seed seed) 0) 1) := by
  have : ¬ (seed : ℤ) < 0 := by omega
  simp only [likelihoodKey, Rng.setRngKey, Rng.rngKey, if_neg this, Int.toNat_natCast]

/-- The lists a mean and a covariance are stored as. -/
def listVec (m : Fin d → ℝ) : List XR := List.ofFn fun i => fin (m i)

def listMat (S : Matrix (Fin d) (Fin d) ℝ) : List (List XR) := List.ofFn fun i => List.ofFn fun j => fin (S i j)

theorem event_eq (m : Fin d → ℝ) (S : Matrix (Fin d) (Fin d) ℝ) : event d (listVec m) (listMat S) = some (m, S) := by
  unfold event
  rw [if_pos]
  · congr 2
    · funext i
      simp [listVec, List.getD_eq_getElem?_getD, real]
    · funext i j
      simp [listMat, List.getD_eq_getElem?_getD, real]
  · simp [listVec, listMat, isFin]

theorem read_eq : ∀ (file : List (String × Events.Group)) (evs : List ((Fin d → ℝ) × Matrix (Fin d) (Fin d) ℝ)),
    List.Forall₂ (fun kg e => Holds kg.2 e.1 e.2) (file.filter fun kg => "event_".toList.isPrefixOf kg.1.toList) evs →
    Events.readGroups file = .ok (evs.map fun e => listVec e.1, evs.map fun e => listMat e.2)
  | [], evs, h => by
    simp only [List.filter_nil, List.forall₂_nil_left_iff] at h
    subst h
    rfl
  | (key, g) :: file, evs, h => by
    unfold Events.readGroups
    by_cases hk : "event_".toList.isPrefixOf key.toList = true
    · rw [hk, Bool.not_true, if_neg Bool.false_ne_true]
      rw [List.filter_cons_of_pos (by exact hk)] at h
      cases h with
      | @cons _ e _ evs hg hrest =>
        obtain ⟨h1, h2⟩ := hg
        have hr : Events.readGroup g = .ok (listVec e.1, listMat e.2) := by
          unfold Events.readGroup
          simp only at h1 h2
          rw [h1, h2]
          simp only
          rw [if_pos (by simp)]
          rfl
        rw [hr, read_eq file evs hrest]
        rfl
    · rw [Bool.eq_false_iff.2 hk, Bool.not_false, if_pos rfl]
      rw [List.filter_cons_of_neg (by exact hk)] at h
      exact read_eq file evs h

theorem stack_eq (evs : List ((Fin d → ℝ) × Matrix (Fin d) (Fin d) ℝ)) :
    stack d (evs.map fun e => listVec e.1) (evs.map fun e => listMat e.2) = if evs = [] then .error .stack else .ok evs := by
  unfold stack
  cases evs with
  | nil => rfl
  | cons e evs =>
    rw [if_neg (by simp), if_neg (by simp)]
    have : (((e :: evs).map fun e => listVec e.1).zip ((e :: evs).map fun e => listMat e.2)).mapM (fun p => event d p.1 p.2) = some (e :: evs) := by
      generalize e :: evs = l
      rw [List.zip_map']
      induction l with
      | nil => rfl
      | cons a l ih => simp [List.mapM_cons, event_eq, ih]
    rw [this]

theorem file_read {evs : List ((Fin d → ℝ) × Matrix (Fin d) (Fin d) ℝ)} (hf : FileHolds inp.filename inp.file evs) :
    Events.readMeanCovariances inp.filename inp.file = .ok (evs.map fun e => listVec e.1, evs.map fun e => listMat e.2) := by
  unfold Events.readMeanCovariances
  rw [if_pos, read_eq _ _ hf.2]
  rw [Bool.or_eq_true, List.isSuffixOf_iff_suffix, List.isSuffixOf_iff_suffix]
  exact hf.1

/-- **C83.**  The columns are the sampled parameters, each once, in alphabetical order, and there is at least one. -/
theorem C83_labels (hm : Meaningful inp.params) (h : run ord chol normals inp = .ok r) :
    r.labels ≠ [] ∧ r.labels.Nodup ∧ r.labels.Pairwise (· ≤ ·) ∧ ∀ n, n ∈ r.labels ↔ Sampled inp.params n := by
  obtain ⟨s, pr, ms, cs, events, key, hs, -, -, -, -, -, rfl⟩ := run_ok h
  exact Sage.labels_of_setup hm hs

/-- The proposal of an event. -/
def fitOf (chol : Matrix (Fin d) (Fin d) ℝ → Matrix (Fin d) (Fin d) ℝ) (inp : Inputs d) (kw : Sage.Kwargs) (e : (Fin d → ℝ) × Matrix (Fin d) (Fin d) ℝ) : Analytic.Event d :=
  Analytic.laplaceFit chol ⟨e.1, chol e.2⟩ (inp.grad kw e.1) (inp.hess kw e.1)

theorem value_fit (hord : ∀ l, (ord l).Perm l) (hc : IsCholesky chol) (hm : Meaningful inp.params) (hx : (keys inp.extra).Nodup)
    (hn : 2 ≤ inp.nSamples) (hmax : 1 ≤ inp.nMaxSteps) (hT : 0 < inp.tObs) (hnorm : ∀ k, (normals k).length = inp.nSamples)
    (evs : List ((Fin d → ℝ) × Matrix (Fin d) (Fin d) ℝ)) (hfile : FileHolds inp.filename inp.file evs) (hS : ∀ e ∈ evs, e.2.PosDef)
    (h : run ord chol normals inp = .ok r) (value : String → ℝ) (kw : Sage.Kwargs) (hkw : kw = meaning inp.params inp.extra fun n => fin (value n))
    (hlog : ∀ e ∈ evs, ∀ k, ∀ z ∈ normals k, IsLog (inp.model kw (Analytic.mvnSample (fitOf chol inp kw e).mean (fitOf chol inp kw e).tril z)))
    (hH : ∀ e ∈ evs, (inp.hess kw e.1)ᵀ = inp.hess kw e.1)
    (hin : ∀ n ∈ r.labels, inPrior inp.params (fun n => fin (value n)) n = true) (lp μ : ℝ)
    (hlp : XR.sum (r.labels.map (logPriorOf inp.params fun n => fin (value n))) = fin lp) (hμ : inp.rate kw = fin μ) :
    ∃ b : ℕ → ℕ, (∀ i, 1 ≤ b i ∧ b i ≤ inp.nMaxSteps) ∧
      (∀ p ∈ evs.zipIdx, StopsAfter inp.minErr inp.nMaxSteps (fun k => weights (fun x => expR (inp.model kw x)) p.1.1 p.1.2 (fitOf chol inp kw p.1).mean (fitOf chol inp kw p.1).tril
          ((List.range k).map fun j => normals (batchKey (Key.sub (.sub (.sub (.seed inp.seed) 0) 1) p.2) j)).flatten) (b p.2)) ∧
      (∀ e ∈ evs, IsProposal e.1 e.2 (inp.grad kw e.1) (inp.hess kw e.1) (fitOf chol inp kw e).mean (fitOf chol inp kw e).tril ∧ IsTril (fitOf chol inp kw e).tril) ∧
      r.logpdf (r.labels.map fun n => fin (value n)) =
        XR.sum (evs.zipIdx.map fun p => log (fin (mean (weights (fun x => expR (inp.model kw x)) p.1.1 p.1.2 (fitOf chol inp kw p.1).mean (fitOf chol inp kw p.1).tril
          ((List.range (b p.2)).map fun j => normals (batchKey (Key.sub (.sub (.sub (.seed inp.seed) 0) 1) p.2) j)).flatten)))) + fin (lp + evs.length * Real.log inp.tObs - μ) := by
  obtain ⟨s, pr, ms, cs, events, key, hs, hp, hr, hst, hk, hdis, rfl⟩ := run_ok h
  rw [file_read hfile] at hr
  simp only [Except.ok.injEq, Prod.mk.injEq] at hr
  obtain ⟨rfl, rfl⟩ := hr
  rw [stack_eq] at hst
  split_ifs at hst with hne
  simp only [Except.ok.injEq] at hst
  subst hst
  rw [key_eq] at hk
  simp only [Except.ok.injEq] at hk
  subst hk
  obtain ⟨h1, h2⟩ := Sage.prior_at hord hm hs hp fun n => fin (value n)
  have hall : s.names.all (inPrior inp.params fun n => fin (value n)) = true := List.all_eq_true.2 hin
  simp only at hlp ⊢
  rw [hall, if_pos rfl, hlp] at h2
  have hargs : kwargsOf s.constants (numbers s.constants ++ mapParams s.index (s.names.map fun n => fin (value n))) = kw := by
    rw [hkw]
    exact Sage.kwargs_meaning hm hx hs hdis fun n => fin (value n)
  let ft : ((Fin d → ℝ) × Matrix (Fin d) (Fin d) ℝ) → Analytic.Event d := fitOf chol inp kw
  have htri : ∀ p ∈ evs.map (fun e => ((⟨e.1, chol e.2⟩ : Analytic.Event d), ft e)), IsTril p.1.tril ∧ IsTril p.2.tril := by
    intro p hp
    obtain ⟨e, he, rfl⟩ := List.mem_map.1 hp
    have h3 := (hc e.2 (hS e he)).1
    exact ⟨h3, Analytic.C60_proposal_is_gaussian chol hc ⟨e.1, chol e.2⟩ h3 _ _ (hH e he)⟩
  obtain ⟨b, hb, hstop, hval⟩ := Analytic.C60_posterior inp.nSamples inp.nMaxSteps hn hmax inp.minErr inp.tObs hT (inp.model kw) normals hnorm (.sub (.sub (.seed inp.seed) 0) 1) _ htri
    (fun p hp => by
      obtain ⟨e, he, rfl⟩ := List.mem_map.1 hp
      exact hlog e he) μ lp
  have hpool : ∀ p ∈ evs.zipIdx, ∀ k, pool (drawOf (inp.model kw) ⟨p.1.1, chol p.1.2⟩ (ft p.1) normals) (Key.sub (.sub (.sub (.seed inp.seed) 0) 1) p.2) k =
      weights (fun x => expR (inp.model kw x)) p.1.1 p.1.2 (ft p.1).mean (ft p.1).tril
        ((List.range k).map fun j => normals (batchKey (Key.sub (.sub (.sub (.seed inp.seed) 0) 1) p.2) j)).flatten := by
    intro p hp k
    have he : p.1 ∈ evs := by
      obtain ⟨-, hlt, h3⟩ := List.mem_zipIdx hp
      rw [h3]
      exact List.getElem_mem _
    unfold pool weights drawOf
    rw [List.map_flatten, List.map_map]
    congr 1
    apply List.map_congr_left
    intro j hj
    simp only [Function.comp, List.map_map]
    apply List.map_congr_left
    intro e' he'
    have ht := htri (⟨p.1.1, chol p.1.2⟩, ft p.1) (List.mem_map.2 ⟨p.1, he, rfl⟩)
    have hw := (Analytic.C60_weight (inp.model kw) ⟨p.1.1, chol p.1.2⟩ (ft p.1) ht.1 ht.2 (Analytic.mvnSample (ft p.1).mean (ft p.1).tril e') (hlog p.1 he _ e' he')).2
    simp only [Function.comp]
    rw [hw, (hc p.1.2 (hS p.1 he)).2]
    rfl
  refine ⟨b, hb, ?_, ?_, ?_⟩
  · intro p hp
    have := hstop ((⟨p.1.1, chol p.1.2⟩, ft p.1), p.2) (by
      rw [List.zipIdx_map]
      exact List.mem_map.2 ⟨p, hp, rfl⟩)
    simp only at this
    rwa [funext (hpool p hp)] at this
  · intro e he
    have h3 := hc e.2 (hS e he)
    obtain ⟨k1, k2⟩ := Analytic.C60_proposal_fit chol hc ⟨e.1, chol e.2⟩ (inp.grad kw e.1) (inp.hess kw e.1) (hH e he)
    simp only [h3.2] at k1 k2
    have ht := Analytic.C60_proposal_is_gaussian chol hc ⟨e.1, chol e.2⟩ h3.1 (inp.grad kw e.1) _ (hH e he)
    refine ⟨⟨ht.det_ne, fun hpd => ⟨(k1 hpd).1, (k1 hpd).2.2⟩, fun hpd => ?_⟩, ht⟩
    have := k2 hpd
    simp only [fitOf, this]
    exact ⟨trivial, h3.2⟩
  · have hfun : logLikelihoodFn inp chol normals s pr (.sub (.sub (.seed inp.seed) 0) 1) evs (s.names.map fun n => fin (value n)) =
        Analytic.logPosterior inp.nSamples inp.nMaxSteps inp.minErr inp.tObs (inp.model kw) normals (fin μ) (fin lp) (.sub (.sub (.seed inp.seed) 0) 1)
          (evs.map fun e => ((⟨e.1, chol e.2⟩ : Analytic.Event d), ft e)) := by
      unfold logLikelihoodFn
      simp only [hargs]
      rw [h2, hμ]
      rfl
    rw [hfun, hval, List.length_map]
    congr 2
    rw [List.zipIdx_map, List.map_map]
    apply List.map_congr_left
    intro p hp
    simp only [Function.comp, Prod.map, id]
    rw [hpool p hp]

/-- **C83.**  At a vector inside the priors the log density handed to flowMC is
`Σ log prior + Σ over events of log(T_obs · mean importance weight) - expected number of events`.
The mean of an event is over between one and `n_max_steps` batches (as many as the rule of the loop says) of draws with keys of the event's own, the same at every vector, from the Laplace proposal of that event; each weight is
population density times event Gaussian over proposal Gaussian.  The priors and the arguments of the population are those the prior table means, the Gaussians
those of the file. -/
theorem C83_value (hord : ∀ l, (ord l).Perm l) (hc : IsCholesky chol) (hm : Meaningful inp.params) (hx : (keys inp.extra).Nodup)
    (hn : 2 ≤ inp.nSamples) (hmax : 1 ≤ inp.nMaxSteps) (hT : 0 < inp.tObs) (hnorm : ∀ k, (normals k).length = inp.nSamples)
    (evs : List ((Fin d → ℝ) × Matrix (Fin d) (Fin d) ℝ)) (hfile : FileHolds inp.filename inp.file evs) (hS : ∀ e ∈ evs, e.2.PosDef)
    (h : run ord chol normals inp = .ok r) (value : String → ℝ) (kw : Sage.Kwargs) (hkw : kw = meaning inp.params inp.extra fun n => fin (value n))
    (hlog : ∀ x, IsLog (inp.model kw x)) (hH : ∀ e ∈ evs, (inp.hess kw e.1)ᵀ = inp.hess kw e.1)
    (hin : ∀ n ∈ r.labels, inPrior inp.params (fun n => fin (value n)) n = true) (lp μ : ℝ)
    (hlp : XR.sum (r.labels.map (logPriorOf inp.params fun n => fin (value n))) = fin lp) (hμ : inp.rate kw = fin μ) :
    ∃ b : ℕ → ℕ, (∀ i, 1 ≤ b i ∧ b i ≤ inp.nMaxSteps) ∧ ∃ prop : ((Fin d → ℝ) × Matrix (Fin d) (Fin d) ℝ) → (Fin d → ℝ) × Matrix (Fin d) (Fin d) ℝ,
      (∀ e ∈ evs, IsProposal e.1 e.2 (inp.grad kw e.1) (inp.hess kw e.1) (prop e).1 (prop e).2) ∧
      (∀ p ∈ evs.zipIdx, StopsAfter inp.minErr inp.nMaxSteps (fun k => weights (fun x => expR (inp.model kw x)) p.1.1 p.1.2 (prop p.1).1 (prop p.1).2
          ((List.range k).map fun j => normals (batchKey (Key.sub (.sub (.sub (.seed inp.seed) 0) 1) p.2) j)).flatten) (b p.2)) ∧
      r.logpdf (r.labels.map fun n => fin (value n)) =
        XR.sum (evs.zipIdx.map fun p => log (fin (mean (weights (fun x => expR (inp.model kw x)) p.1.1 p.1.2 (prop p.1).1 (prop p.1).2
          ((List.range (b p.2)).map fun j => normals (batchKey (Key.sub (.sub (.sub (.seed inp.seed) 0) 1) p.2) j)).flatten)))) + fin (lp + evs.length * Real.log inp.tObs - μ) := by
  obtain ⟨b, hb, hs, hp, hv⟩ := value_fit hord hc hm hx hn hmax hT hnorm evs hfile hS h value kw hkw (fun _ _ _ _ _ => hlog _) hH hin lp μ hlp hμ
  exact ⟨b, hb, fun e => ((fitOf chol inp kw e).mean, (fitOf chol inp kw e).tril), fun e he => (hp e he).1, hs, hv⟩

/-- **C83.**  A vector with one coordinate outside the support of its prior gets `-inf`, whatever the events. -/
theorem C83_outside_rejected (hord : ∀ l, (ord l).Perm l) (hm : Meaningful inp.params) (h : run ord chol normals inp = .ok r) (value : String → XR)
    (hout : ∃ n ∈ r.labels, inPrior inp.params value n = false) : r.logpdf (r.labels.map value) = .ninf := by
  obtain ⟨s, pr, ms, cs, events, key, hs, hp, -, -, -, -, rfl⟩ := run_ok h
  obtain ⟨n, hn, hno⟩ := hout
  obtain ⟨-, h2⟩ := Sage.prior_at hord hm hs hp value
  have hall : s.names.all (inPrior inp.params value) = false := by
    rw [List.all_eq_false]
    exact ⟨n, hn, by simp [hno]⟩
  rw [hall, if_neg (by simp)] at h2
  simp only [logLikelihoodFn, h2, Analytic.logPosterior]
  generalize (_ - _ : XR) = y
  cases y <;> rfl

/-- **C83.**  The log density is never NaN and never `+inf`, at any vector whatever. -/
theorem C83_never_nan (h : run ord chol normals inp = .ok r) (x : List XR) : r.logpdf x ≠ .nan ∧ r.logpdf x ≠ .pinf := by
  obtain ⟨s, pr, ms, cs, events, key, -, -, -, -, -, -, rfl⟩ := run_ok h
  simp only [logLikelihoodFn, Analytic.logPosterior]
  generalize (_ + _ : XR) = y
  cases y <;> simp [nanToNum]

/-- **C83.**  When the table is accepted and the file holds Gaussians, the analysis stops in two cases only: there is no event, or a constant of the model is also
sampled or another name of a sampled parameter. -/
theorem C83_stops_iff (hord : ∀ l, (ord l).Perm l) (hm : Meaningful inp.params) (hx : (keys inp.extra).Nodup) (s : Guru.Setup XR)
    (hs : Guru.setup ord inp.params inp.extra = .ok s) (evs : List ((Fin d → ℝ) × Matrix (Fin d) (Fin d) ℝ)) (hfile : FileHolds inp.filename inp.file evs) :
    (evs = [] → run ord chol normals inp = .error .stack) ∧
      (evs ≠ [] → (∃ n ∈ keys inp.extra, Sampled inp.params n ∨ ∃ t, (n, PVal.str t) ∈ inp.params ∧ Sampled inp.params t) →
        run ord chol normals inp = .error .repeatedKeyword) ∧
      (evs ≠ [] → (¬ ∃ n ∈ keys inp.extra, Sampled inp.params n ∨ ∃ t, (n, PVal.str t) ∈ inp.params ∧ Sampled inp.params t) →
        ∃ r, run ord chol normals inp = .ok r) := by
  obtain ⟨pr, hp, -⟩ := Sage.prior_ok hord hm hs
  have hany := Sage.repeated_iff hm hx hs
  refine ⟨fun he => ?_, fun he hcon => ?_, fun he hcon => ?_⟩
  · simp only [run, hs, hp, file_read hfile, stack_eq, if_pos he]
  · simp only [run, hs, hp, file_read hfile, stack_eq, if_neg he, key_eq, if_pos (hany.2 hcon)]
  · have : ¬ (keys s.constants).any (· ∈ keys s.index) = true := fun hb => hcon (hany.1 hb)
    simp only [run, hs, hp, file_read hfile, stack_eq, if_neg he, key_eq, if_neg this]
    exact ⟨_, rfl⟩

/-- **C83.**  A file with another extension, and a file with a group `event_…` that lacks a mean or a covariance of matching shape, are refused. -/
theorem C83_bad_file (hb : (¬ ".hdf5".toList <:+ inp.filename.toList ∧ ¬ ".h5".toList <:+ inp.filename.toList) ∨
      ∃ kg ∈ inp.file, "event_".toList <+: kg.1.toList ∧ ¬ ∃ m c, kg.2.Good m c) : ¬ ∃ r, run ord chol normals inp = .ok r := by
  rintro ⟨r, h⟩
  obtain ⟨s, pr, ms, cs, events, key, -, -, hr, -⟩ := run_ok h
  rcases hb with ⟨h1, h2⟩ | hbad
  · rw [(Events.C56_means_raises inp.filename inp.file).2 h2 h1] at hr
    cases hr
  · obtain ⟨e, he⟩ := (Events.C56_means_raises inp.filename inp.file).1 hbad
    rw [he] at hr
    cases hr

/-! One analysis: the table of C82, two events in one dimension with a group that is not an event between them, and a Gaussian population. -/

def exInputs : Inputs 1 where
  params := Sage.exTable
  extra := [("N", some 1)]
  model := fun _ x => fin (-(1 / 2) * x 0 ^ 2)
  grad := fun _ x => -x
  hess := fun _ _ => -1
  rate := fun _ => fin 3
  filename := "events.hdf5"
  file := [("event_0", ⟨some [fin 0], some [[fin 1]]⟩), ("meta", ⟨none, none⟩), ("event_1", ⟨some [fin 5], some [[fin 4]]⟩)]
  tObs := 2
  seed := 37
  nSamples := 2
  minErr := 1 / 100
  nMaxSteps := 10

def exEvents : List ((Fin 1 → ℝ) × Matrix (Fin 1) (Fin 1) ℝ) := [(fun _ => 0, 1), (fun _ => 5, 4 • 1)]

theorem exFile : FileHolds exInputs.filename exInputs.file exEvents := by
  refine ⟨Or.inl (by decide +kernel), ?_⟩
  have : (exInputs.file.filter fun kg => "event_".toList.isPrefixOf kg.1.toList) =
      [("event_0", ⟨some [fin 0], some [[fin 1]]⟩), ("event_1", ⟨some [fin 5], some [[fin 4]]⟩)] := rfl
  rw [this]
  refine .cons ⟨?_, ?_⟩ (.cons ⟨?_, ?_⟩ .nil) <;> simp

theorem exRun (chol : Matrix (Fin 1) (Fin 1) ℝ → Matrix (Fin 1) (Fin 1) ℝ) (normals : Key → List (Fin 1 → ℝ)) :
    ∃ r, run id chol normals exInputs = .ok r ∧ r.labels = ["a", "b"] := by
  obtain ⟨s, hs, hn⟩ : ∃ s, Guru.setup id Sage.exTable [("N", some 1)] = .ok s ∧ s.names = ["a", "b"] := ⟨_, rfl, by decide +kernel⟩
  obtain ⟨r, hr⟩ := (C83_stops_iff (chol := chol) (normals := normals) (inp := exInputs) (fun l => List.Perm.refl l) Sage.exTable_meaningful (by decide +kernel) s hs
      exEvents exFile).2.2 (by simp [exEvents]) (by
    rintro ⟨n, hn, h⟩
    have hn : n = "N" := by simpa [exInputs, keys] using hn
    subst hn
    simp [exInputs, Sampled, Sage.exTable] at h)
  refine ⟨r, hr, ?_⟩
  obtain ⟨s', pr, ms, cs, events, key, hs', -, -, -, -, -, rfl⟩ := run_ok hr
  have : Guru.setup id Sage.exTable [("N", some 1)] = .ok s' := hs'
  rw [hs] at this
  cases this
  exact hn

/-- The hypotheses of `C83_value`, `C83_labels` and `C83_outside_rejected` hold for it. -/
example : ∃ chol : Matrix (Fin 1) (Fin 1) ℝ → Matrix (Fin 1) (Fin 1) ℝ, ∃ r, run id chol (fun _ => [0, 1]) exInputs = .ok r ∧
    (∃ y, r.logpdf [fin (1 / 2), fin (1 / 4)] = XR.sum y + fin (-Real.log (1 / 2) + 2 * Real.log 2 - 3)) ∧ r.logpdf [fin (1 / 2), fin (3 / 4)] = .ninf ∧
    r.labels ≠ [] := by
  obtain ⟨chol, hc⟩ := Analytic.exists_cholesky 1
  obtain ⟨r, hr, hl⟩ := exRun chol fun _ => [0, 1]
  refine ⟨chol, r, hr, ?_, ?_, (C83_labels Sage.exTable_meaningful hr).1⟩
  · let value : String → ℝ := fun n => if n = "a" then 1 / 2 else 1 / 4
    have hin : ∀ n ∈ r.labels, inPrior exInputs.params (fun n => fin (value n)) n = true := by
      rw [hl]
      intro n hn
      simp only [List.mem_cons, List.not_mem_nil, or_false] at hn
      rcases hn with rfl | rfl <;> simp [inPrior, Sage.priorOf, exInputs, Sage.exTable, get?, Sage.exA, Sage.exB, value] <;> norm_num
    have hlp : XR.sum (r.labels.map (logPriorOf exInputs.params fun n => fin (value n))) = fin (-Real.log (1 / 2)) := by
      rw [hl, XR.sum_eq]
      simp [logPriorOf, Sage.priorOf, exInputs, Sage.exTable, get?, Sage.exA, Sage.exB, value]
    have hS : ∀ e ∈ exEvents, e.2.PosDef := by
      have h1 : (1 : Matrix (Fin 1) (Fin 1) ℝ).PosDef := PosDef.one
      intro e he
      simp only [exEvents, List.mem_cons, List.not_mem_nil, or_false] at he
      rcases he with rfl | rfl
      · exact h1
      · have := ((h1.add h1).add (h1.add h1))
        have e : (4 • 1 : Matrix (Fin 1) (Fin 1) ℝ) = 1 + 1 + (1 + 1) := by
          rw [show (4 : ℕ) = 1 + 1 + (1 + 1) from rfl]
          simp only [add_smul, one_smul]
        simp only [e]
        exact this
    obtain ⟨b, -, prop, -, -, hval⟩ := C83_value (fun l => List.Perm.refl l) hc Sage.exTable_meaningful (by decide +kernel) (by simp [exInputs]) (by simp [exInputs])
      (by norm_num [exInputs]) (fun _ => rfl) exEvents exFile hS hr value _ rfl (fun x => isLog_fin _) (fun e _ => by simp [exInputs]) hin _ 3 hlp rfl
    have hv : r.labels.map (fun n => fin (value n)) = [fin (1 / 2), fin (1 / 4)] := by rw [hl]; simp [value]
    rw [hv] at hval
    exact ⟨_, by rw [hval]; rfl⟩
  · let value' : String → XR := fun n => if n = "a" then fin (1 / 2) else fin (3 / 4)
    have h3 := C83_outside_rejected (fun l => List.Perm.refl l) Sage.exTable_meaningful hr value' ⟨"b", by simp [hl], by
      simp [inPrior, Sage.priorOf, exInputs, Sage.exTable, get?, Sage.exB, value']
      norm_num⟩
    rw [hl] at h3
    simpa [value'] using h3

/-- A file without events stops the analysis, and so does a group without a covariance. -/
example (chol : Matrix (Fin 1) (Fin 1) ℝ → Matrix (Fin 1) (Fin 1) ℝ) (normals : Key → List (Fin 1 → ℝ)) :
    run id chol normals { exInputs with file := [("meta", ⟨none, none⟩)] } = .error .stack ∧
      ¬ ∃ r, run id chol normals { exInputs with file := [("event_0", ⟨some [fin 0], none⟩)] } = .ok r := by
  constructor
  · obtain ⟨s, hs⟩ : ∃ s, Guru.setup id Sage.exTable [("N", some 1)] = .ok s := ⟨_, rfl⟩
    exact (C83_stops_iff (chol := chol) (normals := normals) (inp := { exInputs with file := [("meta", ⟨none, none⟩)] }) (fun l => List.Perm.refl l) Sage.exTable_meaningful
      (by decide +kernel) s hs [] ⟨Or.inl (by decide +kernel), by exact .nil⟩).1 rfl
  · apply C83_bad_file
    right
    refine ⟨("event_0", ⟨some [fin 0], none⟩), by simp, by decide +kernel, ?_⟩
    rintro ⟨m, c, h⟩
    exact nomatch h.2.1

end

end GW.Monk
