import Verif.Lemmas.Robust
import Verif.Props.Rates
import Verif.Props.Mixture

/-! # C111: small errors of the population model's log density stay small

`Within e x y` (in `Spec/Robust`): both are `-inf`, or both are finite and at most `e` apart. -/

namespace GW.Robust
open GW XR PyDict Sage
open GW.Likelihood (FRow inputEvents mcAverage)
open GW.PoissonMean (injectionMean vtMean)
open GW.Rates (Possible)

noncomputable section
open Classical

/-! ## Mixtures -/

theorem compTerm_within {α : Type} {e : ℝ} (supp : Option (α → Bool)) {d d' : Mixture.Comp α} {x : α} (hs : d'.support x = d.support x)
    (hv : d'.validateArgs = d.validateArgs) (h : Within e (d.logProb x) (d'.logProb x)) : Within e (Mixture.compTerm supp d x) (Mixture.compTerm supp d' x) := by
  unfold Mixture.compTerm
  simp only [hs, hv]
  split_ifs
  · exact h
  · exact Or.inl ⟨rfl, rfl⟩
  · exact h

/-- At the point `x` the component `d'` is a slightly wrong `d`. -/
structure Near {α : Type} (e : ℝ) (x : α) (d d' : Mixture.Comp α) : Prop where
  support : d'.support x = d.support x
  validate : d'.validateArgs = d.validateArgs
  density : Within e (d.logProb x) (d'.logProb x)

/-- **C111 (mixtures).**  For every mixture of any number of components and every point: if every log scale is off by at most `δ` and every component's log density
by at most `ε`, the mixture's log density is off by at most `δ + ε`, validated or not. -/
theorem C111_mixture {α : Type} {δ ε : ℝ} (m m' : Mixture.Mix α) (x : α) (hscale : List.Forall₂ (Within δ) m.logScales m'.logScales)
    (hcomp : List.Forall₂ (Near ε x) m.comps m'.comps) (hsupp : m'.supp = m.supp) (v : Bool) :
    Within (δ + ε) (m.logProbChecked v x) (m'.logProbChecked v x) := by
  have hterms : List.Forall₂ (Within (δ + ε)) (m.componentLogProbs x) (m'.componentLogProbs x) := by
    unfold Mixture.Mix.componentLogProbs
    rw [hsupp]
    generalize m.logScales = ls at hscale
    generalize m'.logScales = ls' at hscale
    generalize m.comps = cs at hcomp
    generalize m'.comps = cs' at hcomp
    clear hsupp
    induction hscale generalizing cs cs' with
    | nil => simp
    | cons h _ ih =>
      cases hcomp with
      | nil => simp
      | cons hc hcs => exact .cons ((compTerm_within _ hc.support hc.validate hc.density).add h) (ih _ _ hcs)
  have hlog : (∀ t ∈ m.componentLogProbs x, t.IsLog) ∧ ∀ t ∈ m'.componentLogProbs x, t.IsLog := by
    generalize m.componentLogProbs x = l at hterms
    generalize m'.componentLogProbs x = l' at hterms
    induction hterms with
    | nil => simp
    | cons h _ ih =>
      constructor
      · intro t ht
        rcases List.mem_cons.1 ht with rfl | ht
        exacts [h.isLog.1, ih.1 t ht]
      · intro t ht
        rcases List.mem_cons.1 ht with rfl | ht
        exacts [h.isLog.2, ih.2 t ht]
  have hsum := sum_within hterms
  have core : Within (δ + ε) (m.logProb x) (m'.logProb x) := by
    rw [Mixture.logProb_eq m x hlog.1, Mixture.logProb_eq m' x hlog.2]
    have n1 := sum_expR_nonneg (m.componentLogProbs x)
    have n2 := sum_expR_nonneg (m'.componentLogProbs x)
    refine within_of_expR (isLog_log_sum n1) (isLog_log_sum n2) ?_ ?_
    · rw [Analytic.expR_log_fin n1, Analytic.expR_log_fin n2]; exact hsum.1
    · rw [Analytic.expR_log_fin n1, Analytic.expR_log_fin n2]; exact hsum.2
  have hs : m'.support x = m.support x := by
    unfold Mixture.Mix.support
    rw [hsupp]
    cases m.supp with
    | some f => rfl
    | none =>
      generalize m.comps = cs at hcomp
      generalize m'.comps = cs' at hcomp
      cases hcomp with
      | nil => rfl
      | cons hc _ => exact hc.support
  unfold Mixture.Mix.logProbChecked
  rw [hs]
  split_ifs
  exacts [core, Or.inl ⟨rfl, rfl⟩, core]

/-! ## Expected number of events -/

theorem Within.sub_expR {e : ℝ} {x y : XR} (w : XR) (h : Within e x y) (hl : x - w ≠ pinf) :
    (Real.exp (-e) * XR.expR (x - w) ≤ XR.expR (y - w) ∧ XR.expR (y - w) ≤ Real.exp e * XR.expR (x - w)) ∧ y - w ≠ pinf := by
  by_cases hn : x - w = nan
  · have : y - w = nan := by
      rcases h with ⟨rfl, rfl⟩ | ⟨a, b, rfl, rfl, h⟩
      · exact hn
      · cases w with
        | nan => rfl
        | fin w => simp at hn
        | pinf => simp at hn
        | ninf => simp at hn
    rw [hn, this]
    simp [XR.expR]
  · have := h.sub hl hn
    exact ⟨this.expR, this.isLog.2.2⟩

/-- **C111 (injections).**  For every set of injections, whatever the weights: if the model's log density at the injections is off by at most `ε`, the expected
number of events is off by at most `e^ε - 1` of itself. -/
theorem C111_injections {T N ε : ℝ} (hT : 0 ≤ T) (hN : 0 < N) {modelLp modelLp' : List XR} (logW : List XR) (hw : List.Forall₂ (Within ε) modelLp modelLp')
    (h : ∀ p ∈ modelLp.zip logW, p.1 - p.2 ≠ pinf) :
    ∃ μ μ' : ℝ, injectionMean T N modelLp logW = fin μ ∧ injectionMean T N modelLp' logW = fin μ' ∧ 0 ≤ μ ∧ |μ' - μ| ≤ (Real.exp ε - 1) * μ := by
  have key : (∀ p ∈ modelLp'.zip logW, p.1 - p.2 ≠ pinf) ∧
      Real.exp (-ε) * (List.zipWith (fun m w => expR (m - w)) modelLp logW).sum ≤ (List.zipWith (fun m w => expR (m - w)) modelLp' logW).sum ∧
      (List.zipWith (fun m w => expR (m - w)) modelLp' logW).sum ≤ Real.exp ε * (List.zipWith (fun m w => expR (m - w)) modelLp logW).sum := by
    induction hw generalizing logW with
    | nil => simp
    | cons hxy _ ih =>
      cases logW with
      | nil => simp
      | cons w ws =>
        obtain ⟨i1, i2, i3⟩ := ih ws fun p hp => h p (by simp [hp])
        obtain ⟨⟨j1, j2⟩, j3⟩ := hxy.sub_expR w (h (_, w) (by simp))
        refine ⟨?_, ?_, ?_⟩
        · intro p hp
          rw [List.zip_cons_cons] at hp
          rcases List.mem_cons.1 hp with rfl | hp
          exacts [j3, i1 p hp]
        · simp only [List.zipWith_cons_cons, List.sum_cons, mul_add]; linarith
        · simp only [List.zipWith_cons_cons, List.sum_cons, mul_add]; linarith
  obtain ⟨h', k1, k2⟩ := key
  obtain ⟨e1, n1⟩ := PoissonMean.C12_mean T N hT hN modelLp logW h
  obtain ⟨e2, -⟩ := PoissonMean.C12_mean T N hT hN modelLp' logW h'
  refine ⟨_, _, e1, e2, n1, factor_within n1 ?_ ?_⟩
  · have := mul_le_mul_of_nonneg_left k1 (div_nonneg hT hN.le)
    linarith
  · have := mul_le_mul_of_nonneg_left k2 (div_nonneg hT hN.le)
    linarith

/-- One component of a slightly wrong neural estimate: the log rate is off by at most `δ`, the log sensitivity of each sample by at most `ε`. -/
structure NearVT (δ ε : ℝ) (c c' : ℝ × List XR) : Prop where
  rate : |c'.1 - c.1| ≤ δ
  vts : List.Forall₂ (Within ε) c.2 c'.2

/-- **C111 (neural sensitivity).**  For every list of components and every number of samples: if the log rates are off by at most `δ` and the network's logs of the
sensitive volume by at most `ε`, the expected number of events is off by at most `e^(δ+ε) - 1` of itself. -/
theorem C111_vt {T δ ε : ℝ} (hT : 0 ≤ T) {num : ℕ} (hnum : 1 ≤ num) {comps comps' : List (ℝ × List XR)} (hc : List.Forall₂ (NearVT δ ε) comps comps')
    (hlen : ∀ c ∈ comps, c.2.length = num) :
    ∃ μ μ' : ℝ, vtMean T num (comps.map fun c => (fin c.1, c.2)) = fin μ ∧ vtMean T num (comps'.map fun c => (fin c.1, c.2)) = fin μ' ∧ 0 ≤ μ ∧
      |μ' - μ| ≤ (Real.exp (δ + ε) - 1) * μ := by
  have hlogs : ∀ {xs ys : List XR}, List.Forall₂ (Within ε) xs ys → (∀ v ∈ xs, IsLog v) ∧ ∀ v ∈ ys, IsLog v := by
    intro xs ys h
    induction h with
    | nil => simp
    | cons h _ ih =>
      constructor
      · intro t ht
        rcases List.mem_cons.1 ht with rfl | ht
        exacts [h.isLog.1, ih.1 t ht]
      · intro t ht
        rcases List.mem_cons.1 ht with rfl | ht
        exacts [h.isLog.2, ih.2 t ht]
  have hmean : ∀ l : List ℝ, GW.mean l = l.sum / l.length := fun l => rfl
  have key : (∀ c ∈ comps, c.2.length = num ∧ ∀ v ∈ c.2, IsLog v) ∧ (∀ c ∈ comps', c.2.length = num ∧ ∀ v ∈ c.2, IsLog v) ∧
      0 ≤ (comps.map fun c => Real.exp c.1 * GW.mean (c.2.map expR)).sum ∧
      Real.exp (-(δ + ε)) * (comps.map fun c => Real.exp c.1 * GW.mean (c.2.map expR)).sum ≤ (comps'.map fun c => Real.exp c.1 * GW.mean (c.2.map expR)).sum ∧
      (comps'.map fun c => Real.exp c.1 * GW.mean (c.2.map expR)).sum ≤ Real.exp (δ + ε) * (comps.map fun c => Real.exp c.1 * GW.mean (c.2.map expR)).sum := by
    induction hc with
    | nil => simp
    | @cons c c' cs cs' h _ ih =>
      obtain ⟨i1, i2, i3, i4, i5⟩ := ih fun c hc => hlen c (by simp [hc])
      have hl := hlen c (by simp)
      have hl' : c'.2.length = num := by rw [← h.vts.length_eq, hl]
      obtain ⟨g1, g2⟩ := hlogs h.vts
      obtain ⟨s1, s2⟩ := sum_within h.vts
      have hn := sum_expR_nonneg c.2
      have hn' := sum_expR_nonneg c'.2
      obtain ⟨r1, r2⟩ := abs_le.1 h.rate
      have hnum0 : (0 : ℝ) < num := by exact_mod_cast hnum
      have e1 : Real.exp c'.1 ≤ Real.exp δ * Real.exp c.1 := by rw [← Real.exp_add, Real.exp_le_exp]; linarith
      have e2 : Real.exp (-δ) * Real.exp c.1 ≤ Real.exp c'.1 := by rw [← Real.exp_add, Real.exp_le_exp]; linarith
      have t0 : 0 ≤ Real.exp c.1 * GW.mean (c.2.map expR) := by
        rw [hmean]; exact mul_nonneg (Real.exp_pos _).le (div_nonneg hn (Nat.cast_nonneg _))
      have t1 : Real.exp (-(δ + ε)) * (Real.exp c.1 * GW.mean (c.2.map expR)) ≤ Real.exp c'.1 * GW.mean (c'.2.map expR) := by
        simp only [hmean, List.length_map, hl, hl']
        have := mul_le_mul e2 s1 (mul_nonneg (Real.exp_pos _).le hn) (Real.exp_pos _).le
        have := div_le_div_of_nonneg_right this hnum0.le
        rw [neg_add, Real.exp_add]
        calc _ = Real.exp (-δ) * Real.exp c.1 * (Real.exp (-ε) * (c.2.map expR).sum) / num := by ring
          _ ≤ _ := this
          _ = _ := by ring
      have t2 : Real.exp c'.1 * GW.mean (c'.2.map expR) ≤ Real.exp (δ + ε) * (Real.exp c.1 * GW.mean (c.2.map expR)) := by
        simp only [hmean, List.length_map, hl, hl']
        have := mul_le_mul e1 s2 hn' (mul_pos (Real.exp_pos _) (Real.exp_pos _)).le
        have := div_le_div_of_nonneg_right this hnum0.le
        rw [Real.exp_add]
        calc _ = Real.exp c'.1 * (c'.2.map expR).sum / num := by ring
          _ ≤ _ := this
          _ = _ := by ring
      refine ⟨?_, ?_, ?_, ?_, ?_⟩
      · intro d hd
        rcases List.mem_cons.1 hd with rfl | hd
        exacts [⟨hl, g1⟩, i1 d hd]
      · intro d hd
        rcases List.mem_cons.1 hd with rfl | hd
        exacts [⟨hl', g2⟩, i2 d hd]
      · simp only [List.map_cons, List.sum_cons]; linarith
      · simp only [List.map_cons, List.sum_cons, mul_add (Real.exp _)]; linarith
      · simp only [List.map_cons, List.sum_cons, mul_add (Real.exp _)]; linarith
  obtain ⟨k1, k2, k3, k4, k5⟩ := key
  refine ⟨_, _, PoissonMean.C13_vt_mean T num hnum comps k1, PoissonMean.C13_vt_mean T num hnum comps' k2, mul_nonneg hT k3, factor_within (mul_nonneg hT k3) ?_ ?_⟩
  · have := mul_le_mul_of_nonneg_left k4 hT
    linarith
  · have := mul_le_mul_of_nonneg_left k5 hT
    linarith

/-- One component of a slightly wrong estimate from detection probabilities: the log rate and the log of the redshift volume (zero for components without a power law in
redshift) are together off by at most `δ`, the log detection probability of each sample by at most `ε`. -/
structure NearPdet (δ ε : ℝ) (c c' : XR × Option (List PoissonMean.Marginal) × List XR) : Prop where
  rate : ∃ l z l' z' : ℝ, c.1 = fin l ∧ PoissonMean.redshiftLogNorm c.2.1 = fin z ∧ c'.1 = fin l' ∧ PoissonMean.redshiftLogNorm c'.2.1 = fin z' ∧ |(l' + z') - (l + z)| ≤ δ
  pdets : List.Forall₂ (Within ε) c.2.2 c'.2.2

/-- **C111 (detection probabilities).**  For every list of components, with or without a redshift distribution: with the log rates and volumes off by at most `δ` and the
logs of the detection probabilities by at most `ε`, the expected number of events is off by at most `e^(δ+ε) - 1` of itself. -/
theorem C111_pdet {T δ ε : ℝ} (hT : 0 ≤ T) {num : ℕ} (hnum : 1 ≤ num) {comps comps' : List (XR × Option (List PoissonMean.Marginal) × List XR)}
    (hc : List.Forall₂ (NearPdet δ ε) comps comps') (hlen : ∀ c ∈ comps, c.2.2.length = num) :
    ∃ μ μ' : ℝ, PoissonMean.pdetMean T num comps = fin μ ∧ PoissonMean.pdetMean T num comps' = fin μ' ∧ 0 ≤ μ ∧ |μ' - μ| ≤ (Real.exp (δ + ε) - 1) * μ := by
  have key : ∃ d d' : List (ℝ × List XR), List.Forall₂ (NearVT δ ε) d d' ∧ (∀ c ∈ d, c.2.length = num) ∧
      (comps.map fun c => exp (c.1 + PoissonMean.redshiftLogNorm c.2.1 + logsumexp c.2.2)) = d.map (fun c => exp (fin c.1 + logsumexp c.2)) ∧
      (comps'.map fun c => exp (c.1 + PoissonMean.redshiftLogNorm c.2.1 + logsumexp c.2.2)) = d'.map (fun c => exp (fin c.1 + logsumexp c.2)) := by
    induction hc with
    | nil => exact ⟨[], [], .nil, by simp, rfl, rfl⟩
    | @cons c c' cs cs' h _ ih =>
      obtain ⟨d, d', i1, i2, i3, i4⟩ := ih fun c hc => hlen c (by simp [hc])
      obtain ⟨l, z, l', z', h1, h2, h3, h4, h5⟩ := h.rate
      refine ⟨(l + z, c.2.2) :: d, (l' + z', c'.2.2) :: d', .cons ⟨h5, h.pdets⟩ i1, ?_, ?_, ?_⟩
      · intro e he
        rcases List.mem_cons.1 he with rfl | he
        exacts [hlen c (by simp), i2 e he]
      · simp only [List.map_cons, h1, h2, add_fin_fin, i3]
      · simp only [List.map_cons, h3, h4, add_fin_fin, i4]
  obtain ⟨d, d', k1, k2, k3, k4⟩ := key
  obtain ⟨μ, μ', e1, e2, e3, e4⟩ := C111_vt hT hnum k1 k2
  refine ⟨μ, μ', ?_, ?_, e3, e4⟩
  · rw [← e1, PoissonMean.pdetMean, vtMean, k3, List.map_map]; rfl
  · rw [← e2, PoissonMean.pdetMean, vtMean, k4, List.map_map]; rfl

/-! ## The whole analysis -/

variable {ord : List String → List String} {orc : Jenks.Oracle} {inp : Inputs} {r r' : Analysis}

theorem same_labels {model' rate'} (h : run ord orc inp = .ok r) (h' : run ord orc { inp with model := model', rate := rate' } = .ok r') : r'.labels = r.labels := by
  obtain ⟨s, pr, c, bs, hs, -, -, -, rfl⟩ := run_ok h
  obtain ⟨s', pr', c', bs', hs', -, -, -, rfl⟩ := run_ok h'
  simp only at hs'
  rw [hs] at hs'
  cases hs'
  rfl

/-- **C111 (flowMC).**  For every analysis, data set and parameter values at which no event is impossible: if another population model has log densities off by at
most `ε` at the posterior samples and an expected number of events off by at most `η`, then the analysis with that model has the same parameters and its log
density at these values is finite and off by at most `ε` for each event, plus `η`. -/
theorem C111_flowMC (hord : ∀ l, (ord l).Perm l) (ho : Jenks.OracleSorted orc) (hm : Meaningful inp.params) (hx : (keys inp.extra).Nodup)
    (hrows : RowsMatch inp) (hT : 0 < inp.tObs) {model' rate'} (h : run ord orc inp = .ok r) (h' : run ord orc { inp with model := model', rate := rate' } = .ok r')
    {value : String → ℝ} {lp μ μ' ε η : ℝ} {M M' : Likelihood.Model FRow} (hp : Possible inp r.labels value lp M μ)
    (hM' : M' = model' none (meaning inp.params inp.extra fun n => fin (value n))) (hrate : rate' M' = fin μ') (hμ : |μ' - μ| ≤ η)
    (hnear : ∀ ev ∈ inputEvents inp.data inp.refs, ∀ p ∈ ev, Within ε (M.logProb p.1) (M'.logProb p.1)) :
    r'.labels = r.labels ∧ ∃ y y' : ℝ, r.flowMC (r.labels.map fun n => fin (value n)) = fin y ∧ r'.flowMC (r.labels.map fun n => fin (value n)) = fin y' ∧
      |y' - y| ≤ inp.data.length * ε + η := by
  have hl := same_labels h h'
  obtain ⟨hb, hlog', hpos'⟩ := events_within hT _ hp.isLog hp.possible hnear
  have e1 := Rates.value_of hord ho hm hx hrows hT h hp
  have hp' : Possible { inp with model := model', rate := rate' } r'.labels value lp M' μ' :=
    ⟨hM', hp.passes, by rw [hl]; exact hp.inside, by rw [hl]; exact hp.prior, hrate, hlog', hpos'⟩
  have e2 := Rates.value_of (inp := { inp with model := model', rate := rate' }) hord ho hm hx hrows hT h' hp'
  rw [hl] at e2
  refine ⟨hl, _, _, e1, e2, ?_⟩
  rw [Rates.events_length h] at hb
  obtain ⟨a1, a2⟩ := abs_le.1 hb
  obtain ⟨b1, b2⟩ := abs_le.1 hμ
  simp only
  rw [abs_le]; constructor <;> linarith

/-- **C111 (numpyro).**  The same for the density handed to numpyro, which builds the model with validation, for every replacement of non-finite values. -/
theorem C111_numpyro (hord : ∀ l, (ord l).Perm l) (ho : Jenks.OracleSorted orc) (hm : Meaningful inp.params) (hx : (keys inp.extra).Nodup)
    (hrows : RowsMatch inp) (hT : 0 < inp.tObs) {model' rate'} (h : run ord orc inp = .ok r) (h' : run ord orc { inp with model := model', rate := rate' } = .ok r')
    {value : String → ℝ} {lp μ μ' ε η : ℝ} {M M' : Likelihood.Model FRow} (hM : M = inp.model (some true) (meaning inp.params inp.extra fun n => fin (value n)))
    (hM' : M' = model' (some true) (meaning inp.params inp.extra fun n => fin (value n)))
    (hwhere : ∀ fns, inp.whereFns = some fns → ∀ f ∈ fns, f (meaning inp.params inp.extra fun n => fin (value n)) = true)
    (hlp : XR.sum (r.labels.map (logPriorOf inp.params fun n => fin (value n))) = fin lp) (hr : inp.rate M = fin μ) (hr' : rate' M' = fin μ') (hμ : |μ' - μ| ≤ η)
    (hlog : ∀ ev ∈ inputEvents inp.data inp.refs, ∀ p ∈ ev, (M.logProb p.1 - p.2).IsLog)
    (hpos : ∀ ev ∈ inputEvents inp.data inp.refs, 0 < (ev.map fun p => (M.logProb p.1 - p.2).expR).sum)
    (hnear : ∀ ev ∈ inputEvents inp.data inp.refs, ∀ p ∈ ev, Within ε (M.logProb p.1) (M'.logProb p.1)) (big : ℝ) :
    ∃ y y' : ℝ, r.numpyro big (r.labels.map fun n => fin (value n)) = some (fin y) ∧ r'.numpyro big (r.labels.map fun n => fin (value n)) = some (fin y') ∧
      |y' - y| ≤ inp.data.length * ε + η := by
  have hl := same_labels h h'
  obtain ⟨hb, hlog', hpos'⟩ := events_within hT _ hlog hpos hnear
  have e1 := C82_numpyro_value hord ho hm hx hrows hT h value M hM hwhere lp μ hlp hr hlog hpos big
  have e2 := C82_numpyro_value (inp := { inp with model := model', rate := rate' }) hord ho hm hx hrows hT h' value M' hM' hwhere lp μ' (by rw [hl]; exact hlp) hr' hlog' hpos' big
  rw [hl] at e2
  refine ⟨_, _, e1, e2, ?_⟩
  rw [Rates.events_length h] at hb
  obtain ⟨a1, a2⟩ := abs_le.1 hb
  obtain ⟨b1, b2⟩ := abs_le.1 hμ
  simp only
  rw [abs_le]; constructor <;> linarith

/-- **C111 (posterior with injections).**  For every analysis whose expected number comes from injections: a population model whose log density is off by at most `ε`
at the posterior samples and at the injections gives a log density off by at most `ε` for each event plus `e^ε - 1` for each expected event. -/
theorem C111_posterior (hord : ∀ l, (ord l).Perm l) (ho : Jenks.OracleSorted orc) (hm : Meaningful inp.params) (hx : (keys inp.extra).Nodup)
    (hrows : RowsMatch inp) (hT : 0 < inp.tObs) {model'} (h : run ord orc inp = .ok r) (h' : run ord orc { inp with model := model' } = .ok r')
    {value : String → ℝ} {lp μ ε N : ℝ} {M M' : Likelihood.Model FRow} (hp : Possible inp r.labels value lp M μ)
    (hM' : M' = model' none (meaning inp.params inp.extra fun n => fin (value n)))
    (hN : 0 < N) (inj : List (FRow × XR)) (hrate : ∀ M : Likelihood.Model FRow, inp.rate M = injectionMean inp.tObs N (inj.map fun p => M.logProb p.1) (inj.map (·.2)))
    (hfin : ∀ p ∈ inj, M.logProb p.1 - p.2 ≠ pinf)
    (hinj : ∀ p ∈ inj, Within ε (M.logProb p.1) (M'.logProb p.1))
    (hnear : ∀ ev ∈ inputEvents inp.data inp.refs, ∀ p ∈ ev, Within ε (M.logProb p.1) (M'.logProb p.1)) :
    ∃ y y' : ℝ, r.flowMC (r.labels.map fun n => fin (value n)) = fin y ∧ r'.flowMC (r.labels.map fun n => fin (value n)) = fin y' ∧
      |y' - y| ≤ inp.data.length * ε + (Real.exp ε - 1) * μ := by
  obtain ⟨m, m', e1, e2, -, hb⟩ := C111_injections hT.le hN (inj.map (·.2)) (forall₂_map (f := fun p : FRow × XR => M.logProb p.1) (g := fun p => M'.logProb p.1) hinj) (by
    intro p hp
    rw [List.zip_map', List.mem_map] at hp
    obtain ⟨q, hq, rfl⟩ := hp
    exact hfin q hq)
  have hm1 : fin m = fin μ := by rw [← e1, ← hrate M, hp.expected]
  obtain rfl := fin.inj hm1
  exact (C111_flowMC (rate' := inp.rate) hord ho hm hx hrows hT h h' hp hM' (by rw [hrate M', e2]) hb hnear).2

/-! ## Non-vacuity -/

theorem exRun' (model' rate') : ∃ r, run id Jenks.exOracle { Rates.exInputs with model := model', rate := rate' } = .ok r ∧ r.labels = ["log_rate"] := by
  obtain ⟨r, hr, hl⟩ := Rates.exRun
  obtain ⟨s, pr, c, bs, hs, hp, hd, hdis, hreq⟩ := run_ok hr
  unfold run
  simp only [hs, hp, hd]
  rw [if_neg hdis]
  refine ⟨_, rfl, ?_⟩
  rw [hreq] at hl
  exact hl

/-- The hypotheses of `C111_posterior` (and with it of `C111_flowMC` and `C111_injections`): the example analysis of C94 at log rate 0, and a model whose log density is
too high by 1/100. -/
example : ∃ r r' y y', run id Jenks.exOracle Rates.exInputs = .ok r ∧
    run id Jenks.exOracle { Rates.exInputs with model := fun v kw => ⟨fun x => (Rates.exInputs.model v kw).logProb x + fin (1 / 100), (Rates.exInputs.model v kw).feasible⟩ } = .ok r' ∧
    r.flowMC [fin 0] = fin y ∧ r'.flowMC [fin 0] = fin y' ∧ |y' - y| ≤ 2 * (1 / 100) + (Real.exp (1 / 100) - 1) * Real.exp 0 := by
  obtain ⟨r, hr, hl⟩ := Rates.exRun
  obtain ⟨r', hr', hl'⟩ := exRun' (fun v kw => ⟨fun x => (Rates.exInputs.model v kw).logProb x + fin (1 / 100), (Rates.exInputs.model v kw).feasible⟩) Rates.exInputs.rate
  have p0 := Rates.exPossible (c := 0) ⟨by norm_num, by norm_num⟩
  have hn : ∀ x, Within (1 / 100) ((Rates.exInputs.model none (meaning Rates.exInputs.params Rates.exInputs.extra fun _ => fin 0)).logProb x)
      ((Rates.exInputs.model none (meaning Rates.exInputs.params Rates.exInputs.extra fun _ => fin 0)).logProb x + fin (1 / 100)) := by
    intro x
    rw [Rates.exModel, add_fin_fin]
    exact Or.inr ⟨_, _, rfl, rfl, by rw [abs_of_nonneg] <;> norm_num⟩
  obtain ⟨y, y', h1, h2, h3⟩ := C111_posterior (ord := id) (inp := Rates.exInputs) (N := 4) (ε := 1 / 100) (fun l => List.Perm.refl l) Jenks.exOracle_sorted Rates.exMeaningful
    (by decide +kernel) (by intro i; rcases i with _ | _ | i <;> rfl) (by norm_num [Rates.exInputs]) hr hr' (hl ▸ p0) rfl (by norm_num)
    [([fin 1], fin 0), ([fin 2], fin 0)] (fun M => rfl)
    (by intro p hp; rw [Rates.exModel]; simp at hp; rcases hp with rfl | rfl <;> simp)
    (fun p _ => hn p.1) (fun ev _ p _ => hn p.1)
  rw [hl] at h1 h2
  refine ⟨r, r', y, y', hr, hr', h1, h2, ?_⟩
  simpa [Rates.exInputs] using h3

/-- The hypotheses of `C111_numpyro`: the same analysis, and a model that expects one event too many. -/
example (big : ℝ) : ∃ r r' y y', run id Jenks.exOracle Rates.exInputs = .ok r ∧
    run id Jenks.exOracle { Rates.exInputs with model := Rates.exInputs.model, rate := fun M => Rates.exInputs.rate M + fin 1 } = .ok r' ∧
    r.numpyro big [fin 0] = some (fin y) ∧ r'.numpyro big [fin 0] = some (fin y') ∧ |y' - y| ≤ 2 * 0 + 1 := by
  obtain ⟨r, hr, hl⟩ := Rates.exRun
  obtain ⟨r', hr', hl'⟩ := exRun' Rates.exInputs.model fun M => Rates.exInputs.rate M + fin 1
  have p0 := Rates.exPossible (c := 0) ⟨by norm_num, by norm_num⟩
  obtain ⟨y, y', h1, h2, h3⟩ := C111_numpyro (ord := id) (inp := Rates.exInputs) (ε := 0) (η := 1) (μ' := Real.exp 0 + 1) (fun l => List.Perm.refl l) Jenks.exOracle_sorted Rates.exMeaningful
    (by decide +kernel) (by intro i; rcases i with _ | _ | i <;> rfl) (by norm_num [Rates.exInputs]) hr hr' p0.model p0.model p0.passes (hl ▸ p0.prior) p0.expected
    (by rw [p0.expected, add_fin_fin]) (by simp) p0.isLog p0.possible
    (fun ev _ p _ => Or.inr ⟨0, 0, Rates.exModel 0 p.1, Rates.exModel 0 p.1, by simp⟩) big
  rw [hl] at h1 h2
  refine ⟨r, r', y, y', hr, hr', h1, h2, ?_⟩
  simpa [Rates.exInputs] using h3

/-- The hypotheses of `C111_mixture`: two components, the second impossible at this point, scales and densities off. -/
example (v : Bool) : Within (1 / 10 + 1 / 100)
    (Mixture.Mix.logProbChecked v ⟨[fin 0, fin 1], [⟨fun _ => fin 2, fun _ => true, "real", [], false, fun _ => fin 0⟩, ⟨fun _ => ninf, fun _ => true, "real", [], false, fun _ => fin 0⟩], none⟩ ())
    (Mixture.Mix.logProbChecked v ⟨[fin (1 / 10), fin 1], [⟨fun _ => fin (2 + 1 / 100), fun _ => true, "real", [], false, fun _ => fin 0⟩,
      ⟨fun _ => ninf, fun _ => true, "real", [], false, fun _ => fin 0⟩], none⟩ ()) := by
  have near {e a b : ℝ} (h : |b - a| ≤ e) : Within e (fin a) (fin b) := Or.inr ⟨a, b, rfl, rfl, h⟩
  have none {e : ℝ} : Within e ninf ninf := Or.inl ⟨rfl, rfl⟩
  refine C111_mixture (δ := 1 / 10) (ε := 1 / 100) _ _ _ ?_ ?_ (by rfl) v
  · exact .cons (near (by rw [abs_of_nonneg] <;> norm_num)) (.cons (near (by norm_num)) .nil)
  · exact .cons ⟨rfl, rfl, near (by rw [abs_of_nonneg] <;> norm_num)⟩ (.cons ⟨rfl, rfl, none⟩ .nil)

/-- The hypotheses of `C111_vt`: one component, one sample outside the sensitive range. -/
example : ∃ μ μ' : ℝ, vtMean 2 2 [(fin 0, [fin 1, ninf])] = fin μ ∧ vtMean 2 2 [(fin (1 / 10), [fin (1 - 1 / 100), ninf])] = fin μ' ∧ 0 ≤ μ ∧
    |μ' - μ| ≤ (Real.exp (1 / 10 + 1 / 100) - 1) * μ :=
  C111_vt (comps := [(0, [fin 1, ninf])]) (comps' := [(1 / 10, [fin (1 - 1 / 100), ninf])]) (by norm_num) (by norm_num)
    (.cons ⟨by rw [abs_of_nonneg] <;> norm_num, .cons (Or.inr ⟨_, _, rfl, rfl, by rw [abs_of_nonpos] <;> norm_num⟩) (.cons (Or.inl ⟨rfl, rfl⟩) .nil)⟩ .nil) (by simp)

/-- The hypotheses of `C111_pdet`: a component with a redshift distribution whose volume is wrong, and one without. -/
example : ∃ μ μ' : ℝ, PoissonMean.pdetMean 2 1 [(fin 0, some [⟨"Beta", nan⟩, ⟨"PowerlawRedshift", fin 3⟩], [fin (-1)]), (fin 1, none, [ninf])] = fin μ ∧
    PoissonMean.pdetMean 2 1 [(fin 0, some [⟨"Beta", nan⟩, ⟨"PowerlawRedshift", fin (3 + 1 / 10)⟩], [fin (-1)]), (fin 1, none, [ninf])] = fin μ' ∧ 0 ≤ μ ∧
      |μ' - μ| ≤ (Real.exp (1 / 10 + 0) - 1) * μ :=
  C111_pdet (by norm_num) (by norm_num)
    (.cons ⟨⟨0, 3, 0, 3 + 1 / 10, rfl, by simp [PoissonMean.redshiftLogNorm], rfl, by simp [PoissonMean.redshiftLogNorm], by rw [abs_of_nonneg] <;> norm_num⟩,
        .cons (Or.inr ⟨_, _, rfl, rfl, by norm_num⟩) .nil⟩
      (.cons ⟨⟨1, 0, 1, 0, rfl, rfl, rfl, rfl, by norm_num⟩, .cons (Or.inl ⟨rfl, rfl⟩) .nil⟩ .nil)) (by simp)

end
end GW.Robust
