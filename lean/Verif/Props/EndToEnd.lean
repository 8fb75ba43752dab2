import Verif.Lemmas.EndToEnd

/-! # C98: an `n_pls_m_gs` analysis of discrete data estimates the exact posterior of the documented population -/

namespace GW.EndToEnd
open GW XR MeasureTheory ProbabilityTheory Filter Topology GW.PyDict GW.Hybrids
open GW.Likelihood (FRow)
open GW.Hierarchy (World observe injectionRate evidence)

noncomputable section
open Classical

variable {Ω : Type} [MeasurableSpace Ω] {K : ℕ} {P : Measure Ω} {s : Settings} {o : Flag → Bool} {Npl Ng : Nat} {dV : ℝ → ℝ}
  {L prior : Fin K → Event (sageColumns o) → ℝ} {X : Fin K → ℕ → Ω → Event (sageColumns o)} {pdet q : Event (sageColumns o) → ℝ}
  {Y : ℕ → Ω → Event (sageColumns o) × ℝ} {ord : List String → List String} {orc : Jenks.Oracle} {names : List String} {value : String → ℝ}
  {logPrior : ℝ} {m : Mixture} {laws : List (List Law)}

/-! ## Helpers -/

theorem meets_at (hc : s.cosmology.Proper) (hV : IsVolume s.cosmology dV) (ho : Exclusive o) (hb : o .betaSpin = false)
    (hk : ∀ n ∈ keys s.params, n ∈ sageModelParameters o Npl Ng) (h : nPowerlawMGaussian (sageConstants o) Npl Ng (told s.params o Npl Ng value) = .ok m)
    (hl : HaveLaws m.components laws) (hp : ∀ ls ∈ laws, ∀ L ∈ ls, L.Proper) (hpt : Point s.params names value logPrior) :
    ∃ lp : Event (sageColumns o) → XR, (∀ x, IsLog (lp x)) ∧ (∀ x, expR (lp x) = rate dV m laws x) ∧
      Hierarchy.At (sageInputs s o Npl Ng) row names value logPrior lp ∧
      ∀ x, ((sageInputs s o Npl Ng).model (some true) (Sage.meaning s.params (sageExtra o Npl Ng) fun n => fin (value n))).logProb (row x) = lp x := by
  have hm := model_value hc hV ho hb hk h hl hp
  refine ⟨fun x => ((sageInputs s o Npl Ng).model none (Sage.meaning s.params (sageExtra o Npl Ng) fun n => fin (value n))).logProb (row x),
    fun x => (hm none x).1, fun x => (hm none x).2, ?_, fun x => ?_⟩
  · exact ⟨hpt.nodup, hpt.sorted, hpt.columns, hpt.inside, fun fns hf => by simp [sageInputs] at hf, hpt.prior, fun x => rfl⟩
  · exact expR_injective (hm _ x).1 (hm _ x).1 ((hm _ x).2.trans (hm _ x).2.symm)

theorem meets_proper (hc : s.cosmology.Proper) (hV : IsVolume s.cosmology dV) (ho : Exclusive o)
    (h : nPowerlawMGaussian (sageConstants o) Npl Ng (told s.params o Npl Ng value) = .ok m)
    (hl : HaveLaws m.components laws) (hp : ∀ ls ∈ laws, ∀ L ∈ ls, L.Proper) (hw : World P volume L prior X pdet q Y) (hL : ∀ i, ∃ C, ∀ x, L i x ≤ C)
    (hpos : ∀ i, 0 < ∫ x, L i x * rate dV m laws x) {lp : Event (sageColumns o) → XR} (hlog : ∀ x, IsLog (lp x)) (hlp : ∀ x, expR (lp x) = rate dV m laws x) :
    Hierarchy.Proper volume L pdet lp := by
  obtain ⟨r1, r2, r3⟩ := integrable_rate hc hV ho h hl hp
  refine ⟨hlog, by simpa only [hlp] using r1, fun i => ?_, ?_, fun i => by simpa only [hlp] using hpos i⟩
  · simp only [hlp]
    obtain ⟨C, hC⟩ := hL i
    refine r2.bdd_mul (c := C) (hw.measurable_L i).aestronglyMeasurable (Eventually.of_forall fun x => ?_)
    rw [Real.norm_eq_abs, abs_of_nonneg (hw.L_nonneg i x)]
    exact hC x
  · simp only [hlp]
    refine r2.mul_bdd (c := 1) hw.measurable_pdet.aestronglyMeasurable (Eventually.of_forall fun x => ?_)
    rw [Real.norm_eq_abs, abs_of_nonneg (hw.pdet_nonneg x)]
    exact hw.pdet_le_one x

/-! ## Theorems -/

/-- **C98 (hyper-parameters).**  The hyper-parameters the population is built from are exactly the numbers the prior table means, at the values of the sampled
ones, under the names the analysis declares. -/
theorem C98_hyperparameters (params : Dict String (Guru.PVal XR)) (n : String) (x : ℝ) :
    get? (told params o Npl Ng value) n = some x ↔
      n ∈ sageModelParameters o Npl Ng ∧ Sage.meaning params (sageExtra o Npl Ng) (fun n => fin (value n)) n = some (some (fin x)) :=
  get?_hyperParameters _ _ n x

/-- **C98 (the population is there).**  Whenever the prior table gives a number for every hyper-parameter the analysis declares, at any values of the
sampled ones, there is a population, with one rate and one list of laws for each component. -/
theorem C98_population_exists {params : Dict String (Guru.PVal XR)} (hpos : 0 < Npl + Ng)
    (hnum : ∀ n ∈ sageModelParameters o Npl Ng, ∃ x, Sage.meaning params (sageExtra o Npl Ng) (fun n => fin (value n)) n = some (some (fin x))) :
    ∃ m laws, nPowerlawMGaussian (sageConstants o) Npl Ng (told params o Npl Ng value) = .ok m ∧ HaveLaws m.components laws ∧
      m.logRates.length = Npl + Ng ∧ laws.length = Npl + Ng := by
  obtain ⟨m, hm⟩ := (C50_complete_priors_suffice o hpos (told params o Npl Ng value)).1 fun n hn => by
    obtain ⟨x, hx⟩ := hnum n hn
    refine List.mem_map.2 ⟨(n, x), ?_, rfl⟩
    refine List.mem_filterMap.2 ⟨n, hn, ?_⟩
    rw [hx]
  obtain ⟨laws, hl⟩ := (C95_laws hm).1
  exact ⟨m, laws, hm, hl, ((C95_laws hm).2 laws hl).2.1, ((C95_laws hm).2 laws hl).1⟩

/-- **C98 (a rate).**  The population of the analysis is a non-negative, integrable density over the columns of the analysis: the expected number of
mergers is finite. -/
theorem C98_rate_integrable {c : Cosmo.Cosmology} (hc : c.Proper) (hV : IsVolume c dV) (ho : Exclusive o) {params : Dict String ℝ}
    (h : nPowerlawMGaussian (sageConstants o) Npl Ng params = .ok m) (hl : HaveLaws m.components laws)
    (hp : ∀ ls ∈ laws, ∀ L ∈ ls, L.Proper) :
    Integrable (rate dV m laws : Event (sageColumns o) → ℝ) ∧ ∀ x : Event (sageColumns o), 0 ≤ rate dV m laws x :=
  (integrable_rate hc hV ho h hl hp).2

/-- **C98 (consistency).**  For every `n_pls_m_gs` analysis without beta spins: almost surely, as the numbers of posterior samples of the events and the
number of injections grow, the log density handed to the sampler at the values `value` converges to the exact log posterior of the population whose
components, rates and laws the prior table means at those values, up to the evidences of the events. -/
theorem C98_consistent (hord : ∀ l, (ord l).Perm l) (horc : Jenks.OracleSorted orc) (hc : s.cosmology.Proper) (hV : IsVolume s.cosmology dV)
    (ho : Exclusive o) (hb : o .betaSpin = false) (hmean : Sage.Meaningful s.params) (hk : ∀ n ∈ keys s.params, n ∈ sageModelParameters o Npl Ng)
    (hT : 0 < s.tObs) (hpt : Point s.params names value logPrior)
    (h : nPowerlawMGaussian (sageConstants o) Npl Ng (told s.params o Npl Ng value) = .ok m) (hl : HaveLaws m.components laws)
    (hp : ∀ ls ∈ laws, ∀ L ∈ ls, L.Proper)
    (hw : World P volume L prior X pdet q Y) (hL : ∀ i, ∃ C, ∀ x, L i x ≤ C) (hpos : ∀ i, 0 < ∫ x, L i x * rate dV m laws x)
    (hsam : ∀ i x, L i x * rate dV m laws x ≠ 0 → 0 < prior i x) (hinj : ∀ x, rate dV m laws x * pdet x ≠ 0 → 0 < q x)
    (k : Fin K → ℕ → ℕ) (hkt : ∀ i, Tendsto (k i) atTop atTop) (N : ℕ → ℕ) (hN : Tendsto N atTop atTop) :
    ∀ᵐ ω ∂P, ∀ r : ℕ → Sage.Analysis,
      (∀ n, Sage.run ord orc (observe (sageInputs s o Npl Ng) row (sageColumns o).length prior (fun i => (List.range (k i n)).map fun j => X i j ω)
        (injectionRate row pdet q Y s.tObs (N n) ω)) = .ok (r n)) →
      ∃ v : ℕ → ℝ, (∀ᶠ n in atTop, (r n).labels = names ∧ (r n).flowMC (names.map fun n => fin (value n)) = fin (v n)) ∧
        Tendsto v atTop (𝓝 (logPosterior L pdet s.tObs logPrior (rate dV m laws) - ∑ i, Real.log (evidence volume (L i) (prior i)))) := by
  obtain ⟨lp, hlog, hlp, hat, -⟩ := meets_at hc hV ho hb hk h hl hp hpt
  have key := Hierarchy.C89_consistent (inp := sageInputs s o Npl Ng) hord horc hmean (extra_nodup o Npl Ng) hT hw hat
    (meets_proper hc hV ho h hl hp hw hL hpos hlog hlp) ⟨by simpa only [hlp] using hsam, by simpa only [hlp] using hinj⟩ (sageColumns o).length k hkt N hN
  simp only [Hierarchy.exactLogPosterior, PoissonMean.expectedDetections, hlp] at key
  exact key

/-- **C98 (consistency, numpyro).**  The same for the log density of the model handed to numpyro, which validates the arguments of the population model. -/
theorem C98_consistent_numpyro (hord : ∀ l, (ord l).Perm l) (horc : Jenks.OracleSorted orc) (hc : s.cosmology.Proper) (hV : IsVolume s.cosmology dV)
    (ho : Exclusive o) (hb : o .betaSpin = false) (hmean : Sage.Meaningful s.params) (hk : ∀ n ∈ keys s.params, n ∈ sageModelParameters o Npl Ng)
    (hT : 0 < s.tObs) (hpt : Point s.params names value logPrior)
    (h : nPowerlawMGaussian (sageConstants o) Npl Ng (told s.params o Npl Ng value) = .ok m) (hl : HaveLaws m.components laws)
    (hp : ∀ ls ∈ laws, ∀ L ∈ ls, L.Proper)
    (hw : World P volume L prior X pdet q Y) (hL : ∀ i, ∃ C, ∀ x, L i x ≤ C) (hpos : ∀ i, 0 < ∫ x, L i x * rate dV m laws x)
    (hsam : ∀ i x, L i x * rate dV m laws x ≠ 0 → 0 < prior i x) (hinj : ∀ x, rate dV m laws x * pdet x ≠ 0 → 0 < q x) (big : ℝ)
    (k : Fin K → ℕ → ℕ) (hkt : ∀ i, Tendsto (k i) atTop atTop) (N : ℕ → ℕ) (hN : Tendsto N atTop atTop) :
    ∀ᵐ ω ∂P, ∀ r : ℕ → Sage.Analysis,
      (∀ n, Sage.run ord orc (observe (sageInputs s o Npl Ng) row (sageColumns o).length prior (fun i => (List.range (k i n)).map fun j => X i j ω)
        (injectionRate row pdet q Y s.tObs (N n) ω)) = .ok (r n)) →
      ∃ v : ℕ → ℝ, (∀ᶠ n in atTop, (r n).labels = names ∧ (r n).numpyro big (names.map fun n => fin (value n)) = some (fin (v n))) ∧
        Tendsto v atTop (𝓝 (logPosterior L pdet s.tObs logPrior (rate dV m laws) - ∑ i, Real.log (evidence volume (L i) (prior i)))) := by
  obtain ⟨lp, hlog, hlp, hat, hmod⟩ := meets_at hc hV ho hb hk h hl hp hpt
  have key := Hierarchy.C89_consistent_numpyro (inp := sageInputs s o Npl Ng) hord horc hmean (extra_nodup o Npl Ng) hT hw hat hmod
    (meets_proper hc hV ho h hl hp hw hL hpos hlog hlp) ⟨by simpa only [hlp] using hsam, by simpa only [hlp] using hinj⟩ (sageColumns o).length big k hkt N hN
  simp only [Hierarchy.exactLogPosterior, PoissonMean.expectedDetections, hlp] at key
  exact key

/-- **C98 (no bias).**  For any numbers of posterior samples, at least one for each event: when the expected number `μ` is known, the density handed to the
sampler has exactly the right mean over all sets of posterior samples. -/
theorem C98_unbiased (hord : ∀ l, (ord l).Perm l) (horc : Jenks.OracleSorted orc) (hc : s.cosmology.Proper) (hV : IsVolume s.cosmology dV)
    (ho : Exclusive o) (hb : o .betaSpin = false) (hmean : Sage.Meaningful s.params) (hk : ∀ n ∈ keys s.params, n ∈ sageModelParameters o Npl Ng)
    (hT : 0 < s.tObs) (hpt : Point s.params names value logPrior)
    (h : nPowerlawMGaussian (sageConstants o) Npl Ng (told s.params o Npl Ng value) = .ok m) (hl : HaveLaws m.components laws)
    (hp : ∀ ls ∈ laws, ∀ L ∈ ls, L.Proper)
    (hw : World P volume L prior X pdet q Y) (hL : ∀ i, ∃ C, ∀ x, L i x ≤ C) (hpos : ∀ i, 0 < ∫ x, L i x * rate dV m laws x)
    (hsam : ∀ i x, L i x * rate dV m laws x ≠ 0 → 0 < prior i x) (k : Fin K → ℕ) (hk1 : ∀ i, 1 ≤ k i) (μ : ℝ) (r : Ω → Sage.Analysis)
    (hr : ∀ ω, Sage.run ord orc (observe (sageInputs s o Npl Ng) row (sageColumns o).length prior (fun i => (List.range (k i)).map fun j => X i j ω)
      fun _ => fin μ) = .ok (r ω)) :
    Integrable (fun ω => expR ((r ω).flowMC (names.map fun n => fin (value n)))) P ∧
    ∫ ω, expR ((r ω).flowMC (names.map fun n => fin (value n))) ∂P =
      Real.exp logPrior * (∏ i, s.tObs * (∫ x, L i x * rate dV m laws x) / evidence volume (L i) (prior i)) * Real.exp (-μ) := by
  obtain ⟨lp, hlog, hlp, hat, -⟩ := meets_at hc hV ho hb hk h hl hp hpt
  have key := Hierarchy.C89_unbiased (inp := sageInputs s o Npl Ng) hord horc hmean (extra_nodup o Npl Ng) hT hw hat
    (meets_proper hc hV ho h hl hp hw hL hpos hlog hlp) (by simpa only [hlp] using hsam) (sageColumns o).length k hk1 (fun _ => fin μ) μ rfl r hr
  simp only [hlp] at key
  exact key

/-- **C98 (Gaussian events).**  For every `n_pls_m_gs` analysis of Gaussian events without beta spins: almost surely, as the number of draws per batch and
the number of injections grow, the log density handed to the sampler converges to the exact log posterior of the same population, where the likelihood of an
event is the normal density with its mean and covariance. -/
theorem C98_gaussian_events {s : MonkSettings (sageColumns o).length} {chol : Matrix (Fin (sageColumns o).length) (Fin (sageColumns o).length) ℝ → Matrix _ _ ℝ}
    {evs : List (Event (sageColumns o) × Matrix (Fin (sageColumns o).length) (Fin (sageColumns o).length) ℝ)}
    {Z : Key → ℕ → Ω → Event (sageColumns o)} (hord : ∀ l, (ord l).Perm l) (hchol : Analytic.IsCholesky chol) (hc : s.cosmology.Proper)
    (hV : IsVolume s.cosmology dV) (ho : Exclusive o) (hb : o .betaSpin = false) (hmean : Sage.Meaningful s.params)
    (hk : ∀ n ∈ keys s.params, n ∈ sageModelParameters o Npl Ng) (hT : 0 < s.tObs) (hsteps : 1 ≤ s.nMaxSteps) (hpt : Point s.params names value logPrior)
    (h : nPowerlawMGaussian (sageConstants o) Npl Ng (told s.params o Npl Ng value) = .ok m) (hl : HaveLaws m.components laws)
    (hp : ∀ ls ∈ laws, ∀ L ∈ ls, L.Proper)
    (hfile : Monk.FileHolds s.filename s.file evs) (hS : ∀ e ∈ evs, e.2.PosDef)
    (hH : ∀ e ∈ evs, ∀ kw, (s.hess kw e.1).transpose = s.hess kw e.1)
    (hpos : ∀ e ∈ evs, 0 < ∫ x, gauss e.1 e.2 x * rate dV m laws x) (hZ : Monk.Normals P Z) (k : ℕ → ℕ) (hkt : Tendsto k atTop atTop)
    (hY : PoissonMean.Campaign P volume q Y) (hq : Measurable q) (hq0 : ∀ x, 0 ≤ q x) (hpd : Measurable pdet) (hp0 : ∀ x, 0 ≤ pdet x) (hp1 : ∀ x, pdet x ≤ 1)
    (hinj : ∀ x, rate dV m laws x * pdet x ≠ 0 → 0 < q x) (N : ℕ → ℕ) (hN : Tendsto N atTop atTop) :
    ∀ᵐ ω ∂P, ∀ r : ℕ → Monk.Analysis,
      (∀ i, Monk.run ord chol (Monk.firstDraws Z (k i) ω)
        { monkInputs s o Npl Ng with nSamples := k i, rate := Monk.injectionRate (monkInputs s o Npl Ng) pdet q Y (N i) ω } = .ok (r i)) →
      ∃ v : ℕ → ℝ, (∀ᶠ i in atTop, (r i).labels = names ∧ (r i).logpdf (names.map fun n => fin (value n)) = fin (v i)) ∧
        Tendsto v atTop (𝓝 (logPosterior (fun i : Fin evs.length => gauss evs[i].1 evs[i].2) pdet s.tObs logPrior (rate dV m laws))) := by
  have hv := monk_value (s := s) (value := value) hc hV ho hb hk h hl hp
  obtain ⟨r1, r2, r3⟩ := integrable_rate hc hV ho h hl hp
  have hprop : Monk.Proper (Monk.population (monkInputs s o Npl Ng) value) evs := by
    refine ⟨fun x => (hv x).1, by simpa only [fun x => (hv x).2] using r1, fun e he => ?_, fun e he => ?_⟩
    · simp only [fun x => (hv x).2]
      refine r2.mul_bdd (c := 1 / (Real.sqrt (2 * Real.pi) ^ (sageColumns o).length * Real.sqrt e.2.det)) (gauss_measurable e.1 e.2).aestronglyMeasurable (Eventually.of_forall fun x => ?_)
      rw [Real.norm_eq_abs, abs_of_nonneg (gauss_bounds e.1 (hS e he) x).1]
      exact (gauss_bounds e.1 (hS e he) x).2
    · simpa only [fun x => (hv x).2, mul_comm] using hpos e he
  have key := Monk.C92_consistent_injections (inp := monkInputs s o Npl Ng) hord hchol hmean (extra_nodup o Npl Ng) hsteps hT hfile hS
    ⟨hpt.nodup, hpt.sorted, hpt.columns, hpt.inside, hpt.prior⟩ hprop (fun e he => hH e he _) hZ k hkt hY hq hq0 hpd hp0 hp1
    (by simpa only [fun x => (hv x).2] using hinj) (by
      simp only [fun x => (hv x).2]
      refine r2.mul_bdd (c := 1) hpd.aestronglyMeasurable (Eventually.of_forall fun x => ?_)
      rw [Real.norm_eq_abs, abs_of_nonneg (hp0 x)]
      exact hp1 x) N hN
  simp only [Monk.exactLogPosterior_eq, fun x => (hv x).2] at key
  simp only [logPosterior, mul_comm (gauss _ _ _)]
  exact key

/-! ## Example: one power law, masses only -/

/-- No options. -/
def noOptions : Flag → Bool := fun _ => false

/-- The log rate is sampled, the rest is fixed. -/
def someTable : Dict String (Guru.PVal XR) :=
  [("log_rate_0", .dist Sage.exA), ("alpha_pl_0", .num 3), ("beta_pl_0", .num 1), ("mmax_pl_0", .num 80), ("mmin_pl_0", .num 5)]

def someSettings : Settings where
  params := someTable
  cosmology := Cosmo.planck2015
  big := 1
  validation := true
  feasible := fun _ _ => []
  nBuckets := some 1
  threshold := 3
  tObs := 2

def someValue : String → ℝ := fun _ => 1 / 2

theorem someTable_mem {n : String} {v : Guru.PVal XR} (h : (n, v) ∈ someTable) :
    (n, v) = ("log_rate_0", .dist Sage.exA) ∨ ∃ q, v = .num q := by
  simp only [someTable, List.mem_cons, List.not_mem_nil, or_false, Prod.mk.injEq] at h
  rcases h with h | h | h | h | h
  · exact Or.inl (by rw [h.1, h.2])
  all_goals exact Or.inr ⟨_, h.2⟩

theorem someTable_meaningful : Sage.Meaningful someTable where
  nodup := by decide +kernel
  dist := by
    intro n b h
    rcases someTable_mem h with h | ⟨q, h⟩ <;> simp at h
    obtain ⟨-, rfl⟩ := h
    exact ⟨rfl, fun _ => trivial⟩
  lazy := by
    intro n ip f a h kw
    rcases someTable_mem h with h | ⟨q, h⟩ <;> simp at h
  deps := by
    intro n ip f a h
    rcases someTable_mem h with h | ⟨q, h⟩ <;> simp at h
  aliases := by
    intro n t h
    rcases someTable_mem h with h | ⟨q, h⟩ <;> simp at h

theorem somePoint : Point someTable ["log_rate_0"] someValue 0 where
  nodup := by decide +kernel
  sorted := by simp
  columns := by
    intro n
    simp only [List.mem_singleton, Sage.Sampled]
    constructor
    · rintro rfl
      exact Or.inl ⟨Sage.exA, by simp [someTable]⟩
    · rintro (⟨b, hb⟩ | ⟨ip, f, a, hb⟩)
      · rcases someTable_mem hb with h | ⟨q, h⟩ <;> simp at h
        exact h.1
      · rcases someTable_mem hb with h | ⟨q, h⟩ <;> simp at h
  inside := by
    intro n hn
    simp only [List.mem_singleton] at hn
    subst hn
    simp [Sage.inPrior, Sage.priorOf, someTable, get?, Sage.exA, someValue]
    norm_num
  prior := by
    rw [XR.sum_eq]
    simp [Sage.logPriorOf, Sage.priorOf, someTable, get?, Sage.exA, someValue]

theorem someNames : sageModelParameters noOptions 1 0 = ["log_rate_0", "alpha_pl_0", "beta_pl_0", "mmax_pl_0", "mmin_pl_0"] := by decide +kernel

theorem someTold : told someTable noOptions 1 0 someValue =
    [("log_rate_0", 1 / 2), ("alpha_pl_0", 3), ("beta_pl_0", 1), ("mmax_pl_0", 80), ("mmin_pl_0", 5)] := by
  have hx : ∀ n ∈ ["log_rate_0", "alpha_pl_0", "beta_pl_0", "mmax_pl_0", "mmin_pl_0"], get? (sageExtra noOptions 1 0) n = none := by
    intro n hn
    refine get?_none ?_
    rw [extra_keys]
    revert n
    decide +kernel
  have e : ∀ n v, n ∈ ["log_rate_0", "alpha_pl_0", "beta_pl_0", "mmax_pl_0", "mmin_pl_0"] → get? someTable n = some v → (∀ t, v ≠ .str t) →
      Sage.meaning someTable (sageExtra noOptions 1 0) (fun n => fin (someValue n)) n = Sage.direct (fun n => fin (someValue n)) n v := by
    intro n v hn hv ht
    unfold Sage.meaning
    rw [hx n hn, hv]
    cases v <;> first | rfl | exact absurd rfl (ht _)
  rw [told, someNames, hyperParameters]
  simp only [List.filterMap_cons, List.filterMap_nil]
  rw [e "log_rate_0" (.dist Sage.exA) (by simp) (by simp [someTable, get?]) (by simp), e "alpha_pl_0" (.num 3) (by simp) (by simp [someTable, get?]) (by simp),
    e "beta_pl_0" (.num 1) (by simp) (by simp [someTable, get?]) (by simp), e "mmax_pl_0" (.num 80) (by simp) (by simp [someTable, get?]) (by simp),
    e "mmin_pl_0" (.num 5) (by simp) (by simp [someTable, get?]) (by simp)]
  simp [Sage.direct, someValue]

def someFactor : Factor :=
  { cls := "PowerlawPrimaryMassRatio", quantities := ["mass_1_source", "mass_2_source"],
    args := [⟨none, "alpha", some 3⟩, ⟨none, "beta", some 1⟩, ⟨none, "mmin", some 5⟩, ⟨none, "mmax", some 80⟩] }

theorem somePopulation : nPowerlawMGaussian (sageConstants noOptions) 1 0 (told someTable noOptions 1 0 someValue) = .ok ⟨[1 / 2], [[someFactor]]⟩ := by
  rw [someTold]
  rfl

theorem somePopulation_laws : HaveLaws [[someFactor]] [[.masses 3 1 5 80]] := by
  refine .cons (.cons ?_ .nil) .nil
  rfl

theorem someLaws_proper : ∀ ls ∈ [[Law.masses 3 1 5 80]], ∀ L ∈ ls, L.Proper := by
  simp only [List.mem_cons, List.not_mem_nil, or_false, forall_eq, Law.Proper]
  norm_num

theorem someRate (dV : ℝ → ℝ) (x : Event (sageColumns noOptions)) :
    rate dV ⟨[1 / 2], [[someFactor]]⟩ [[.masses 3 1 5 80]] x = Real.exp (1 / 2) * Law.massDensity 3 1 5 80 (x ⟨0, by decide⟩) (x ⟨1, by decide⟩) := by
  rw [rate_eq ⟨by simp [noOptions], by simp [noOptions]⟩ somePopulation somePopulation_laws]
  have : List.ofFn x = [x ⟨0, by decide⟩, x ⟨1, by decide⟩] := rfl
  rw [this]
  simp [productDensity, Law.dim, Law.density]

/-- Uniform on the masses from 0 to 100. -/
def box (x : Event (sageColumns noOptions)) : ℝ := ∏ i, (Set.Icc (0 : ℝ) 100).indicator (fun _ => 1 / 100) (x i)

theorem box_measurable : Measurable box :=
  Finset.measurable_fun_prod _ fun i _ => (measurable_const.indicator measurableSet_Icc).comp (measurable_pi_apply i)

theorem box_nonneg (x) : 0 ≤ box x := Finset.prod_nonneg fun i _ => Set.indicator_nonneg (fun _ _ => by norm_num) _

theorem box_integral : ∫ x, box x = 1 := by
  unfold box
  rw [integral_fintype_prod_volume_eq_prod (f := fun _ : Fin (sageColumns noOptions).length => (Set.Icc (0 : ℝ) 100).indicator fun _ => (1 / 100 : ℝ))]
  refine Finset.prod_eq_one fun i _ => ?_
  rw [integral_indicator measurableSet_Icc]
  simp

theorem box_pos {dV : ℝ → ℝ} {x : Event (sageColumns noOptions)} (h : rate dV ⟨[1 / 2], [[someFactor]]⟩ [[.masses 3 1 5 80]] x ≠ 0) : 0 < box x := by
  rw [someRate] at h
  have h := right_ne_zero_of_mul h
  unfold Law.massDensity at h
  rw [ite_ne_right_iff] at h
  obtain ⟨h1, h2, h3⟩ := h.1
  refine Finset.prod_pos fun i _ => ?_
  have : x i ∈ Set.Icc (0 : ℝ) 100 := by
    have hi : i = ⟨0, by decide⟩ ∨ i = ⟨1, by decide⟩ := by
      obtain ⟨i, hi⟩ := i
      have : i < 2 := hi
      interval_cases i <;> simp
    rcases hi with rfl | rfl <;> constructor <;> linarith
  rw [Set.indicator_of_mem this]
  norm_num

/-- The draws of the example: independent, the masses uniform. -/
abbrev Draws : Type := ℕ → Event (sageColumns noOptions) × ℝ

def boxLaw : Measure (Event (sageColumns noOptions)) := volume.withDensity fun x => ENNReal.ofReal (box x)

theorem boxLaw_probability : IsProbabilityMeasure boxLaw := by
  refine ⟨?_⟩
  rw [boxLaw, withDensity_apply _ MeasurableSet.univ, Measure.restrict_univ, ← ofReal_integral_eq_lintegral_ofReal ?_ (Eventually.of_forall box_nonneg),
    box_integral, ENNReal.ofReal_one]
  refine Integrable.of_integral_ne_zero ?_
  rw [box_integral]
  exact one_ne_zero

theorem unit_probability : IsProbabilityMeasure PoissonMean.unit := ⟨by simp [PoissonMean.unit]⟩

attribute [local instance] boxLaw_probability unit_probability

def someWorldMeasure : Measure Draws := Measure.infinitePi fun _ => boxLaw.prod PoissonMean.unit

theorem someWorldMeasure_probability : IsProbabilityMeasure someWorldMeasure := by
  unfold someWorldMeasure
  infer_instance

attribute [local instance] someWorldMeasure_probability

theorem box_evidence : evidence volume (fun _ : Event (sageColumns noOptions) => 1) box = 1 := by
  simp [evidence, box_integral]

/-- One event whose data say nothing, half of all mergers detected. -/
theorem someWorld : World someWorldMeasure volume (fun _ _ => 1) (fun _ => box) (fun (_ : Fin 1) j (ω : Draws) => (ω j).1) (fun _ => 1 / 2) box (fun i ω => ω i) := by
  have hind : iIndepFun (fun (i : ℕ) (ω : Draws) => ω i) someWorldMeasure :=
    iIndepFun_infinitePi (P := fun _ : ℕ => boxLaw.prod PoissonMean.unit) (X := fun _ x => x) (fun _ => measurable_id)
  refine ⟨⟨fun i j => measurable_fst.comp (measurable_pi_apply j), fun i j => ?_, fun i => hind.comp (fun _ => Prod.fst) fun _ => measurable_fst,
    iIndepFun.of_subsingleton⟩, ⟨fun i => measurable_pi_apply i, fun i => ?_, hind⟩, fun _ => measurable_const, fun _ _ => zero_le_one,
    fun _ => box_measurable, fun _ => box_nonneg, fun _ => by rw [box_evidence]; exact one_pos, box_measurable, box_nonneg, measurable_const,
    by intro x; norm_num, by intro x; norm_num⟩
  · have : (fun ω : Draws => (ω j).1) = Prod.fst ∘ fun ω => ω j := rfl
    rw [this, ← Measure.map_map measurable_fst (measurable_pi_apply j),
      show someWorldMeasure.map (fun ω => ω j) = boxLaw.prod PoissonMean.unit from Measure.infinitePi_map_eval _ j, box_evidence]
    rw [Measure.map_fst_prod]
    simp [boxLaw]
  · exact Measure.infinitePi_map_eval _ i

theorem someRate_integral {dV : ℝ → ℝ} (hV : IsVolume Cosmo.planck2015 dV) :
    ∫ x : Event (sageColumns noOptions), rate dV ⟨[1 / 2], [[someFactor]]⟩ [[.masses 3 1 5 80]] x = Real.exp (1 / 2) := by
  have hp : ∀ L ∈ [Law.masses 3 1 5 80], L.Proper := someLaws_proper _ (by simp)
  have hn := (C95_normalised Cosmo.planck2015_proper hV hp).2.2 (by simp)
  have e : ∀ x : Event (sageColumns noOptions), rate dV ⟨[1 / 2], [[someFactor]]⟩ [[.masses 3 1 5 80]] x =
      Real.exp (1 / 2) * productDensity dV [.masses 3 1 5 80] (List.ofFn x) := by
    intro x
    rw [rate_eq ⟨by simp [noOptions], by simp [noOptions]⟩ somePopulation somePopulation_laws]
    simp
  simp only [e]
  have hme := measurable_productDensity_ofFn Cosmo.planck2015_proper hV hp (sageColumns noOptions).length
  rw [integral_const_mul, integral_eq_lintegral_of_nonneg_ae (Eventually.of_forall fun x => productDensity_nonneg Cosmo.planck2015_proper hV hp _)
    hme.aestronglyMeasurable, lintegral_ofFn (f := fun x => ENNReal.ofReal (productDensity dV [.masses 3 1 5 80] x)) hme.ennreal_ofReal]
  rw [show (sageColumns noOptions).length = lawsDim [.masses 3 1 5 80] from rfl, hn]
  simp

/-- The analysis runs on one event with any number of samples. -/
theorem someRuns (prior : Fin 1 → Event (sageColumns noOptions) → ℝ) (xs : Fin 1 → List (Event (sageColumns noOptions))) (rate : Likelihood.Model FRow → XR) :
    ∃ r, Sage.run id Jenks.exOracle (observe (sageInputs someSettings noOptions 1 0) row (sageColumns noOptions).length prior xs rate) = .ok r := by
  have hs : ∃ s, Guru.setup id someTable (sageExtra noOptions 1 0) = .ok s := ⟨_, rfl⟩
  obtain ⟨s, hs⟩ := hs
  set inp := observe (sageInputs someSettings noOptions 1 0) row (sageColumns noOptions).length prior xs rate with hinp
  have : ∃ c bs, Likelihood.readData Jenks.exOracle inp.data inp.refs (some 1) 3 = .ok (c, bs) := by
    unfold Likelihood.readData
    rw [if_neg (by simp [hinp, observe])]
    have : ∃ a b m, Jenks.padAndStack Jenks.exOracle (fun w => List.replicate w (0 : XR)) [inp.data, inp.refs] (some 1) 3 = .ok ([a, b], m) := by
      rw [Jenks.padAndStack, if_neg (by norm_num)]
      exact ⟨_, _, _, rfl⟩
    obtain ⟨a, b, m, h⟩ := this
    rw [h]
    exact ⟨_, _, rfl⟩
  obtain ⟨c, bs, hd⟩ := this
  refine (Sage.C82_stops_iff (inp := inp) (fun l => List.Perm.refl l) someTable_meaningful (extra_nodup noOptions 1 0) s hs c bs hd).2 ?_
  rintro ⟨n, hn, h⟩
  have hn : n ∈ keys (sageExtra noOptions 1 0) := hn
  rw [extra_keys] at hn
  have : n ≠ "log_rate_0" := by
    rintro rfl
    revert hn
    decide +kernel
  rcases h with (⟨b, h⟩ | ⟨ip, f, a, h⟩) | ⟨t, h, -⟩ <;> rcases someTable_mem h with h | ⟨q, h⟩ <;> simp at h
  exact this h.1

/-- All conditions of `C98_consistent` hold for the example, which runs on any number of samples; its exact log posterior is
`log (2 exp (1/2)) - exp (1/2)`. -/
example (dV : ℝ → ℝ) (hV : IsVolume Cosmo.planck2015 dV) : ∀ᵐ ω ∂someWorldMeasure, ∃ r : ℕ → Sage.Analysis, ∃ v : ℕ → ℝ,
    (∀ n, Sage.run id Jenks.exOracle (observe (sageInputs someSettings noOptions 1 0) row (sageColumns noOptions).length (fun _ : Fin 1 => box)
      (fun _ => (List.range n).map fun j => (ω j).1) (injectionRate row (fun _ => 1 / 2) box (fun i (ω : Draws) => ω i) 2 n ω)) = .ok (r n)) ∧
    (∀ᶠ n in atTop, (r n).flowMC [fin (1 / 2)] = fin (v n)) ∧ Tendsto v atTop (𝓝 (Real.log (2 * Real.exp (1 / 2)) - Real.exp (1 / 2))) := by
  have hr := someRate_integral hV
  filter_upwards [C98_consistent (ord := id) (s := someSettings) (o := noOptions) (Npl := 1) (Ng := 0) (fun l => List.Perm.refl l) Jenks.exOracle_sorted
    Cosmo.planck2015_proper hV ⟨by simp [noOptions], by simp [noOptions]⟩ rfl someTable_meaningful (by rw [someNames]; decide +kernel)
    (by norm_num [someSettings]) somePoint somePopulation somePopulation_laws someLaws_proper someWorld (fun _ => ⟨1, fun _ => le_rfl⟩)
    (fun _ => by simp only [one_mul]; rw [hr]; exact Real.exp_pos _) (fun _ x h => box_pos (right_ne_zero_of_mul h)) (fun x h => box_pos (left_ne_zero_of_mul h))
    (fun _ n => n) (fun _ => tendsto_id) (fun n => n) tendsto_id] with ω hω
  choose r hr' using fun n : ℕ => someRuns (fun _ => box) (fun _ => (List.range n).map fun j => (ω j).1)
    (injectionRate row (fun _ => 1 / 2) box (fun i (ω : Draws) => ω i) 2 n ω)
  obtain ⟨v, hv, hlim⟩ := hω r hr'
  refine ⟨r, v, hr', hv.mono fun n h => by simpa only [List.map_cons, List.map_nil, someValue] using h.2, ?_⟩
  convert hlim using 2
  simp only [logPosterior, one_mul, integral_mul_const, hr, box_evidence]
  simp [someSettings]
  ring

/-- The same analysis for numpyro, and without bias. -/
example (dV : ℝ → ℝ) (hV : IsVolume Cosmo.planck2015 dV) (big : ℝ) : (∀ᵐ ω ∂someWorldMeasure, ∃ r : ℕ → Sage.Analysis, ∃ v : ℕ → ℝ,
    (∀ᶠ n in atTop, (r n).numpyro big [fin (1 / 2)] = some (fin (v n))) ∧ Tendsto v atTop (𝓝 (Real.log (2 * Real.exp (1 / 2)) - Real.exp (1 / 2)))) ∧
    ∃ r : Draws → Sage.Analysis, ∫ ω, expR ((r ω).flowMC [fin (1 / 2)]) ∂someWorldMeasure = 2 * Real.exp (1 / 2) * Real.exp (-7) := by
  have hr := someRate_integral hV
  constructor
  · filter_upwards [C98_consistent_numpyro (ord := id) (s := someSettings) (o := noOptions) (Npl := 1) (Ng := 0) (fun l => List.Perm.refl l) Jenks.exOracle_sorted
      Cosmo.planck2015_proper hV ⟨by simp [noOptions], by simp [noOptions]⟩ rfl someTable_meaningful (by rw [someNames]; decide +kernel)
      (by norm_num [someSettings]) somePoint somePopulation somePopulation_laws someLaws_proper someWorld (fun _ => ⟨1, fun _ => le_rfl⟩)
      (fun _ => by simp only [one_mul]; rw [hr]; exact Real.exp_pos _) (fun _ x h => box_pos (right_ne_zero_of_mul h)) (fun x h => box_pos (left_ne_zero_of_mul h))
      big (fun _ n => n) (fun _ => tendsto_id) (fun n => n) tendsto_id] with ω hω
    choose r hr' using fun n : ℕ => someRuns (fun _ => box) (fun _ => (List.range n).map fun j => (ω j).1)
      (injectionRate row (fun _ => 1 / 2) box (fun i (ω : Draws) => ω i) 2 n ω)
    obtain ⟨v, hv, hlim⟩ := hω r hr'
    refine ⟨r, v, hv.mono fun n h => by simpa only [List.map_cons, List.map_nil, someValue] using h.2, ?_⟩
    convert hlim using 2
    simp only [logPosterior, one_mul, integral_mul_const, hr, box_evidence]
    simp [someSettings]
    ring
  · choose r hr' using fun ω : Draws => someRuns (fun _ => box) (fun _ => (List.range 3).map fun j => (ω j).1) fun _ => fin 7
    refine ⟨r, ?_⟩
    have key := (C98_unbiased (ord := id) (s := someSettings) (o := noOptions) (Npl := 1) (Ng := 0) (fun l => List.Perm.refl l) Jenks.exOracle_sorted
      Cosmo.planck2015_proper hV ⟨by simp [noOptions], by simp [noOptions]⟩ rfl someTable_meaningful (by rw [someNames]; decide +kernel)
      (by norm_num [someSettings]) somePoint somePopulation somePopulation_laws someLaws_proper someWorld (fun _ => ⟨1, fun _ => le_rfl⟩)
      (fun _ => by simp only [one_mul]; rw [hr]; exact Real.exp_pos _) (fun _ x h => box_pos (right_ne_zero_of_mul h)) (fun _ => 3) (by simp) 7 r hr').2
    simp only [one_mul, hr, box_evidence] at key
    simpa [someSettings, someValue] using key

/-- The table of the example gives a number for every declared hyper-parameter. -/
example : ∃ m laws, nPowerlawMGaussian (sageConstants noOptions) 1 0 (told someTable noOptions 1 0 someValue) = .ok m ∧ HaveLaws m.components laws ∧
    m.logRates.length = 1 ∧ laws.length = 1 :=
  C98_population_exists (params := someTable) (by norm_num) (by
    intro n hn
    have : n ∈ keys (told someTable noOptions 1 0 someValue) := by
      rw [someTold]
      rw [someNames] at hn
      exact hn
    obtain ⟨p, hp, rfl⟩ := List.mem_map.1 this
    obtain ⟨n, -, hv⟩ := List.mem_filterMap.1 hp
    split at hv
    · next x hx =>
      cases hv
      exact ⟨x, hx⟩
    · cases hv)

/-! ## Example with a Gaussian event -/

def someMonk : MonkSettings (sageColumns noOptions).length where
  params := someTable
  cosmology := Cosmo.planck2015
  big := 1
  validation := true
  feasible := fun _ _ => []
  grad := fun _ _ => 0
  hess := fun _ _ => 0
  filename := "events.hdf5"
  file := [("event_0", ⟨some [fin 30, fin 20], some [[fin 1, fin 0], [fin 0, fin 1]]⟩)]
  tObs := 2
  seed := 37
  minErr := 1 / 100
  nMaxSteps := 20

/-- Masses 30 and 20 with unit errors. -/
def someEvents : List (Event (sageColumns noOptions) × Matrix (Fin (sageColumns noOptions).length) (Fin (sageColumns noOptions).length) ℝ) :=
  [(fun i => if i.1 = 0 then 30 else 20, 1)]

theorem someFile : Monk.FileHolds someMonk.filename someMonk.file someEvents := by
  refine ⟨Or.inl (by change ".hdf5".toList <:+ "events.hdf5".toList; decide +kernel), ?_⟩
  have : (someMonk.file.filter fun kg => "event_".toList.isPrefixOf kg.1.toList) = [("event_0", ⟨some [fin 30, fin 20], some [[fin 1, fin 0], [fin 0, fin 1]]⟩)] := rfl
  rw [this]
  refine .cons ⟨?_, ?_⟩ .nil
  · change some _ = some (List.ofFn fun i : Fin 2 => fin (if i.1 = 0 then 30 else 20))
    simp [List.ofFn_succ]
  · change some _ = some (List.ofFn fun i : Fin 2 => List.ofFn fun j : Fin 2 => fin ((1 : Matrix (Fin 2) (Fin 2) ℝ) i j))
    simp [List.ofFn_succ, Matrix.one_apply]

theorem someEvents_posDef : ∀ e ∈ someEvents, e.2.PosDef := by
  intro e he
  simp only [someEvents, List.mem_singleton] at he
  subst he
  exact Matrix.PosDef.one

theorem someMonk_runs (chol : Matrix (Fin (sageColumns noOptions).length) (Fin (sageColumns noOptions).length) ℝ → Matrix _ _ ℝ) (normals : Key → List (Event (sageColumns noOptions))) (k : ℕ)
    (rate : _) : ∃ r, Monk.run id chol normals { monkInputs someMonk noOptions 1 0 with nSamples := k, rate := rate } = .ok r := by
  obtain ⟨s, hs⟩ : ∃ s, Guru.setup id someTable (sageExtra noOptions 1 0) = .ok s := ⟨_, rfl⟩
  refine (Monk.C83_stops_iff (inp := { monkInputs someMonk noOptions 1 0 with nSamples := k, rate := rate }) (fun l => List.Perm.refl l) someTable_meaningful
    (extra_nodup noOptions 1 0) s hs someEvents someFile).2.2 (by simp [someEvents]) ?_
  rintro ⟨n, hn, h⟩
  have hn : n ∈ keys (sageExtra noOptions 1 0) := hn
  rw [extra_keys] at hn
  have : n ≠ "log_rate_0" := by
    rintro rfl
    revert hn
    decide +kernel
  rcases h with (⟨b, h⟩ | ⟨ip, f, a, h⟩) | ⟨t, h, -⟩ <;> rcases someTable_mem h with h | ⟨q, h⟩ <;> simp at h
  exact this h.1

theorem someGauss_pos {e : _} (he : e ∈ someEvents) (x : Event (sageColumns noOptions)) : 0 < gauss e.1 e.2 x := by
  have hd : 0 < Real.sqrt (2 * Real.pi) ^ (sageColumns noOptions).length * Real.sqrt e.2.det :=
    mul_pos (pow_pos (Real.sqrt_pos.2 (by positivity)) _) (Real.sqrt_pos.2 (someEvents_posDef e he).det_pos)
  exact div_pos (Real.exp_pos _) hd

theorem someOverlap_pos {dV : ℝ → ℝ} (hV : IsVolume Cosmo.planck2015 dV) : ∀ e ∈ someEvents,
    0 < ∫ x, gauss e.1 e.2 x * rate dV ⟨[1 / 2], [[someFactor]]⟩ [[.masses 3 1 5 80]] x := by
  intro e he
  have ho : Exclusive noOptions := ⟨by simp [noOptions], by simp [noOptions]⟩
  obtain ⟨r1, r2, r3⟩ := integrable_rate (o := noOptions) Cosmo.planck2015_proper hV ho somePopulation somePopulation_laws someLaws_proper
  have hi := r2.bdd_mul (c := 1 / (Real.sqrt (2 * Real.pi) ^ (sageColumns noOptions).length * Real.sqrt e.2.det)) (gauss_measurable e.1 e.2).aestronglyMeasurable
    (Eventually.of_forall fun x => by
      rw [Real.norm_eq_abs, abs_of_nonneg (gauss_bounds e.1 (someEvents_posDef e he) x).1]
      exact (gauss_bounds e.1 (someEvents_posDef e he) x).2)
  rw [integral_pos_iff_support_of_nonneg (fun x => mul_nonneg (someGauss_pos he x).le (r3 x)) hi]
  have hs : (Function.support fun x => gauss e.1 e.2 x * rate dV ⟨[1 / 2], [[someFactor]]⟩ [[.masses 3 1 5 80]] x) =
      Function.support (rate dV ⟨[1 / 2], [[someFactor]]⟩ [[.masses 3 1 5 80]] : Event (sageColumns noOptions) → ℝ) := by
    ext x
    simp [(someGauss_pos he x).ne']
  rw [hs, ← integral_pos_iff_support_of_nonneg r3 r2, someRate_integral hV]
  exact Real.exp_pos _

/-- All conditions of `C98_gaussian_events` hold for an analysis of that event with any number of draws and injections. -/
example (dV : ℝ → ℝ) (hV : IsVolume Cosmo.planck2015 dV) : ∃ (Ω : Type) (_ : MeasurableSpace Ω) (P : Measure Ω), IsProbabilityMeasure P ∧
    ∀ᵐ _ ∂P, ∃ r : ℕ → Monk.Analysis, ∃ v : ℕ → ℝ, (∀ᶠ n in atTop, (r n).labels = ["log_rate_0"] ∧ (r n).logpdf [fin (1 / 2)] = fin (v n)) ∧
      Tendsto v atTop (𝓝 (logPosterior (fun i : Fin someEvents.length => gauss someEvents[i].1 someEvents[i].2) (fun _ => 1 / 2) 2 0
        (rate dV ⟨[1 / 2], [[someFactor]]⟩ [[.masses 3 1 5 80]]))) := by
  have hn := Monk.normals_exist (d := (sageColumns noOptions).length)
  have := hn.keys.isProbabilityMeasure
  obtain ⟨chol, hc⟩ := Analytic.exists_cholesky (sageColumns noOptions).length
  have h1 : MeasurePreserving Prod.fst ((Monk.normalSpace (sageColumns noOptions).length).prod someWorldMeasure) (Monk.normalSpace (sageColumns noOptions).length) := measurePreserving_fst
  have h2 : MeasurePreserving Prod.snd ((Monk.normalSpace (sageColumns noOptions).length).prod someWorldMeasure) someWorldMeasure := measurePreserving_snd
  refine ⟨_, _, (Monk.normalSpace (sageColumns noOptions).length).prod someWorldMeasure, inferInstance, ?_⟩
  have hcamp : PoissonMean.Campaign ((Monk.normalSpace (sageColumns noOptions).length).prod someWorldMeasure) volume box
      fun i (ω : (Key → ℕ → Event (sageColumns noOptions)) × Draws) => ω.2 i := by
    refine ⟨fun i => (measurable_pi_apply i).comp measurable_snd, fun i => ?_,
      Monk.indep_lift (X := fun (i : ℕ) (ω : Draws) => ω i) (fun i => measurable_pi_apply i) (iIndepFun_infinitePi (X := fun _ x => x) (fun _ => measurable_id)) h2⟩
    have : (fun ω : (Key → ℕ → Event (sageColumns noOptions)) × Draws => ω.2 i) = (fun f => f i) ∘ Prod.snd := rfl
    rw [this, ← Measure.map_map (measurable_pi_apply i) measurable_snd, h2.map_eq]
    exact Measure.infinitePi_map_eval _ i
  filter_upwards [C98_gaussian_events (ord := id) (s := someMonk) (o := noOptions) (Npl := 1) (Ng := 0) (pdet := fun _ => 1 / 2) (fun l => List.Perm.refl l) hc
    Cosmo.planck2015_proper hV ⟨by simp [noOptions], by simp [noOptions]⟩ rfl someTable_meaningful (by rw [someNames]; decide +kernel)
    (by norm_num [someMonk]) (by norm_num [someMonk]) somePoint somePopulation somePopulation_laws someLaws_proper someFile someEvents_posDef
    (fun _ _ _ => by simp [someMonk]) (someOverlap_pos hV) (Monk.normals_lift hn h1) (fun n => n) tendsto_id hcamp box_measurable box_nonneg measurable_const
    (fun _ => by norm_num) (fun _ => by norm_num) (fun x h => box_pos (left_ne_zero_of_mul h)) (fun n => n) tendsto_id] with ω hω
  choose r hr using fun n : ℕ => someMonk_runs chol (Monk.firstDraws (fun k t (ω : (Key → ℕ → Event (sageColumns noOptions)) × Draws) => ω.1 k t) n ω) n
    (Monk.injectionRate (monkInputs someMonk noOptions 1 0) (fun _ => 1 / 2) box (fun i (ω : (Key → ℕ → Event (sageColumns noOptions)) × Draws) => ω.2 i) n ω)
  obtain ⟨v, h3, h4⟩ := hω r hr
  exact ⟨r, v, by simpa only [List.map_cons, List.map_nil, someValue] using h3, h4⟩

end
end GW.EndToEnd
