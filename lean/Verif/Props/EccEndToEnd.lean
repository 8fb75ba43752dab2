import Verif.Props.HierarchyNull
import Verif.Props.EndToEnd
import Verif.Lemmas.EccSage

/-! # C100: the `ecc_matters` analyses estimate the exact posterior of the documented population -/

namespace GW.EndToEnd
open GW XR MeasureTheory ProbabilityTheory Filter Topology GW.PyDict GW.Full
open GW.Likelihood (FRow)
open GW.Hierarchy (World observe injectionRate evidence)
open GW.Hybrids (Settings)

noncomputable section
open Classical

variable {Ω : Type} [MeasurableSpace Ω] {K : ℕ} {P : Measure Ω} {s : Settings} {L prior : Fin K → Event eccentricQuantities → ℝ} {X : Fin K → ℕ → Ω → Event eccentricQuantities}
  {pdet q : Event eccentricQuantities → ℝ} {Y : ℕ → Ω → Event eccentricQuantities × ℝ} {ord : List String → List String} {orc : Jenks.Oracle} {names : List String}
  {value : String → ℝ} {logPrior : ℝ} {E : Eccentric}

/-! ## Helpers -/

/-- The log of the rate. -/
def Eccentric.logRateAt (E : Eccentric) (x : Event eccentricQuantities) : XR := log (fin (E.rate x))

theorem logRateAt_spec (hE : E.Proper) (x : Event eccentricQuantities) : IsLog (E.logRateAt x) ∧ expR (E.logRateAt x) = E.rate x := by
  unfold Eccentric.logRateAt
  rcases (E.rate_nonneg hE x).lt_or_eq with h | h
  · rw [log_fin_pos h]
    exact ⟨isLog_fin _, by rw [expR_fin, Real.exp_log h]⟩
  · rw [← h, log_fin_zero]
    exact ⟨isLog_ninf, expR_ninf⟩

theorem ecc_meets_model (hE : E.Proper) (hme : E.Meant s.params value) (v : Option Bool) {x : Event eccentricQuantities} (hx : x ∈ E.usual) :
    ((eccInputs s).model v (Sage.meaning s.params [] fun n => fin (value n))).logProb (row x) = E.logRateAt x := by
  obtain ⟨h1, h2⟩ := ecc_value (validation := s.validation) (feasible := s.feasible) hE hme v hx
  obtain ⟨h3, h4⟩ := logRateAt_spec hE x
  exact expR_injective h1 h3 (h2.trans h4.symm)

theorem ecc_meets_at (hE : E.Proper) (hme : E.Meant s.params value) (hpt : Point s.params names value logPrior) :
    Hierarchy.At (eccInputs s) (fun x : E.usual => row (x : Event eccentricQuantities)) names value logPrior fun x : E.usual => E.logRateAt x :=
  ⟨hpt.nodup, hpt.sorted, hpt.columns, hpt.inside, fun fns hf => by simp [eccInputs] at hf, hpt.prior, fun x => ecc_meets_model hE hme none x.2⟩

theorem ecc_meets_proper (hE : E.Proper) (hw : World P volume L prior X pdet q Y) (hL : ∀ i, ∃ C, ∀ x, L i x ≤ C) (hpos : ∀ i, 0 < ∫ x, L i x * E.rate x) :
    Hierarchy.Proper volume L pdet E.logRateAt := by
  have hlp : ∀ x, expR (E.logRateAt x) = E.rate x := fun x => (logRateAt_spec hE x).2
  have r2 := E.rate_integrable hE
  refine ⟨fun x => (logRateAt_spec hE x).1, by simpa only [hlp] using E.rate_measurable, fun i => ?_, ?_, fun i => by simpa only [hlp] using hpos i⟩
  · simp only [hlp]
    obtain ⟨C, hC⟩ := hL i
    refine r2.bdd_mul (c := C) (hw.measurable_L i).aestronglyMeasurable (Eventually.of_forall fun x => ?_)
    rw [Real.norm_eq_abs, abs_of_nonneg (hw.L_nonneg i x)]
    exact hC x
  · simp only [hlp]
    refine r2.mul_bdd (c := 1) hw.measurable_pdet.aestronglyMeasurable (Eventually.of_forall fun x => ?_)
    rw [Real.norm_eq_abs, abs_of_nonneg (hw.pdet_nonneg x)]
    exact hw.pdet_le_one x

/-! ## Theorems -/

/-- **C100 (columns).**  The columns the analysis reads from the data are the quantities of an event, in the order in which the model takes them. -/
theorem C100_columns : eccColumns = eccentricQuantities := rfl

/-- **C100 (the population is there).**  Whenever the prior table gives a number for every hyper-parameter the analysis declares, at any values of the sampled
ones, it means exactly one population. -/
theorem C100_population_exists {params : Dict String (Guru.PVal XR)}
    (hnum : ∀ n ∈ eccModelParameters, ∃ x, Sage.meaning params [] (fun n => fin (value n)) n = some (some (fin x))) : ∃! E : Eccentric, E.Meant params value := by
  simp only [eccModelParameters, List.mem_cons, List.not_mem_nil, or_false, forall_eq_or_imp, forall_eq] at hnum
  obtain ⟨⟨a, ha⟩, ⟨b, hb⟩, ⟨c, hc⟩, ⟨d, hd⟩, ⟨e, he⟩, ⟨f, hf⟩, ⟨g, hg⟩, ⟨h, hh⟩⟩ := hnum
  refine ⟨⟨a, b, c, d, e, f, g, h⟩, ?_, fun E hE => ?_⟩
  · simp only [Eccentric.Meant, List.mem_cons, List.not_mem_nil, or_false, forall_eq_or_imp, forall_eq]
    exact ⟨ha, hb, hc, hd, he, hf, hg, hh⟩
  · simp only [Eccentric.Meant, List.mem_cons, List.not_mem_nil, or_false, forall_eq_or_imp, forall_eq, ha, hb, hc, hd, he, hf, hg, hh, Option.some.injEq, fin.injEq] at hE
    obtain ⟨h1, h2, h3, h4, h5, h6, h7, h8⟩ := hE
    cases E
    simp_all

/-- **C100 (the rate).**  The population is a non-negative density over the columns of the analysis, and the expected number of mergers is the exponential of
`log_rate`. -/
theorem C100_total_rate (hE : E.Proper) : (∀ x, 0 ≤ E.rate x) ∧ Integrable E.rate ∧ ∫ x, E.rate x = Real.exp E.logRate :=
  ⟨E.rate_nonneg hE, E.rate_integrable hE, E.integral_rate hE⟩

/-- **C100 (consistency).**  For every `ecc_matters` analysis: almost surely, as the numbers of posterior samples of the events and the number of injections
grow, the log density handed to the sampler at the values `value` converges to the exact log posterior of the population the prior table means at those values,
up to the evidences of the events.  The infinite densities of the code at events whose primary mass is the lowest mass do no harm. -/
theorem C100_consistent (hord : ∀ l, (ord l).Perm l) (horc : Jenks.OracleSorted orc) (hmean : Sage.Meaningful s.params) (hT : 0 < s.tObs)
    (hpt : Point s.params names value logPrior) (hme : E.Meant s.params value) (hE : E.Proper) (hw : World P volume L prior X pdet q Y)
    (hL : ∀ i, ∃ C, ∀ x, L i x ≤ C) (hpos : ∀ i, 0 < ∫ x, L i x * E.rate x) (hsam : ∀ i x, L i x * E.rate x ≠ 0 → 0 < prior i x)
    (hinj : ∀ x, E.rate x * pdet x ≠ 0 → 0 < q x) (k : Fin K → ℕ → ℕ) (hkt : ∀ i, Tendsto (k i) atTop atTop) (N : ℕ → ℕ) (hN : Tendsto N atTop atTop) :
    ∀ᵐ ω ∂P, ∀ r : ℕ → Sage.Analysis,
      (∀ n, Sage.run ord orc (observe (eccInputs s) row eccentricQuantities.length prior (fun i => (List.range (k i n)).map fun j => X i j ω)
        (injectionRate row pdet q Y s.tObs (N n) ω)) = .ok (r n)) →
      ∃ v : ℕ → ℝ, (∀ᶠ n in atTop, (r n).labels = names ∧ (r n).flowMC (names.map fun n => fin (value n)) = fin (v n)) ∧
        Tendsto v atTop (𝓝 (logPosterior L pdet s.tObs logPrior E.rate - ∑ i, Real.log (evidence volume (L i) (prior i)))) := by
  have hlp : ∀ x, expR (E.logRateAt x) = E.rate x := fun x => (logRateAt_spec hE x).2
  have key := Hierarchy.C89_consistent_almost_everywhere (inp := eccInputs s) hord horc hmean List.nodup_nil hT usual_measurable usual_ae hw (ecc_meets_at hE hme hpt)
    (ecc_meets_proper hE hw hL hpos) ⟨by simpa only [hlp] using hsam, by simpa only [hlp] using hinj⟩ eccentricQuantities.length k hkt N hN
  simp only [Hierarchy.exactLogPosterior, PoissonMean.expectedDetections, hlp] at key
  exact key

/-- **C100 (consistency, numpyro).**  The same for the log density of the model handed to numpyro, which validates the arguments of the population model. -/
theorem C100_consistent_numpyro (hord : ∀ l, (ord l).Perm l) (horc : Jenks.OracleSorted orc) (hmean : Sage.Meaningful s.params) (hT : 0 < s.tObs)
    (hpt : Point s.params names value logPrior) (hme : E.Meant s.params value) (hE : E.Proper) (hw : World P volume L prior X pdet q Y)
    (hL : ∀ i, ∃ C, ∀ x, L i x ≤ C) (hpos : ∀ i, 0 < ∫ x, L i x * E.rate x) (hsam : ∀ i x, L i x * E.rate x ≠ 0 → 0 < prior i x)
    (hinj : ∀ x, E.rate x * pdet x ≠ 0 → 0 < q x) (big : ℝ) (k : Fin K → ℕ → ℕ) (hkt : ∀ i, Tendsto (k i) atTop atTop) (N : ℕ → ℕ)
    (hN : Tendsto N atTop atTop) :
    ∀ᵐ ω ∂P, ∀ r : ℕ → Sage.Analysis,
      (∀ n, Sage.run ord orc (observe (eccInputs s) row eccentricQuantities.length prior (fun i => (List.range (k i n)).map fun j => X i j ω)
        (injectionRate row pdet q Y s.tObs (N n) ω)) = .ok (r n)) →
      ∃ v : ℕ → ℝ, (∀ᶠ n in atTop, (r n).labels = names ∧ (r n).numpyro big (names.map fun n => fin (value n)) = some (fin (v n))) ∧
        Tendsto v atTop (𝓝 (logPosterior L pdet s.tObs logPrior E.rate - ∑ i, Real.log (evidence volume (L i) (prior i)))) := by
  have hlp : ∀ x, expR (E.logRateAt x) = E.rate x := fun x => (logRateAt_spec hE x).2
  have key := Hierarchy.C89_consistent_numpyro_almost_everywhere (inp := eccInputs s) hord horc hmean List.nodup_nil hT usual_measurable usual_ae hw
    (ecc_meets_at hE hme hpt) (fun x hx => ecc_meets_model hE hme (some true) hx) (ecc_meets_proper hE hw hL hpos)
    ⟨by simpa only [hlp] using hsam, by simpa only [hlp] using hinj⟩ eccentricQuantities.length big k hkt N hN
  simp only [Hierarchy.exactLogPosterior, PoissonMean.expectedDetections, hlp] at key
  exact key

/-- **C100 (no bias).**  For any numbers of posterior samples, at least one for each event: when the expected number `μ` is known, the density handed to the
sampler has exactly the right mean over all sets of posterior samples. -/
theorem C100_unbiased (hord : ∀ l, (ord l).Perm l) (horc : Jenks.OracleSorted orc) (hmean : Sage.Meaningful s.params) (hT : 0 < s.tObs)
    (hpt : Point s.params names value logPrior) (hme : E.Meant s.params value) (hE : E.Proper) (hw : World P volume L prior X pdet q Y)
    (hL : ∀ i, ∃ C, ∀ x, L i x ≤ C) (hpos : ∀ i, 0 < ∫ x, L i x * E.rate x) (hsam : ∀ i x, L i x * E.rate x ≠ 0 → 0 < prior i x)
    (k : Fin K → ℕ) (hk1 : ∀ i, 1 ≤ k i) (μ : ℝ) (r : Ω → Sage.Analysis)
    (hr : ∀ ω, Sage.run ord orc (observe (eccInputs s) row eccentricQuantities.length prior (fun i => (List.range (k i)).map fun j => X i j ω) fun _ => fin μ) = .ok (r ω)) :
    Integrable (fun ω => expR ((r ω).flowMC (names.map fun n => fin (value n)))) P ∧
    ∫ ω, expR ((r ω).flowMC (names.map fun n => fin (value n))) ∂P =
      Real.exp logPrior * (∏ i, s.tObs * (∫ x, L i x * E.rate x) / evidence volume (L i) (prior i)) * Real.exp (-μ) := by
  have hlp : ∀ x, expR (E.logRateAt x) = E.rate x := fun x => (logRateAt_spec hE x).2
  have key := Hierarchy.C89_unbiased_almost_everywhere (inp := eccInputs s) hord horc hmean List.nodup_nil hT usual_measurable usual_ae hw (ecc_meets_at hE hme hpt)
    (ecc_meets_proper hE hw hL hpos) (by simpa only [hlp] using hsam) eccentricQuantities.length k hk1 (fun _ => fin μ) μ rfl r hr
  simp only [hlp] at key
  exact key

/-- **C100 (Gaussian events).**  For every `ecc_matters` analysis of Gaussian events, whatever the proposals and the numbers of batches: almost surely, as the
numbers of draws and of injections grow, the log density handed to the sampler converges to the exact log posterior of the population, where the likelihood of an
event is the normal density with its mean and covariance. -/
theorem C100_gaussian_events {s : Hybrids.MonkSettings eccentricQuantities.length} {chol : Matrix (Fin eccentricQuantities.length) (Fin eccentricQuantities.length) ℝ → Matrix _ _ ℝ}
    {evs : List (Event eccentricQuantities × Matrix (Fin eccentricQuantities.length) (Fin eccentricQuantities.length) ℝ)} {Z : Key → ℕ → Ω → Event eccentricQuantities}
    (hord : ∀ l, (ord l).Perm l) (hchol : Analytic.IsCholesky chol) (hmean : Sage.Meaningful s.params) (hT : 0 < s.tObs) (hsteps : 1 ≤ s.nMaxSteps)
    (hpt : Point s.params names value logPrior) (hme : E.Meant s.params value) (hE : E.Proper) (hfile : Monk.FileHolds s.filename s.file evs)
    (hS : ∀ e ∈ evs, e.2.PosDef) (hH : ∀ e ∈ evs, ∀ kw, (s.hess kw e.1).transpose = s.hess kw e.1) (hpos : ∀ e ∈ evs, 0 < ∫ x, gauss e.1 e.2 x * E.rate x)
    (hZ : Monk.Normals P Z) (k : ℕ → ℕ) (hkt : Tendsto k atTop atTop) (hY : PoissonMean.Campaign P volume q Y) (hq : Measurable q) (hq0 : ∀ x, 0 ≤ q x)
    (hpd : Measurable pdet) (hp0 : ∀ x, 0 ≤ pdet x) (hp1 : ∀ x, pdet x ≤ 1) (hinj : ∀ x, E.rate x * pdet x ≠ 0 → 0 < q x) (N : ℕ → ℕ)
    (hN : Tendsto N atTop atTop) :
    ∀ᵐ ω ∂P, ∀ r : ℕ → Monk.Analysis,
      (∀ i, Monk.run ord chol (Monk.firstDraws Z (k i) ω)
        { eccMonkInputs s with nSamples := k i, rate := Monk.injectionRate (eccMonkInputs s) pdet q Y (N i) ω } = .ok (r i)) →
      ∃ v : ℕ → ℝ, (∀ᶠ i in atTop, (r i).labels = names ∧ (r i).logpdf (names.map fun n => fin (value n)) = fin (v i)) ∧
        Tendsto v atTop (𝓝 (logPosterior (fun i : Fin evs.length => gauss evs[i].1 evs[i].2) pdet s.tObs logPrior E.rate)) := by
  have hlp : ∀ x, expR (E.logRateAt x) = E.rate x := fun x => (logRateAt_spec hE x).2
  have r2 := E.rate_integrable hE
  have hpop : ∀ᵐ x, Monk.population (eccMonkInputs s) value x = E.logRateAt x := by
    filter_upwards [usual_ae (E := E)] with x hx
    obtain ⟨h1, h2⟩ := ecc_value (validation := s.validation) (feasible := s.feasible) hE hme none hx
    obtain ⟨h3, h4⟩ := logRateAt_spec hE x
    exact expR_injective h1 h3 (h2.trans h4.symm)
  have hprop : Monk.Proper E.logRateAt evs := by
    refine ⟨fun x => (logRateAt_spec hE x).1, by simpa only [hlp] using E.rate_measurable, fun e he => ?_, fun e he => ?_⟩
    · simp only [hlp]
      refine r2.mul_bdd (c := 1 / (Real.sqrt (2 * Real.pi) ^ eccentricQuantities.length * Real.sqrt e.2.det)) (gauss_measurable e.1 e.2).aestronglyMeasurable (Eventually.of_forall fun x => ?_)
      rw [Real.norm_eq_abs, abs_of_nonneg (gauss_bounds e.1 (hS e he) x).1]
      exact (gauss_bounds e.1 (hS e he) x).2
    · simpa only [hlp, mul_comm] using hpos e he
  have key := Monk.C92_consistent_injections_almost_everywhere (inp := eccMonkInputs s) hord hchol hmean List.nodup_nil hsteps hT hfile hS
    ⟨hpt.nodup, hpt.sorted, hpt.columns, hpt.inside, hpt.prior⟩ hpop hprop (fun e he => hH e he _) hZ k hkt hY hq hq0 hpd hp0 hp1
    (by simpa only [hlp] using hinj) (by
      simp only [hlp]
      refine r2.mul_bdd (c := 1) hpd.aestronglyMeasurable (Eventually.of_forall fun x => ?_)
      rw [Real.norm_eq_abs, abs_of_nonneg (hp0 x)]
      exact hp1 x) N hN
  simp only [Monk.exactLogPosterior_eq, hlp] at key
  simp only [logPosterior, mul_comm (gauss _ _ _)]
  exact key

/-! ## Example -/

/-- The log rate is sampled, the rest is fixed. -/
def eccTable : Dict String (Guru.PVal XR) :=
  [("log_rate", .dist Sage.exA), ("alpha_m", .num 2), ("mmin", .num 5), ("mmax", .num 50), ("loc", .num 0), ("scale", .num 1), ("low", .num 0), ("high", .num 1)]

def eccSettings : Settings := { someSettings with params := eccTable }

theorem eccTable_mem {n : String} {v : Guru.PVal XR} (h : (n, v) ∈ eccTable) : (n, v) = ("log_rate", .dist Sage.exA) ∨ ∃ q, v = .num q := by
  simp only [eccTable, List.mem_cons, List.not_mem_nil, or_false, Prod.mk.injEq] at h
  rcases h with h | h | h | h | h | h | h | h
  · exact Or.inl (by rw [h.1, h.2])
  all_goals exact Or.inr ⟨_, h.2⟩

theorem eccTable_meaningful : Sage.Meaningful eccTable where
  nodup := by decide +kernel
  dist := by
    intro n b h
    rcases eccTable_mem h with h | ⟨q, h⟩ <;> simp at h
    obtain ⟨-, rfl⟩ := h
    exact ⟨rfl, fun _ => trivial⟩
  lazy := by
    intro n ip f a h kw
    rcases eccTable_mem h with h | ⟨q, h⟩ <;> simp at h
  deps := by
    intro n ip f a h
    rcases eccTable_mem h with h | ⟨q, h⟩ <;> simp at h
  aliases := by
    intro n t h
    rcases eccTable_mem h with h | ⟨q, h⟩ <;> simp at h

theorem eccPoint : Point eccTable ["log_rate"] someValue 0 where
  nodup := by decide +kernel
  sorted := by simp
  columns := by
    intro n
    simp only [List.mem_singleton, Sage.Sampled]
    constructor
    · rintro rfl
      exact Or.inl ⟨Sage.exA, by simp [eccTable]⟩
    · rintro (⟨b, hb⟩ | ⟨ip, f, a, hb⟩)
      · rcases eccTable_mem hb with h | ⟨q, h⟩ <;> simp at h
        exact h.1
      · rcases eccTable_mem hb with h | ⟨q, h⟩ <;> simp at h
  inside := by
    intro n hn
    simp only [List.mem_singleton] at hn
    subst hn
    simp [Sage.inPrior, Sage.priorOf, eccTable, get?, Sage.exA, someValue]
    norm_num
  prior := by
    rw [XR.sum_eq]
    simp [Sage.logPriorOf, Sage.priorOf, eccTable, get?, Sage.exA, someValue]

def eccPopulation : Eccentric := ⟨1 / 2, 2, 5, 50, 0, 1, 0, 1⟩

theorem eccMeant : eccPopulation.Meant eccTable someValue := by
  simp only [Eccentric.Meant, List.mem_cons, List.not_mem_nil, or_false, forall_eq_or_imp, forall_eq, eccPopulation]
  refine ⟨?_, ?_, ?_, ?_, ?_, ?_, ?_, ?_⟩ <;> simp [Sage.meaning, eccTable, get?, Sage.direct, someValue]

theorem eccProper : eccPopulation.Proper := by norm_num [Eccentric.Proper, eccPopulation]

/-- Uniform on the cube from 0 to 100. -/
def cube (x : Event eccentricQuantities) : ℝ := ∏ i, (Set.Icc (0 : ℝ) 100).indicator (fun _ => 1 / 100) (x i)

theorem cube_measurable : Measurable cube :=
  Finset.measurable_fun_prod _ fun i _ => (measurable_const.indicator measurableSet_Icc).comp (measurable_pi_apply i)

theorem cube_nonneg (x) : 0 ≤ cube x := Finset.prod_nonneg fun i _ => Set.indicator_nonneg (fun _ _ => by norm_num) _

theorem cube_integral : ∫ x, cube x = 1 := by
  unfold cube
  rw [integral_fintype_prod_volume_eq_prod (f := fun _ : Fin eccentricQuantities.length => (Set.Icc (0 : ℝ) 100).indicator fun _ => (1 / 100 : ℝ))]
  refine Finset.prod_eq_one fun i _ => ?_
  rw [integral_indicator measurableSet_Icc]
  simp

theorem cube_pos {x : Event eccentricQuantities} (h : eccPopulation.rate x ≠ 0) : 0 < cube x := by
  have h1 := left_ne_zero_of_mul (right_ne_zero_of_mul h)
  have h2 := right_ne_zero_of_mul (right_ne_zero_of_mul h)
  unfold wysockiDensity at h1
  rw [ite_ne_right_iff] at h1
  obtain ⟨a1, a2, a3⟩ := h1.1
  obtain ⟨b1, b2⟩ : quantity x "eccentricity" ∈ Set.Icc eccPopulation.low eccPopulation.high := by
    by_contra hn
    exact h2 (Hybrids.restrictedNormal_out hn)
  simp only [eccPopulation] at a1 a2 a3 b1 b2
  have e0 : quantity x "mass_1_source" = x ⟨0, by decide⟩ := rfl
  have e1 : quantity x "mass_2_source" = x ⟨1, by decide⟩ := rfl
  have e2 : quantity x "eccentricity" = x ⟨2, by decide⟩ := rfl
  rw [e0] at a2 a3
  rw [e1] at a1 a2
  rw [e2] at b1 b2
  refine Finset.prod_pos fun i _ => ?_
  have : x i ∈ Set.Icc (0 : ℝ) 100 := by
    have hi : i = ⟨0, by decide⟩ ∨ i = ⟨1, by decide⟩ ∨ i = ⟨2, by decide⟩ := by
      obtain ⟨i, hi⟩ := i
      have : i < 3 := hi
      interval_cases i <;> simp
    rcases hi with rfl | rfl | rfl <;> constructor <;> linarith
  rw [Set.indicator_of_mem this]
  norm_num

/-- The draws of the example: independent, uniform on the cube. -/
abbrev CubeDraws : Type := ℕ → Event eccentricQuantities × ℝ

def cubeLaw : Measure (Event eccentricQuantities) := volume.withDensity fun x => ENNReal.ofReal (cube x)

theorem cubeLaw_probability : IsProbabilityMeasure cubeLaw := by
  refine ⟨?_⟩
  rw [cubeLaw, withDensity_apply _ MeasurableSet.univ, Measure.restrict_univ, ← ofReal_integral_eq_lintegral_ofReal ?_ (Eventually.of_forall cube_nonneg),
    cube_integral, ENNReal.ofReal_one]
  refine Integrable.of_integral_ne_zero ?_
  rw [cube_integral]
  exact one_ne_zero

attribute [local instance] cubeLaw_probability unit_probability

def cubeWorldMeasure : Measure CubeDraws := Measure.infinitePi fun _ => cubeLaw.prod PoissonMean.unit

theorem cube_evidence : evidence volume (fun _ : Event eccentricQuantities => 1) cube = 1 := by
  simp [evidence, cube_integral]

/-- One event whose data say nothing, half of all mergers detected. -/
theorem cubeWorld : World cubeWorldMeasure volume (fun _ _ => 1) (fun _ => cube) (fun (_ : Fin 1) j (ω : CubeDraws) => (ω j).1) (fun _ => 1 / 2) cube (fun i ω => ω i) := by
  have hpm : IsProbabilityMeasure cubeWorldMeasure := by
    unfold cubeWorldMeasure
    infer_instance
  have hind : iIndepFun (fun (i : ℕ) (ω : CubeDraws) => ω i) cubeWorldMeasure :=
    iIndepFun_infinitePi (P := fun _ : ℕ => cubeLaw.prod PoissonMean.unit) (X := fun _ x => x) (fun _ => measurable_id)
  refine ⟨⟨fun i j => measurable_fst.comp (measurable_pi_apply j), fun i j => ?_, fun i => hind.comp (fun _ => Prod.fst) fun _ => measurable_fst,
    iIndepFun.of_subsingleton⟩, ⟨fun i => measurable_pi_apply i, fun i => ?_, hind⟩, fun _ => measurable_const, fun _ _ => zero_le_one,
    fun _ => cube_measurable, fun _ => cube_nonneg, fun _ => by rw [cube_evidence]; exact one_pos, cube_measurable, cube_nonneg, measurable_const,
    by intro x; norm_num, by intro x; norm_num⟩
  · have : (fun ω : CubeDraws => (ω j).1) = Prod.fst ∘ fun ω => ω j := rfl
    rw [this, ← Measure.map_map measurable_fst (measurable_pi_apply j),
      show cubeWorldMeasure.map (fun ω => ω j) = cubeLaw.prod PoissonMean.unit from Measure.infinitePi_map_eval _ j, cube_evidence]
    rw [Measure.map_fst_prod]
    simp [cubeLaw]
  · exact Measure.infinitePi_map_eval _ i

/-- The analysis runs on one event with any number of samples. -/
theorem eccRuns (prior : Fin 1 → Event eccentricQuantities → ℝ) (xs : Fin 1 → List (Event eccentricQuantities)) (rate : Likelihood.Model FRow → XR) :
    ∃ r, Sage.run id Jenks.exOracle (observe (eccInputs eccSettings) row eccentricQuantities.length prior xs rate) = .ok r := by
  have hs : ∃ s, Guru.setup id eccTable [] = .ok s := ⟨_, rfl⟩
  obtain ⟨s, hs⟩ := hs
  set inp := observe (eccInputs eccSettings) row eccentricQuantities.length prior xs rate with hinp
  have : ∃ c bs, Likelihood.readData Jenks.exOracle inp.data inp.refs (some 1) 3 = .ok (c, bs) := by
    unfold Likelihood.readData
    rw [if_neg (by simp [hinp, observe])]
    have : ∃ a b m, Jenks.padAndStack Jenks.exOracle (fun w => List.replicate w (0 : XR)) [inp.data, inp.refs] (some 1) 3 = .ok ([a, b], m) := by
      rw [Jenks.padAndStack, if_neg (by norm_num)]
      exact ⟨_, _, _, rfl⟩
    obtain ⟨a, b, m, h⟩ := this
    rw [h]
    exact ⟨_, _, rfl⟩
  obtain ⟨c, bs, hd⟩ := this
  refine (Sage.C82_stops_iff (inp := inp) (fun l => List.Perm.refl l) eccTable_meaningful List.nodup_nil s hs c bs hd).2 ?_
  rintro ⟨n, hn, h⟩
  exact absurd (show n ∈ keys ([] : Dict String (Option ℚ)) from hn) (by simp [keys])

/-- All conditions of the theorems hold for the example, which runs on any number of samples. -/
example (big : ℝ) :
    (∀ᵐ ω ∂cubeWorldMeasure, ∃ r : ℕ → Sage.Analysis, ∃ v v' : ℕ → ℝ,
      (∀ᶠ n in atTop, (r n).flowMC [fin (1 / 2)] = fin (v n) ∧ (r n).numpyro big [fin (1 / 2)] = some (fin (v' n))) ∧
      Tendsto v atTop (𝓝 (Real.log (2 * Real.exp (1 / 2)) - Real.exp (1 / 2))) ∧ Tendsto v' atTop (𝓝 (Real.log (2 * Real.exp (1 / 2)) - Real.exp (1 / 2)))) ∧
    ∃ r : CubeDraws → Sage.Analysis, ∫ ω, expR ((r ω).flowMC [fin (1 / 2)]) ∂cubeWorldMeasure = 2 * Real.exp (1 / 2) * Real.exp (-7) := by
  have htot : ∫ x, eccPopulation.rate x = Real.exp (1 / 2) := (C100_total_rate eccProper).2.2
  have hlim : logPosterior (fun (_ : Fin 1) (_ : Event eccentricQuantities) => (1 : ℝ)) (fun _ => 1 / 2) 2 0 eccPopulation.rate - ∑ _i : Fin 1, Real.log 1 =
      Real.log (2 * Real.exp (1 / 2)) - Real.exp (1 / 2) := by
    simp only [logPosterior, one_mul, integral_mul_const, htot]
    simp
    ring
  have hpos : ∀ i : Fin 1, 0 < ∫ x : Event eccentricQuantities, (fun (_ : Fin 1) (_ : Event eccentricQuantities) => (1 : ℝ)) i x * eccPopulation.rate x := fun _ => by
    simp only [one_mul, htot]
    exact Real.exp_pos _
  constructor
  · filter_upwards [C100_consistent (ord := id) (s := eccSettings) (fun l => List.Perm.refl l) Jenks.exOracle_sorted eccTable_meaningful
        (by norm_num [eccSettings, someSettings]) eccPoint eccMeant eccProper cubeWorld (fun _ => ⟨1, fun _ => le_rfl⟩) hpos
        (fun _ x h => cube_pos (right_ne_zero_of_mul h)) (fun x h => cube_pos (left_ne_zero_of_mul h)) (fun _ n => n) (fun _ => tendsto_id) (fun n => n) tendsto_id,
      C100_consistent_numpyro (ord := id) (s := eccSettings) (fun l => List.Perm.refl l) Jenks.exOracle_sorted eccTable_meaningful
        (by norm_num [eccSettings, someSettings]) eccPoint eccMeant eccProper cubeWorld (fun _ => ⟨1, fun _ => le_rfl⟩) hpos
        (fun _ x h => cube_pos (right_ne_zero_of_mul h)) (fun x h => cube_pos (left_ne_zero_of_mul h)) big (fun _ n => n) (fun _ => tendsto_id) (fun n => n) tendsto_id]
      with ω hω hω'
    choose r hr using fun n : ℕ => eccRuns (fun _ => cube) (fun _ => (List.range n).map fun j => (ω j).1)
      (injectionRate row (fun _ => 1 / 2) cube (fun i (ω : CubeDraws) => ω i) 2 n ω)
    obtain ⟨v, hv, hl⟩ := hω r hr
    obtain ⟨v', hv', hl'⟩ := hω' r hr
    simp only [cube_evidence] at hl hl'
    refine ⟨r, v, v', (hv.and hv').mono fun n h => ⟨by simpa only [List.map_cons, List.map_nil, someValue] using h.1.2,
      by simpa only [List.map_cons, List.map_nil, someValue] using h.2.2⟩, ?_, ?_⟩
    · rw [← hlim]
      exact hl
    · rw [← hlim]
      exact hl'
  · choose r hr using fun ω : CubeDraws => eccRuns (fun _ => cube) (fun _ => (List.range 3).map fun j => (ω j).1) fun _ => fin 7
    refine ⟨r, ?_⟩
    have key := (C100_unbiased (ord := id) (s := eccSettings) (fun l => List.Perm.refl l) Jenks.exOracle_sorted eccTable_meaningful
      (by norm_num [eccSettings, someSettings]) eccPoint eccMeant eccProper cubeWorld (fun _ => ⟨1, fun _ => le_rfl⟩) hpos
      (fun _ x h => cube_pos (right_ne_zero_of_mul h)) (fun _ => 3) (by simp) 7 r hr).2
    simp only [one_mul, cube_evidence, htot] at key
    simpa [eccSettings, someSettings, someValue] using key

/-- The table of the example means exactly one population. -/
example : ∃! E : Eccentric, E.Meant eccTable someValue := by
  refine C100_population_exists ?_
  have := eccMeant
  simp only [Eccentric.Meant, List.mem_cons, List.not_mem_nil, or_false, forall_eq_or_imp, forall_eq] at this
  obtain ⟨h1, h2, h3, h4, h5, h6, h7, h8⟩ := this
  simp only [eccModelParameters, List.mem_cons, List.not_mem_nil, or_false, forall_eq_or_imp, forall_eq]
  exact ⟨⟨_, h1⟩, ⟨_, h2⟩, ⟨_, h3⟩, ⟨_, h4⟩, ⟨_, h5⟩, ⟨_, h6⟩, ⟨_, h7⟩, ⟨_, h8⟩⟩

/-! ## Example with a Gaussian event -/

def eccMonk : Hybrids.MonkSettings eccentricQuantities.length where
  params := eccTable
  cosmology := Cosmo.planck2015
  big := 1
  validation := true
  feasible := fun _ _ => []
  grad := fun _ _ => 0
  hess := fun _ _ => 0
  filename := "events.hdf5"
  file := [("event_0", ⟨some [fin 30, fin 20, fin 0], some [[fin 1, fin 0, fin 0], [fin 0, fin 1, fin 0], [fin 0, fin 0, fin 1]]⟩)]
  tObs := 2
  seed := 37
  minErr := 1 / 100
  nMaxSteps := 20

/-- Masses 30 and 20, no eccentricity, with unit errors. -/
def eccEvents : List (Event eccentricQuantities × Matrix (Fin eccentricQuantities.length) (Fin eccentricQuantities.length) ℝ) :=
  [(fun i => if i.1 = 0 then 30 else if i.1 = 1 then 20 else 0, 1)]

theorem eccFile : Monk.FileHolds eccMonk.filename eccMonk.file eccEvents := by
  refine ⟨Or.inl (by change ".hdf5".toList <:+ "events.hdf5".toList; decide +kernel), ?_⟩
  have : (eccMonk.file.filter fun kg => "event_".toList.isPrefixOf kg.1.toList) = eccMonk.file := rfl
  rw [this]
  refine .cons ⟨?_, ?_⟩ .nil
  · change some _ = some (List.ofFn fun i : Fin 3 => fin (if i.1 = 0 then 30 else if i.1 = 1 then 20 else 0))
    simp [List.ofFn_succ]
  · change some _ = some (List.ofFn fun i : Fin 3 => List.ofFn fun j : Fin 3 => fin ((1 : Matrix (Fin 3) (Fin 3) ℝ) i j))
    simp [List.ofFn_succ, Matrix.one_apply]

theorem eccEvents_posDef : ∀ e ∈ eccEvents, e.2.PosDef := by
  intro e he
  simp only [eccEvents, List.mem_singleton] at he
  subst he
  exact Matrix.PosDef.one

theorem eccMonk_runs (chol : Matrix (Fin eccentricQuantities.length) (Fin eccentricQuantities.length) ℝ → Matrix _ _ ℝ) (normals : Key → List (Event eccentricQuantities)) (k : ℕ)
    (rate : _) : ∃ r, Monk.run id chol normals { eccMonkInputs eccMonk with nSamples := k, rate := rate } = .ok r := by
  obtain ⟨s, hs⟩ : ∃ s, Guru.setup id eccTable [] = .ok s := ⟨_, rfl⟩
  refine (Monk.C83_stops_iff (inp := { eccMonkInputs eccMonk with nSamples := k, rate := rate }) (fun l => List.Perm.refl l) eccTable_meaningful
    List.nodup_nil s hs eccEvents eccFile).2.2 (by simp [eccEvents]) ?_
  rintro ⟨n, hn, h⟩
  exact absurd (show n ∈ keys ([] : Dict String (Option ℚ)) from hn) (by simp [keys])

theorem eccGauss_pos {e : _} (he : e ∈ eccEvents) (x : Event eccentricQuantities) : 0 < gauss e.1 e.2 x := by
  have hd : 0 < Real.sqrt (2 * Real.pi) ^ eccentricQuantities.length * Real.sqrt e.2.det :=
    mul_pos (pow_pos (Real.sqrt_pos.2 (by positivity)) _) (Real.sqrt_pos.2 (eccEvents_posDef e he).det_pos)
  exact div_pos (Real.exp_pos _) hd

theorem eccOverlap_pos : ∀ e ∈ eccEvents, 0 < ∫ x, gauss e.1 e.2 x * eccPopulation.rate x := by
  intro e he
  obtain ⟨r3, r2, r4⟩ := C100_total_rate eccProper
  have hi := r2.bdd_mul (c := 1 / (Real.sqrt (2 * Real.pi) ^ eccentricQuantities.length * Real.sqrt e.2.det)) (gauss_measurable e.1 e.2).aestronglyMeasurable
    (Eventually.of_forall fun x => by
      rw [Real.norm_eq_abs, abs_of_nonneg (gauss_bounds e.1 (eccEvents_posDef e he) x).1]
      exact (gauss_bounds e.1 (eccEvents_posDef e he) x).2)
  rw [integral_pos_iff_support_of_nonneg (fun x => mul_nonneg (eccGauss_pos he x).le (r3 x)) hi]
  have hs : (Function.support fun x => gauss e.1 e.2 x * eccPopulation.rate x) = Function.support eccPopulation.rate := by
    ext x
    simp [(eccGauss_pos he x).ne']
  rw [hs, ← integral_pos_iff_support_of_nonneg r3 r2, r4]
  exact Real.exp_pos _

/-- All conditions of `C100_gaussian_events` hold for an analysis of that event with any number of draws and injections. -/
example : ∃ (Ω : Type) (_ : MeasurableSpace Ω) (P : Measure Ω), IsProbabilityMeasure P ∧
    ∀ᵐ _ ∂P, ∃ r : ℕ → Monk.Analysis, ∃ v : ℕ → ℝ, (∀ᶠ n in atTop, (r n).labels = ["log_rate"] ∧ (r n).logpdf [fin (1 / 2)] = fin (v n)) ∧
      Tendsto v atTop (𝓝 (logPosterior (fun i : Fin eccEvents.length => gauss eccEvents[i].1 eccEvents[i].2) (fun _ => 1 / 2) 2 0 eccPopulation.rate)) := by
  have hn := Monk.normals_exist (d := eccentricQuantities.length)
  have := hn.keys.isProbabilityMeasure
  obtain ⟨chol, hc⟩ := Analytic.exists_cholesky eccentricQuantities.length
  have hpm : IsProbabilityMeasure cubeWorldMeasure := by
    unfold cubeWorldMeasure
    infer_instance
  have h1 : MeasurePreserving Prod.fst ((Monk.normalSpace eccentricQuantities.length).prod cubeWorldMeasure) (Monk.normalSpace eccentricQuantities.length) := measurePreserving_fst
  have h2 : MeasurePreserving Prod.snd ((Monk.normalSpace eccentricQuantities.length).prod cubeWorldMeasure) cubeWorldMeasure := measurePreserving_snd
  refine ⟨_, _, (Monk.normalSpace eccentricQuantities.length).prod cubeWorldMeasure, inferInstance, ?_⟩
  have hcamp : PoissonMean.Campaign ((Monk.normalSpace eccentricQuantities.length).prod cubeWorldMeasure) volume cube
      fun i (ω : (Key → ℕ → Event eccentricQuantities) × CubeDraws) => ω.2 i := by
    refine ⟨fun i => (measurable_pi_apply i).comp measurable_snd, fun i => ?_,
      Monk.indep_lift (X := fun (i : ℕ) (ω : CubeDraws) => ω i) (fun i => measurable_pi_apply i) (iIndepFun_infinitePi (X := fun _ x => x) (fun _ => measurable_id)) h2⟩
    have : (fun ω : (Key → ℕ → Event eccentricQuantities) × CubeDraws => ω.2 i) = (fun f => f i) ∘ Prod.snd := rfl
    rw [this, ← Measure.map_map (measurable_pi_apply i) measurable_snd, h2.map_eq]
    exact Measure.infinitePi_map_eval _ i
  filter_upwards [C100_gaussian_events (ord := id) (s := eccMonk) (pdet := fun _ => 1 / 2) (fun l => List.Perm.refl l) hc eccTable_meaningful
    (by norm_num [eccMonk]) (by norm_num [eccMonk]) eccPoint eccMeant eccProper eccFile eccEvents_posDef (fun _ _ _ => by simp [eccMonk]) eccOverlap_pos
    (Monk.normals_lift hn h1) (fun n => n) tendsto_id hcamp cube_measurable cube_nonneg measurable_const
    (fun _ => by norm_num) (fun _ => by norm_num) (fun x h => cube_pos (left_ne_zero_of_mul h)) (fun n => n) tendsto_id] with ω hω
  choose r hr using fun n : ℕ => eccMonk_runs chol (Monk.firstDraws (fun k t (ω : (Key → ℕ → Event eccentricQuantities) × CubeDraws) => ω.1 k t) n ω) n
    (Monk.injectionRate (eccMonkInputs eccMonk) (fun _ => 1 / 2) cube (fun i (ω : (Key → ℕ → Event eccentricQuantities) × CubeDraws) => ω.2 i) n ω)
  obtain ⟨v, h3, h4⟩ := hω r hr
  exact ⟨r, v, by simpa only [List.map_cons, List.map_nil, someValue] using h3, h4⟩

end
end GW.EndToEnd
