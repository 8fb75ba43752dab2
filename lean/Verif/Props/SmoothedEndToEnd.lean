import Verif.Props.EndToEnd
import Verif.Lemmas.SmoothedSage

/-! # C99: the smoothed analyses of discrete data estimate the exact posterior of the documented smoothed population -/

namespace GW.EndToEnd
open GW XR MeasureTheory ProbabilityTheory Filter Topology GW.PyDict GW.Hybrids
open GW.Likelihood (FRow)
open GW.Hierarchy (World observe injectionRate evidence)

noncomputable section
open Classical

variable {Ω : Type} [MeasurableSpace Ω] {K : ℕ} {P : Measure Ω} {a : Smoother} {s : Settings} {o : Flag → Bool} {Nb Ng : Nat} {dV : ℝ → ℝ}
  {L prior : Fin K → Event (smoothedColumns o) → ℝ} {X : Fin K → ℕ → Ω → Event (smoothedColumns o)} {pdet q : Event (smoothedColumns o) → ℝ}
  {Y : ℕ → Ω → Event (smoothedColumns o) × ℝ} {ord : List String → List String} {orc : Jenks.Oracle} {names : List String} {value : String → ℝ}
  {logPrior : ℝ} {m : Smoothed} {S : Smoothing} {Z : ℝ → ℝ} {laws : List (List Law)}

/-! ## Helpers -/

theorem smoothed_meets_at (hc : s.cosmology.Proper) (hV : IsVolume s.cosmology dV) (ho : Exclusive o) (hf : ∀ f, ¬ Offered f → o f = false) (hpk : ∀ ls ∈ laws, ∀ L ∈ ls, Peaked L)
    (hk : ∀ n ∈ keys s.params, n ∈ a.parameters o Nb Ng) (h : Describes a o Nb Ng (smoothedTold a s.params o Nb Ng value) m S) (hw0 : ∀ w ∈ m.weights, 0 ≤ w)
    (hl : HaveLaws m.components laws) (hp : ∀ ls ∈ laws, ∀ L ∈ ls, L.Proper) (hSp : S.Proper) (htot : 0 < S.massTotal (massMixture dV m.weights laws))
    (hZ : S.IsRatioTotal Z) (hpt : Point s.params names value logPrior) :
    ∃ lp : Event (smoothedColumns o) → XR, (∀ x, IsLog (lp x)) ∧ (∀ x, expR (lp x) = smoothedRate dV S Z m laws x) ∧
      Hierarchy.At (smoothedInputs a s o Nb Ng) row names value logPrior lp ∧
      ∀ x, ((smoothedInputs a s o Nb Ng).model (some true) (Sage.meaning s.params (smoothedExtra a o Nb Ng) fun n => fin (value n))).logProb (row x) = lp x := by
  have passes : ∀ fns, (smoothedInputs a s o Nb Ng).whereFns = some fns → ∀ f ∈ fns,
      f (Sage.meaning s.params (smoothedExtra a o Nb Ng) fun n => fin (value n)) = true := by
    intro fns hfns f hmem
    simp only [smoothedInputs] at hfns
    split_ifs at hfns with hb
    cases hfns
    rw [List.mem_singleton.1 hmem]
    exact check_passes hb h hl hp hpk
  have hm := smoothed_value (big := s.big) (validation := s.validation) (feasible := s.feasible) hc hV ho hf hpk hk h hw0 hl hp hSp htot hZ
  refine ⟨fun x => ((smoothedInputs a s o Nb Ng).model none (Sage.meaning s.params (smoothedExtra a o Nb Ng) fun n => fin (value n))).logProb (row x),
    fun x => (hm none x).1, fun x => (hm none x).2, ?_, fun x => ?_⟩
  · exact ⟨hpt.nodup, hpt.sorted, hpt.columns, hpt.inside, passes, hpt.prior, fun x => rfl⟩
  · exact expR_injective (hm (some true) x).1 (hm none x).1 ((hm (some true) x).2.trans (hm none x).2.symm)

theorem smoothed_meets_proper {c : Cosmo.Cosmology} (hc : c.Proper) (hV : IsVolume c dV) (ho : Exclusive o) {params : Dict String ℝ} (h : Describes a o Nb Ng params m S)
    (hw0 : ∀ w ∈ m.weights, 0 ≤ w) (hl : HaveLaws m.components laws) (hp : ∀ ls ∈ laws, ∀ L ∈ ls, L.Proper) (hSp : S.Proper)
    (htot : 0 < S.massTotal (massMixture dV m.weights laws)) (hZ : S.IsRatioTotal Z) (hw : World P volume L prior X pdet q Y) (hL : ∀ i, ∃ C, ∀ x, L i x ≤ C)
    (hpos : ∀ i, 0 < ∫ x, L i x * smoothedRate dV S Z m laws x) {lp : Event (smoothedColumns o) → XR} (hlog : ∀ x, IsLog (lp x))
    (hlp : ∀ x, expR (lp x) = smoothedRate dV S Z m laws x) : Hierarchy.Proper volume L pdet lp := by
  obtain ⟨r1, r2, r3⟩ := integrable_smoothedRate hc hV ho h hw0 hl hp hSp htot hZ
  refine ⟨hlog, by simpa only [hlp] using r1, fun i => ?_, ?_, fun i => by simpa only [hlp] using hpos i⟩
  · simp only [hlp]
    obtain ⟨C, hC⟩ := hL i
    refine r2.bdd_mul (c := C) (hw.measurable_L i).aestronglyMeasurable (Eventually.of_forall fun x => ?_)
    rw [Real.norm_eq_abs, abs_of_nonneg (hw.L_nonneg i x)]
    exact hC x
  · simp only [hlp]
    refine r2.mul_bdd (c := 1) hw.measurable_pdet.aestronglyMeasurable (Eventually.of_forall fun x => ?_)
    rw [Real.norm_eq_abs, abs_of_nonneg (hw.pdet_nonneg x)]
    exact hw.pdet_le_one x

/-! ## Theorems -/

/-- **C99 (hyper-parameters).**  The hyper-parameters the population is built from are exactly the numbers the prior table means, at the values of the sampled
ones, under the names the analysis declares. -/
theorem C99_hyperparameters (params : Dict String (Guru.PVal XR)) (n : String) (x : ℝ) :
    get? (smoothedTold a params o Nb Ng value) n = some x ↔
      n ∈ a.parameters o Nb Ng ∧ Sage.meaning params (smoothedExtra a o Nb Ng) (fun n => fin (value n)) n = some (some (fin x)) :=
  get?_hyperParameters _ _ n x

/-- **C99 (the population is there).**  Whenever the prior table gives a number for every hyper-parameter the analysis declares, at any values of the
sampled ones, there is a population, with one weight and one list of laws for each component and weights that add up to one. -/
theorem C99_population_exists {params : Dict String (Guru.PVal XR)} (hpos : 0 < Nb + Ng)
    (hnum : ∀ n ∈ a.parameters o Nb Ng, ∃ x, Sage.meaning params (smoothedExtra a o Nb Ng) (fun n => fin (value n)) n = some (some (fin x))) :
    ∃ m S laws, Describes a o Nb Ng (smoothedTold a params o Nb Ng value) m S ∧ HaveLaws m.components laws ∧ laws.length = Nb + Ng ∧
      m.weights.length = Nb + Ng ∧ m.weights.sum = 1 := by
  have hkeys : ∀ n ∈ a.parameters o Nb Ng, n ∈ keys (smoothedTold a params o Nb Ng value) := by
    intro n hn
    obtain ⟨x, hx⟩ := hnum n hn
    refine List.mem_map.2 ⟨(n, x), ?_, rfl⟩
    refine List.mem_filterMap.2 ⟨n, hn, ?_⟩
    rw [hx]
  generalize smoothedTold a params o Nb Ng value = told at hkeys
  have hget : ∀ n ∈ a.parameters o Nb Ng, ∃ x, get? told n = some x := by
    intro n hn
    cases hg : get? told n with
    | none => exact absurd (hkeys n hn) ((PyDict.get?_eq_none_iff _ _).1 hg)
    | some x => exact ⟨x, rfl⟩
  have key : ∃ m S, Describes a o Nb Ng told m S := by
    cases a with
    | o3 =>
      obtain ⟨m, hm⟩ := (C50_complete_priors_suffice o hpos told).2.2.1 hkeys
      have hn : ∀ n ∈ ["beta", "delta_m", "log_rate", "mmax", "mmin"], ∃ x, get? told n = some x := fun n hn => hget n (List.mem_append_left _ hn)
      obtain ⟨b, hb⟩ := hn "beta" (by simp)
      obtain ⟨d, hd⟩ := hn "delta_m" (by simp)
      obtain ⟨r, hr⟩ := hn "log_rate" (by simp)
      obtain ⟨h, hh⟩ := hn "mmax" (by simp)
      obtain ⟨l, hl⟩ := hn "mmin" (by simp)
      exact ⟨m, ⟨b, d, d, r, h, l, l⟩, hm, ⟨hb, hd, hd, hr, hh, hl, hl⟩⟩
    | o4 =>
      obtain ⟨m, hm⟩ := (C50_complete_priors_suffice o hpos told).2.2.2 hkeys
      have hn : ∀ n ∈ ["beta", "delta_m1", "delta_m2", "log_rate", "m1max", "m1min", "m2min"], ∃ x, get? told n = some x := fun n hn => hget n (List.mem_append_left _ hn)
      obtain ⟨b, hb⟩ := hn "beta" (by simp)
      obtain ⟨d1, hd1⟩ := hn "delta_m1" (by simp)
      obtain ⟨d2, hd2⟩ := hn "delta_m2" (by simp)
      obtain ⟨r, hr⟩ := hn "log_rate" (by simp)
      obtain ⟨h, hh⟩ := hn "m1max" (by simp)
      obtain ⟨l1, hl1⟩ := hn "m1min" (by simp)
      obtain ⟨l2, hl2⟩ := hn "m2min" (by simp)
      exact ⟨m, ⟨b, d1, d2, r, h, l1, l2⟩, hm, ⟨hb, hd1, hd2, hr, hh, hl1, hl2⟩⟩
  obtain ⟨m, S, hd⟩ := key
  obtain ⟨⟨laws, hl⟩, hrest⟩ := C96_laws hd.or
  obtain ⟨h1, h2, h3, -⟩ := hrest laws hl
  exact ⟨m, S, laws, hd, hl, h1, h2, h3⟩

/-- **C99 (the total of the mass ratio is there).**  For meaningful shared hyper-parameters the tabulated total of the mass ratio exists, and every two of
them agree at all primary masses between the bounds. -/
theorem C99_ratio_total (hSp : S.Proper) : (∃ Z, S.IsRatioTotal Z) ∧
    ∀ Z Z', S.IsRatioTotal Z → S.IsRatioTotal Z' → ∀ m, S.m1min ≤ m → m ≤ S.m1max → Z m = Z' m := by
  refine ⟨?_, fun Z Z' h h' m h1 h2 => by rw [h.eq hSp h1 h2, h'.eq hSp h1 h2]⟩
  obtain ⟨p1, p2, p3, p4, p5⟩ := hSp
  obtain ⟨Z, z1, z2, -⟩ := Mass.AndRest.zq_exists
    { restSupport := fun _ => true, restLogProb := fun _ => nan, beta := S.beta, delta1 := S.width1, delta2 := S.width2, logRate := S.logRate, logZ := nan,
      m1max := S.m1max, m1min := S.m1min, m2min := S.m2min, validate := true } p2 p3 p5
  exact ⟨Z, z1, z2⟩

/-- **C99 (a rate).**  The population of the analysis is a non-negative, integrable density over the columns of the analysis: the expected number of
mergers is finite, although the total of the mass ratio may be arbitrarily small. -/
theorem C99_rate_integrable {c : Cosmo.Cosmology} (hc : c.Proper) (hV : IsVolume c dV) (ho : Exclusive o) {params : Dict String ℝ}
    (h : Describes a o Nb Ng params m S) (hw0 : ∀ w ∈ m.weights, 0 ≤ w) (hl : HaveLaws m.components laws) (hp : ∀ ls ∈ laws, ∀ L ∈ ls, L.Proper)
    (hSp : S.Proper) (htot : 0 < S.massTotal (massMixture dV m.weights laws)) (hZ : S.IsRatioTotal Z) :
    Integrable (smoothedRate dV S Z m laws : Event (smoothedColumns o) → ℝ) ∧ ∀ x : Event (smoothedColumns o), 0 ≤ smoothedRate dV S Z m laws x :=
  (integrable_smoothedRate hc hV ho h hw0 hl hp hSp htot hZ).2

/-- **C99 (consistency).**  For every `o3_n_pls_m_gs` and `o4_n_bpls_m_gs` analysis whose beta laws of the spins, if any, have concentrations above one: almost surely, as the numbers of posterior samples of the events and the
number of injections grow, the log density handed to the sampler at the values `value` converges to the exact log posterior of the population whose
components, rates and laws the prior table means at those values, up to the evidences of the events. -/
theorem C99_consistent (hord : ∀ l, (ord l).Perm l) (horc : Jenks.OracleSorted orc) (hc : s.cosmology.Proper) (hV : IsVolume s.cosmology dV)
    (ho : Exclusive o) (hf : ∀ f, ¬ Offered f → o f = false) (hpk : ∀ ls ∈ laws, ∀ L ∈ ls, Peaked L) (hmean : Sage.Meaningful s.params) (hk : ∀ n ∈ keys s.params, n ∈ a.parameters o Nb Ng)
    (hT : 0 < s.tObs) (hpt : Point s.params names value logPrior)
    (h : Describes a o Nb Ng (smoothedTold a s.params o Nb Ng value) m S) (hw0 : ∀ w ∈ m.weights, 0 ≤ w) (hl : HaveLaws m.components laws)
    (hp : ∀ ls ∈ laws, ∀ L ∈ ls, L.Proper) (hSp : S.Proper) (htot : 0 < S.massTotal (massMixture dV m.weights laws)) (hZ : S.IsRatioTotal Z)
    (hw : World P volume L prior X pdet q Y) (hL : ∀ i, ∃ C, ∀ x, L i x ≤ C) (hpos : ∀ i, 0 < ∫ x, L i x * smoothedRate dV S Z m laws x)
    (hsam : ∀ i x, L i x * smoothedRate dV S Z m laws x ≠ 0 → 0 < prior i x) (hinj : ∀ x, smoothedRate dV S Z m laws x * pdet x ≠ 0 → 0 < q x)
    (k : Fin K → ℕ → ℕ) (hkt : ∀ i, Tendsto (k i) atTop atTop) (N : ℕ → ℕ) (hN : Tendsto N atTop atTop) :
    ∀ᵐ ω ∂P, ∀ r : ℕ → Sage.Analysis,
      (∀ n, Sage.run ord orc (observe (smoothedInputs a s o Nb Ng) row (smoothedColumns o).length prior (fun i => (List.range (k i n)).map fun j => X i j ω)
        (injectionRate row pdet q Y s.tObs (N n) ω)) = .ok (r n)) →
      ∃ v : ℕ → ℝ, (∀ᶠ n in atTop, (r n).labels = names ∧ (r n).flowMC (names.map fun n => fin (value n)) = fin (v n)) ∧
        Tendsto v atTop (𝓝 (logPosterior L pdet s.tObs logPrior (smoothedRate dV S Z m laws) - ∑ i, Real.log (evidence volume (L i) (prior i)))) := by
  obtain ⟨lp, hlog, hlp, hat, -⟩ := smoothed_meets_at hc hV ho hf hpk hk h hw0 hl hp hSp htot hZ hpt
  have key := Hierarchy.C89_consistent (inp := smoothedInputs a s o Nb Ng) hord horc hmean (smoothedExtra_nodup a o Nb Ng) hT hw hat
    (smoothed_meets_proper hc hV ho h hw0 hl hp hSp htot hZ hw hL hpos hlog hlp) ⟨by simpa only [hlp] using hsam, by simpa only [hlp] using hinj⟩ (smoothedColumns o).length k hkt N hN
  simp only [Hierarchy.exactLogPosterior, PoissonMean.expectedDetections, hlp] at key
  exact key

/-- **C99 (consistency, numpyro).**  The same for the log density of the model handed to numpyro, which validates the arguments of the population model. -/
theorem C99_consistent_numpyro (hord : ∀ l, (ord l).Perm l) (horc : Jenks.OracleSorted orc) (hc : s.cosmology.Proper) (hV : IsVolume s.cosmology dV)
    (ho : Exclusive o) (hf : ∀ f, ¬ Offered f → o f = false) (hpk : ∀ ls ∈ laws, ∀ L ∈ ls, Peaked L) (hmean : Sage.Meaningful s.params) (hk : ∀ n ∈ keys s.params, n ∈ a.parameters o Nb Ng)
    (hT : 0 < s.tObs) (hpt : Point s.params names value logPrior)
    (h : Describes a o Nb Ng (smoothedTold a s.params o Nb Ng value) m S) (hw0 : ∀ w ∈ m.weights, 0 ≤ w) (hl : HaveLaws m.components laws)
    (hp : ∀ ls ∈ laws, ∀ L ∈ ls, L.Proper) (hSp : S.Proper) (htot : 0 < S.massTotal (massMixture dV m.weights laws)) (hZ : S.IsRatioTotal Z)
    (hw : World P volume L prior X pdet q Y) (hL : ∀ i, ∃ C, ∀ x, L i x ≤ C) (hpos : ∀ i, 0 < ∫ x, L i x * smoothedRate dV S Z m laws x)
    (hsam : ∀ i x, L i x * smoothedRate dV S Z m laws x ≠ 0 → 0 < prior i x) (hinj : ∀ x, smoothedRate dV S Z m laws x * pdet x ≠ 0 → 0 < q x) (big : ℝ)
    (k : Fin K → ℕ → ℕ) (hkt : ∀ i, Tendsto (k i) atTop atTop) (N : ℕ → ℕ) (hN : Tendsto N atTop atTop) :
    ∀ᵐ ω ∂P, ∀ r : ℕ → Sage.Analysis,
      (∀ n, Sage.run ord orc (observe (smoothedInputs a s o Nb Ng) row (smoothedColumns o).length prior (fun i => (List.range (k i n)).map fun j => X i j ω)
        (injectionRate row pdet q Y s.tObs (N n) ω)) = .ok (r n)) →
      ∃ v : ℕ → ℝ, (∀ᶠ n in atTop, (r n).labels = names ∧ (r n).numpyro big (names.map fun n => fin (value n)) = some (fin (v n))) ∧
        Tendsto v atTop (𝓝 (logPosterior L pdet s.tObs logPrior (smoothedRate dV S Z m laws) - ∑ i, Real.log (evidence volume (L i) (prior i)))) := by
  obtain ⟨lp, hlog, hlp, hat, hmod⟩ := smoothed_meets_at hc hV ho hf hpk hk h hw0 hl hp hSp htot hZ hpt
  have key := Hierarchy.C89_consistent_numpyro (inp := smoothedInputs a s o Nb Ng) hord horc hmean (smoothedExtra_nodup a o Nb Ng) hT hw hat hmod
    (smoothed_meets_proper hc hV ho h hw0 hl hp hSp htot hZ hw hL hpos hlog hlp) ⟨by simpa only [hlp] using hsam, by simpa only [hlp] using hinj⟩ (smoothedColumns o).length big k hkt N hN
  simp only [Hierarchy.exactLogPosterior, PoissonMean.expectedDetections, hlp] at key
  exact key

/-- **C99 (no bias).**  For any numbers of posterior samples, at least one for each event: when the expected number `μ` is known, the density handed to the
sampler has exactly the right mean over all sets of posterior samples. -/
theorem C99_unbiased (hord : ∀ l, (ord l).Perm l) (horc : Jenks.OracleSorted orc) (hc : s.cosmology.Proper) (hV : IsVolume s.cosmology dV)
    (ho : Exclusive o) (hf : ∀ f, ¬ Offered f → o f = false) (hpk : ∀ ls ∈ laws, ∀ L ∈ ls, Peaked L) (hmean : Sage.Meaningful s.params) (hk : ∀ n ∈ keys s.params, n ∈ a.parameters o Nb Ng)
    (hT : 0 < s.tObs) (hpt : Point s.params names value logPrior)
    (h : Describes a o Nb Ng (smoothedTold a s.params o Nb Ng value) m S) (hw0 : ∀ w ∈ m.weights, 0 ≤ w) (hl : HaveLaws m.components laws)
    (hp : ∀ ls ∈ laws, ∀ L ∈ ls, L.Proper) (hSp : S.Proper) (htot : 0 < S.massTotal (massMixture dV m.weights laws)) (hZ : S.IsRatioTotal Z)
    (hw : World P volume L prior X pdet q Y) (hL : ∀ i, ∃ C, ∀ x, L i x ≤ C) (hpos : ∀ i, 0 < ∫ x, L i x * smoothedRate dV S Z m laws x)
    (hsam : ∀ i x, L i x * smoothedRate dV S Z m laws x ≠ 0 → 0 < prior i x) (k : Fin K → ℕ) (hk1 : ∀ i, 1 ≤ k i) (μ : ℝ) (r : Ω → Sage.Analysis)
    (hr : ∀ ω, Sage.run ord orc (observe (smoothedInputs a s o Nb Ng) row (smoothedColumns o).length prior (fun i => (List.range (k i)).map fun j => X i j ω)
      fun _ => fin μ) = .ok (r ω)) :
    Integrable (fun ω => expR ((r ω).flowMC (names.map fun n => fin (value n)))) P ∧
    ∫ ω, expR ((r ω).flowMC (names.map fun n => fin (value n))) ∂P =
      Real.exp logPrior * (∏ i, s.tObs * (∫ x, L i x * smoothedRate dV S Z m laws x) / evidence volume (L i) (prior i)) * Real.exp (-μ) := by
  obtain ⟨lp, hlog, hlp, hat, -⟩ := smoothed_meets_at hc hV ho hf hpk hk h hw0 hl hp hSp htot hZ hpt
  have key := Hierarchy.C89_unbiased (inp := smoothedInputs a s o Nb Ng) hord horc hmean (smoothedExtra_nodup a o Nb Ng) hT hw hat
    (smoothed_meets_proper hc hV ho h hw0 hl hp hSp htot hZ hw hL hpos hlog hlp) (by simpa only [hlp] using hsam) (smoothedColumns o).length k hk1 (fun _ => fin μ) μ rfl r hr
  simp only [hlp] at key
  exact key

/-- **C99 (unbounded spin laws are rejected).**  With beta spins, at any values at which the beta law of the primary spin of some component has a
concentration of at most one, the log density handed to flowMC is `-inf`, whatever the data and the expected number. -/
theorem C99_unpeaked_primary_rejected (hord : ∀ l, (ord l).Perm l) (hmean : Sage.Meaningful s.params) (hb : o .betaSpin = true)
    {data refs : List (Jenks.Arr FRow)} {rate : Likelihood.Model FRow → XR} {r : Sage.Analysis}
    (hr : Sage.run ord orc { smoothedInputs a s o Nb Ng with data := data, refs := refs, rate := rate } = .ok r) {ct : String} {i : Nat}
    (hi : a = .o3 ∧ ct = "pl" ∧ i < Nb ∨ a = .o4 ∧ ct = "bpl" ∧ i < Nb ∨ ct = "g" ∧ i < Ng) {mean variance : ℝ}
    (hm : get? (smoothedTold a s.params o Nb Ng value) ("a_1_mean_" ++ ct ++ "_" ++ toString i) = some mean)
    (hv : get? (smoothedTold a s.params o Nb Ng value) ("a_1_variance_" ++ ct ++ "_" ++ toString i) = some variance) (hpos : 0 < variance)
    (hlow : mean * (mean * (1 - mean) / variance - 1) ≤ 1 ∨ (1 - mean) * (mean * (1 - mean) / variance - 1) ≤ 1) :
    r.flowMC (r.labels.map fun n => fin (value n)) = ninf := by
  refine Sage.C82_outside_rejected (inp := { smoothedInputs a s o Nb Ng with data := data, refs := refs, rate := rate }) hord hmean (smoothedExtra_nodup a o Nb Ng) hr _
    (.inr ⟨_, by simp only [smoothedInputs, hb, if_true]; rfl, _, List.mem_singleton.2 rfl, ?_⟩)
  have hc : Beta.check mean variance 1 1 = false := by
    rw [← Bool.not_eq_true, check_of_peaked hpos]
    rintro ⟨h1, h2⟩
    rcases hlow with h | h <;> linarith
  refine check_fails (ct := ct) (i := i) (N := if ct = "g" then Ng else Nb) ?_ ?_ hm hv hc
  · rcases hi with ⟨rfl, rfl, -⟩ | ⟨rfl, rfl, -⟩ | ⟨rfl, -⟩
    · exact .inl ⟨rfl, by simp only [smoothedInputs]; rw [smoothed_countOf_body]; rfl⟩
    · exact .inl ⟨rfl, by simp only [smoothedInputs]; rw [smoothed_countOf_body]; rfl⟩
    · exact .inr ⟨rfl, by simp only [smoothedInputs]; rw [smoothed_countOf_g]; rfl⟩
  · rcases hi with ⟨-, rfl, hi⟩ | ⟨-, rfl, hi⟩ | ⟨rfl, hi⟩ <;> simpa using hi

/-! ## Example: one smoothed power law, no options -/

/-- The log rate is sampled, the rest is fixed. -/
def smoothTable : Dict String (Guru.PVal XR) :=
  [("log_rate", .dist Sage.exA), ("beta", .num 1), ("delta_m", .num 4), ("mmax", .num 80), ("mmin", .num 5), ("alpha_pl_0", .num 3), ("mmax_pl_0", .num 80),
    ("mmin_pl_0", .num 5)]

def smoothSettings : Settings := { someSettings with params := smoothTable }

theorem smoothTable_mem {n : String} {v : Guru.PVal XR} (h : (n, v) ∈ smoothTable) :
    (n, v) = ("log_rate", .dist Sage.exA) ∨ ∃ q, v = .num q := by
  simp only [smoothTable, List.mem_cons, List.not_mem_nil, or_false, Prod.mk.injEq] at h
  rcases h with h | h | h | h | h | h | h | h
  · exact Or.inl (by rw [h.1, h.2])
  all_goals exact Or.inr ⟨_, h.2⟩

theorem smoothTable_meaningful : Sage.Meaningful smoothTable where
  nodup := by decide +kernel
  dist := by
    intro n b h
    rcases smoothTable_mem h with h | ⟨q, h⟩ <;> simp at h
    obtain ⟨-, rfl⟩ := h
    exact ⟨rfl, fun _ => trivial⟩
  lazy := by
    intro n ip f a h kw
    rcases smoothTable_mem h with h | ⟨q, h⟩ <;> simp at h
  deps := by
    intro n ip f a h
    rcases smoothTable_mem h with h | ⟨q, h⟩ <;> simp at h
  aliases := by
    intro n t h
    rcases smoothTable_mem h with h | ⟨q, h⟩ <;> simp at h

theorem smoothPoint : Point smoothTable ["log_rate"] someValue 0 where
  nodup := by decide +kernel
  sorted := by simp
  columns := by
    intro n
    simp only [List.mem_singleton, Sage.Sampled]
    constructor
    · rintro rfl
      exact Or.inl ⟨Sage.exA, by simp [smoothTable]⟩
    · rintro (⟨b, hb⟩ | ⟨ip, f, a, hb⟩)
      · rcases smoothTable_mem hb with h | ⟨q, h⟩ <;> simp at h
        exact h.1
      · rcases smoothTable_mem hb with h | ⟨q, h⟩ <;> simp at h
  inside := by
    intro n hn
    simp only [List.mem_singleton] at hn
    subst hn
    simp [Sage.inPrior, Sage.priorOf, smoothTable, get?, Sage.exA, someValue]
    norm_num
  prior := by
    rw [XR.sum_eq]
    simp [Sage.logPriorOf, Sage.priorOf, smoothTable, get?, Sage.exA, someValue]

theorem smoothNames : Smoother.o3.parameters noOptions 1 0 =
    ["beta", "delta_m", "log_rate", "mmax", "mmin", "alpha_pl_0", "mmax_pl_0", "mmin_pl_0"] := by decide +kernel

theorem smoothTold : smoothedTold .o3 smoothTable noOptions 1 0 someValue =
    [("beta", 1), ("delta_m", 4), ("log_rate", 1 / 2), ("mmax", 80), ("mmin", 5), ("alpha_pl_0", 3), ("mmax_pl_0", 80), ("mmin_pl_0", 5)] := by
  have hx : ∀ n ∈ ["beta", "delta_m", "log_rate", "mmax", "mmin", "alpha_pl_0", "mmax_pl_0", "mmin_pl_0"], get? (smoothedExtra .o3 noOptions 1 0) n = none := by
    intro n hn
    refine get?_none ?_
    rw [smoothedExtra_keys]
    revert n
    decide +kernel
  have e : ∀ n v, n ∈ ["beta", "delta_m", "log_rate", "mmax", "mmin", "alpha_pl_0", "mmax_pl_0", "mmin_pl_0"] → get? smoothTable n = some v → (∀ t, v ≠ .str t) →
      Sage.meaning smoothTable (smoothedExtra .o3 noOptions 1 0) (fun n => fin (someValue n)) n = Sage.direct (fun n => fin (someValue n)) n v := by
    intro n v hn hv ht
    unfold Sage.meaning
    rw [hx n hn, hv]
    cases v <;> first | rfl | exact absurd rfl (ht _)
  rw [smoothedTold, smoothNames, hyperParameters]
  simp only [List.filterMap_cons, List.filterMap_nil]
  rw [e "log_rate" (.dist Sage.exA) (by simp) (by simp [smoothTable, get?]) (by simp), e "beta" (.num 1) (by simp) (by simp [smoothTable, get?]) (by simp),
    e "delta_m" (.num 4) (by simp) (by simp [smoothTable, get?]) (by simp), e "mmax" (.num 80) (by simp) (by simp [smoothTable, get?]) (by simp),
    e "mmin" (.num 5) (by simp) (by simp [smoothTable, get?]) (by simp), e "alpha_pl_0" (.num 3) (by simp) (by simp [smoothTable, get?]) (by simp),
    e "mmax_pl_0" (.num 80) (by simp) (by simp [smoothTable, get?]) (by simp), e "mmin_pl_0" (.num 5) (by simp) (by simp [smoothTable, get?]) (by simp)]
  simp [Sage.direct, someValue]

def smoothFactor : Factor := ⟨"DoublyTruncatedPowerLaw", ["mass_1_source"], [⟨none, "alpha", some (-3)⟩, ⟨none, "low", some 5⟩, ⟨none, "high", some 80⟩]⟩

def smoothModel : Smoothed :=
  ⟨[("beta", 1), ("delta_m", 4), ("log_rate", 1 / 2), ("mmax", 80), ("mmin", 5)], closeWeights [], [smoothFactor], [[smoothFactor]]⟩

def smoothShared : Smoothing := ⟨1, 4, 4, 1 / 2, 80, 5, 5⟩

theorem smoothDescribes : Describes .o3 noOptions 1 0 (smoothedTold .o3 smoothTable noOptions 1 0 someValue) smoothModel smoothShared := by
  rw [smoothTold]
  exact ⟨rfl, ⟨rfl, rfl, rfl, rfl, rfl, rfl, rfl⟩⟩

theorem smoothLaws : HaveLaws smoothModel.components [[.powerlaw (-3) 5 80]] := .cons (.cons rfl .nil) .nil

theorem smoothLaws_proper : ∀ ls ∈ [[Law.powerlaw (-3) 5 80]], ∀ L ∈ ls, L.Proper := by
  simp only [List.mem_cons, List.not_mem_nil, or_false, forall_eq, Law.Proper]
  norm_num

theorem smoothPeaked : ∀ ls ∈ [[Law.powerlaw (-3) 5 80]], ∀ L ∈ ls, Peaked L := by simp [Peaked]

theorem smoothShared_proper : smoothShared.Proper := by norm_num [Smoothing.Proper, smoothShared]

theorem smoothWeights : ∀ w ∈ smoothModel.weights, 0 ≤ w := by simp [smoothModel, closeWeights]

theorem smoothLaw_pos (dV : ℝ → ℝ) {x : ℝ} (h1 : 5 ≤ x) (h2 : x ≤ 80) : 0 < Law.density dV (.powerlaw (-3) 5 80) [x] := by
  rw [Law.density, if_pos ⟨h1, h2⟩]
  refine div_pos (Real.rpow_pos_of_pos (by linarith) _) (intervalIntegral.intervalIntegral_pos_of_pos_on ?_ (fun t ht => Real.rpow_pos_of_pos (by linarith [ht.1]) _) (by norm_num))
  refine ContinuousOn.intervalIntegrable fun t ht => ContinuousAt.continuousWithinAt (Real.continuousAt_rpow_const _ _ (Or.inl ?_))
  rw [Set.uIcc_of_le (by norm_num)] at ht
  linarith [ht.1]

theorem smooth_total_pos {dV : ℝ → ℝ} (hV : IsVolume Cosmo.planck2015 dV) : 0 < smoothShared.massTotal (massMixture dV smoothModel.weights [[.powerlaw (-3) 5 80]]) :=
  C96_total_pos Cosmo.planck2015_proper hV smoothWeights smoothLaws_proper smoothShared_proper (i := 0) (w := 1 - ([] : List ℝ).sum) (L := .powerlaw (-3) 5 80) rfl rfl (by norm_num)
    (smoothLaw_pos dV (by norm_num [smoothShared]) (by norm_num [smoothShared]))

theorem smoothRate {dV : ℝ → ℝ} (x : Event (smoothedColumns noOptions)) :
    smoothedRate dV smoothShared Z smoothModel [[.powerlaw (-3) 5 80]] x =
      smoothShared.density (smoothShared.massTotal (massMixture dV smoothModel.weights [[.powerlaw (-3) 5 80]])) Z
        (Law.density dV (.powerlaw (-3) 5 80) [x ⟨0, by decide⟩]) (x ⟨0, by decide⟩) (x ⟨1, by decide⟩) := by
  have e1 : quantity x "mass_1_source" = x ⟨0, by decide⟩ := rfl
  have e2 : quantity x "mass_ratio" = x ⟨1, by decide⟩ := rfl
  unfold smoothedRate
  rw [e1, e2]
  congr 1
  have : namedDensity dV (quantity x) [smoothFactor] [.powerlaw (-3) 5 80] = Law.density dV (.powerlaw (-3) 5 80) [quantity x "mass_1_source"] := by
    simp [namedDensity, smoothFactor]
  rw [e1] at this
  simp [smoothModel, weighted, closeWeights, this]

theorem smoothBox_pos {dV : ℝ → ℝ} {x : Event (smoothedColumns noOptions)} (h : smoothedRate dV smoothShared Z smoothModel [[.powerlaw (-3) 5 80]] x ≠ 0) : 0 < box x := by
  rw [smoothRate, Smoothing.density, ite_ne_right_iff] at h
  obtain ⟨⟨h1, h2⟩, h3, h4⟩ := h.1
  simp only [smoothShared] at h1 h2
  have a0 : x ⟨0, by decide⟩ ∈ Set.Icc (0 : ℝ) 100 := ⟨by linarith, by linarith⟩
  have a1 : x ⟨1, by decide⟩ ∈ Set.Icc (0 : ℝ) 100 := ⟨by linarith, by linarith⟩
  refine Finset.prod_pos fun i _ => ?_
  have : x i ∈ Set.Icc (0 : ℝ) 100 := by
    have hi : i = ⟨0, by decide⟩ ∨ i = ⟨1, by decide⟩ := by
      obtain ⟨i, hi⟩ := i
      have : i < 2 := hi
      interval_cases i <;> simp
    rcases hi with rfl | rfl
    · exact a0
    · exact a1
  rw [Set.indicator_of_mem this]
  norm_num

theorem smoothRate_pos {dV : ℝ → ℝ} (hV : IsVolume Cosmo.planck2015 dV) (hZ : smoothShared.IsRatioTotal Z) :
    0 < ∫ x : Event (smoothedColumns noOptions), smoothedRate dV smoothShared Z smoothModel [[.powerlaw (-3) 5 80]] x := by
  obtain ⟨-, r2, r3⟩ := integrable_smoothedRate (o := noOptions) Cosmo.planck2015_proper hV ⟨by simp [noOptions], by simp [noOptions]⟩ smoothDescribes smoothWeights smoothLaws
    smoothLaws_proper smoothShared_proper (smooth_total_pos hV) hZ
  rw [integral_pos_iff_support_of_nonneg r3 r2]
  have hopen : IsOpen (Set.pi Set.univ fun i : Fin (smoothedColumns noOptions).length => if i.1 = 0 then Set.Ioo (20 : ℝ) 30 else Set.Ioo (1 / 2 : ℝ) 1) :=
    isOpen_set_pi Set.finite_univ fun i _ => by split_ifs <;> exact isOpen_Ioo
  refine (hopen.measure_pos volume ⟨fun i => if i.1 = 0 then 25 else 3 / 4, fun i _ => ?_⟩).trans_le (measure_mono fun x hx => ?_)
  · simp only
    split_ifs <;> constructor <;> norm_num
  · have h0 := hx ⟨0, by decide⟩ trivial
    have h1 := hx ⟨1, by decide⟩ trivial
    simp only [if_true, one_ne_zero, if_false] at h0 h1
    rw [Function.mem_support, smoothRate, Smoothing.density,
      if_pos ⟨⟨by simp only [smoothShared]; linarith [h0.1], by simp only [smoothShared]; linarith [h0.2]⟩, by linarith [h1.1], h1.2.le⟩]
    refine (mul_pos (mul_pos (Real.exp_pos _) (div_pos (mul_pos (smoothLaw_pos dV (by linarith [h0.1]) (by linarith [h0.2])) (Mass.planck_pos ?_)) (smooth_total_pos hV)))
      (div_pos (mul_pos (Real.rpow_pos_of_pos (by linarith [h1.1]) _) (Mass.planck_pos ?_)) (hZ.1 _))).ne'
    · simp only [smoothShared]
      linarith [h0.1]
    · simp only [smoothShared]
      nlinarith [h0.1, h1.1]

/-- The analysis runs on one event with any number of samples. -/
theorem smoothRuns (prior : Fin 1 → Event (smoothedColumns noOptions) → ℝ) (xs : Fin 1 → List (Event (smoothedColumns noOptions))) (rate : Likelihood.Model FRow → XR) :
    ∃ r, Sage.run id Jenks.exOracle (observe (smoothedInputs .o3 smoothSettings noOptions 1 0) row (smoothedColumns noOptions).length prior xs rate) = .ok r := by
  have hs : ∃ s, Guru.setup id smoothTable (smoothedExtra .o3 noOptions 1 0) = .ok s := ⟨_, rfl⟩
  obtain ⟨s, hs⟩ := hs
  set inp := observe (smoothedInputs .o3 smoothSettings noOptions 1 0) row (smoothedColumns noOptions).length prior xs rate with hinp
  have : ∃ c bs, Likelihood.readData Jenks.exOracle inp.data inp.refs (some 1) 3 = .ok (c, bs) := by
    unfold Likelihood.readData
    rw [if_neg (by simp [hinp, observe])]
    have : ∃ a b m, Jenks.padAndStack Jenks.exOracle (fun w => List.replicate w (0 : XR)) [inp.data, inp.refs] (some 1) 3 = .ok ([a, b], m) := by
      rw [Jenks.padAndStack, if_neg (by norm_num)]
      exact ⟨_, _, _, rfl⟩
    obtain ⟨a, b, m, h⟩ := this
    rw [h]
    exact ⟨_, _, rfl⟩
  obtain ⟨c, bs, hd⟩ := this
  refine (Sage.C82_stops_iff (inp := inp) (fun l => List.Perm.refl l) smoothTable_meaningful (smoothedExtra_nodup .o3 noOptions 1 0) s hs c bs hd).2 ?_
  rintro ⟨n, hn, h⟩
  have hn : n ∈ keys (smoothedExtra .o3 noOptions 1 0) := hn
  rw [smoothedExtra_keys] at hn
  have : n ≠ "log_rate" := by
    rintro rfl
    revert hn
    decide +kernel
  rcases h with (⟨b, h⟩ | ⟨ip, f, a, h⟩) | ⟨t, h, -⟩ <;> rcases smoothTable_mem h with h | ⟨q, h⟩ <;> simp at h
  exact this h.1

attribute [local instance] boxLaw_probability unit_probability someWorldMeasure_probability

/-- All conditions of `C99_consistent`, `C99_consistent_numpyro` and `C99_unbiased` hold for the example, which runs on any number of samples. -/
example (dV : ℝ → ℝ) (hV : IsVolume Cosmo.planck2015 dV) (big : ℝ) : ∃ Z, smoothShared.IsRatioTotal Z ∧
    (∀ᵐ ω ∂someWorldMeasure, ∃ r : ℕ → Sage.Analysis, ∃ v v' : ℕ → ℝ,
      (∀ᶠ n in atTop, (r n).flowMC [fin (1 / 2)] = fin (v n) ∧ (r n).numpyro big [fin (1 / 2)] = some (fin (v' n))) ∧
      Tendsto v atTop (𝓝 (logPosterior (fun (_ : Fin 1) _ => 1) (fun _ => 1 / 2) 2 0 (smoothedRate dV smoothShared Z smoothModel [[.powerlaw (-3) 5 80]] : Event (smoothedColumns noOptions) → ℝ))) ∧
      Tendsto v' atTop (𝓝 (logPosterior (fun (_ : Fin 1) _ => 1) (fun _ => 1 / 2) 2 0 (smoothedRate dV smoothShared Z smoothModel [[.powerlaw (-3) 5 80]] : Event (smoothedColumns noOptions) → ℝ)))) ∧
    ∃ r : Draws → Sage.Analysis, ∫ ω, expR ((r ω).flowMC [fin (1 / 2)]) ∂someWorldMeasure =
      2 * (∫ x : Event (smoothedColumns noOptions), smoothedRate dV smoothShared Z smoothModel [[.powerlaw (-3) 5 80]] x) * Real.exp (-7) := by
  obtain ⟨Z, hZ⟩ := (C99_ratio_total smoothShared_proper).1
  have hw : World (K := 1) someWorldMeasure (volume : Measure (Event (smoothedColumns noOptions))) (fun _ _ => 1) (fun _ => box) (fun (_ : Fin 1) j (ω : Draws) => (ω j).1) (fun _ => 1 / 2) box
    (fun i ω => ω i) := someWorld
  have hev : evidence volume (fun _ : Event (smoothedColumns noOptions) => 1) box = 1 := box_evidence
  have ho : Exclusive noOptions := ⟨by simp [noOptions], by simp [noOptions]⟩
  have hpos := smoothRate_pos hV hZ
  have hruns : ∀ (ω : Draws) (n : ℕ), _ := fun ω n => smoothRuns (fun _ => box) (fun _ => (List.range n).map fun j => (ω j).1)
      (injectionRate (row (columns := smoothedColumns noOptions)) (fun _ => 1 / 2) box (fun i (ω : Draws) => ω i) 2 n ω)
  refine ⟨Z, hZ, ?_, ?_⟩
  · filter_upwards [C99_consistent (ord := id) (a := .o3) (s := smoothSettings) (o := noOptions) (Nb := 1) (Ng := 0) (fun l => List.Perm.refl l) Jenks.exOracle_sorted
      Cosmo.planck2015_proper hV ho (fun _ _ => rfl) smoothPeaked smoothTable_meaningful (by rw [smoothNames]; decide +kernel) (by norm_num [smoothSettings, someSettings]) smoothPoint
      smoothDescribes smoothWeights smoothLaws smoothLaws_proper smoothShared_proper (smooth_total_pos hV) hZ hw (fun _ => ⟨1, fun _ => le_rfl⟩)
      (fun _ => by simpa only [one_mul] using hpos) (fun _ x h => smoothBox_pos (right_ne_zero_of_mul h)) (fun x h => smoothBox_pos (left_ne_zero_of_mul h))
      (fun _ n => n) (fun _ => tendsto_id) (fun n => n) tendsto_id,
      C99_consistent_numpyro (ord := id) (a := .o3) (s := smoothSettings) (o := noOptions) (Nb := 1) (Ng := 0) (fun l => List.Perm.refl l) Jenks.exOracle_sorted
      Cosmo.planck2015_proper hV ho (fun _ _ => rfl) smoothPeaked smoothTable_meaningful (by rw [smoothNames]; decide +kernel) (by norm_num [smoothSettings, someSettings]) smoothPoint
      smoothDescribes smoothWeights smoothLaws smoothLaws_proper smoothShared_proper (smooth_total_pos hV) hZ hw (fun _ => ⟨1, fun _ => le_rfl⟩)
      (fun _ => by simpa only [one_mul] using hpos) (fun _ x h => smoothBox_pos (right_ne_zero_of_mul h)) (fun x h => smoothBox_pos (left_ne_zero_of_mul h))
      big (fun _ n => n) (fun _ => tendsto_id) (fun n => n) tendsto_id] with ω hω hω'
    choose r hr' using hruns ω
    obtain ⟨v, hv, hlim⟩ := hω r hr'
    obtain ⟨v', hv', hlim'⟩ := hω' r hr'
    simp only [hev, Real.log_one, Finset.sum_const_zero, sub_zero] at hlim hlim'
    refine ⟨r, v, v', (hv.and hv').mono fun n h => ⟨by simpa only [List.map_cons, List.map_nil, someValue] using h.1.2, by simpa only [List.map_cons, List.map_nil, someValue] using h.2.2⟩,
      hlim, hlim'⟩
  · choose r hr' using fun ω : Draws => smoothRuns (fun _ => box) (fun _ => (List.range 3).map fun j => (ω j).1) fun _ => fin 7
    refine ⟨r, ?_⟩
    have key := (C99_unbiased (ord := id) (a := .o3) (s := smoothSettings) (o := noOptions) (Nb := 1) (Ng := 0) (fun l => List.Perm.refl l) Jenks.exOracle_sorted
      Cosmo.planck2015_proper hV ho (fun _ _ => rfl) smoothPeaked smoothTable_meaningful (by rw [smoothNames]; decide +kernel) (by norm_num [smoothSettings, someSettings]) smoothPoint
      smoothDescribes smoothWeights smoothLaws smoothLaws_proper smoothShared_proper (smooth_total_pos hV) hZ hw (fun _ => ⟨1, fun _ => le_rfl⟩)
      (fun _ => by simpa only [one_mul] using hpos) (fun _ x h => smoothBox_pos (right_ne_zero_of_mul h)) (fun _ => 3) (by simp) 7 r hr').2
    simp only [one_mul, hev] at key
    simpa [smoothSettings, someSettings, someValue] using key

/-- The table of the example gives a number for every declared hyper-parameter. -/
example : ∃ m S laws, Describes .o3 noOptions 1 0 (smoothedTold .o3 smoothTable noOptions 1 0 someValue) m S ∧ HaveLaws m.components laws ∧ laws.length = 1 ∧
    m.weights.length = 1 ∧ m.weights.sum = 1 :=
  C99_population_exists (params := smoothTable) (by norm_num) (by
    intro n hn
    have : n ∈ keys (smoothedTold .o3 smoothTable noOptions 1 0 someValue) := by
      rw [smoothTold]
      rw [smoothNames] at hn
      exact hn
    obtain ⟨p, hp, rfl⟩ := List.mem_map.1 this
    obtain ⟨n, -, hv⟩ := List.mem_filterMap.1 hp
    split at hv
    · next x hx =>
      cases hv
      exact ⟨x, hx⟩
    · cases hv)

/-! ## Example: beta spins -/

def betaOption : Flag → Bool := fun f => f = .betaSpin

/-- As `smoothTable`, with concentrations 2, 2 of the primary and of the secondary spin if `q` is `1 / 20`. -/
def betaTable (q : ℚ) : Dict String (Guru.PVal XR) :=
  smoothTable ++ [("a_1_mean_pl_0", .num (1 / 2)), ("a_1_variance_pl_0", .num q), ("a_2_mean_pl_0", .num (1 / 2)), ("a_2_variance_pl_0", .num (1 / 20))]

theorem betaNames : Smoother.o3.parameters betaOption 1 0 =
    ["beta", "delta_m", "log_rate", "mmax", "mmin", "alpha_pl_0", "mmax_pl_0", "mmin_pl_0", "a_1_mean_pl_0", "a_1_variance_pl_0", "a_2_mean_pl_0", "a_2_variance_pl_0"] := by
  decide +kernel

theorem betaTold (q : ℚ) : smoothedTold .o3 (betaTable q) betaOption 1 0 someValue =
    [("beta", 1), ("delta_m", 4), ("log_rate", 1 / 2), ("mmax", 80), ("mmin", 5), ("alpha_pl_0", 3), ("mmax_pl_0", 80), ("mmin_pl_0", 5), ("a_1_mean_pl_0", 1 / 2),
      ("a_1_variance_pl_0", (q : ℝ)), ("a_2_mean_pl_0", 1 / 2), ("a_2_variance_pl_0", 1 / 20)] := by
  have e : ∀ n v, get? (smoothedExtra .o3 betaOption 1 0) n = none → get? (betaTable q) n = some v → (∀ t, v ≠ .str t) →
      Sage.meaning (betaTable q) (smoothedExtra .o3 betaOption 1 0) (fun n => fin (someValue n)) n = Sage.direct (fun n => fin (someValue n)) n v := by
    intro n v hn hv ht
    unfold Sage.meaning
    rw [hn, hv]
    cases v <;> first | rfl | exact absurd rfl (ht _)
  have hx : ∀ n ∈ Smoother.o3.parameters betaOption 1 0, get? (smoothedExtra .o3 betaOption 1 0) n = none := by
    intro n hn
    refine get?_none ?_
    rw [smoothedExtra_keys]
    revert n
    decide +kernel
  rw [betaNames] at hx
  rw [smoothedTold, betaNames, hyperParameters]
  simp only [List.filterMap_cons, List.filterMap_nil]
  rw [e "log_rate" (.dist Sage.exA) (hx _ (by simp)) rfl (by simp), e "beta" (.num 1) (hx _ (by simp)) rfl (by simp),
    e "delta_m" (.num 4) (hx _ (by simp)) rfl (by simp), e "mmax" (.num 80) (hx _ (by simp)) rfl (by simp),
    e "mmin" (.num 5) (hx _ (by simp)) rfl (by simp), e "alpha_pl_0" (.num 3) (hx _ (by simp)) rfl (by simp),
    e "mmax_pl_0" (.num 80) (hx _ (by simp)) rfl (by simp), e "mmin_pl_0" (.num 5) (hx _ (by simp)) rfl (by simp),
    e "a_1_mean_pl_0" (.num (1 / 2)) (hx _ (by simp)) rfl (by simp), e "a_1_variance_pl_0" (.num q) (hx _ (by simp)) rfl (by simp),
    e "a_2_mean_pl_0" (.num (1 / 2)) (hx _ (by simp)) rfl (by simp), e "a_2_variance_pl_0" (.num (1 / 20)) (hx _ (by simp)) rfl (by simp)]
  simp [Sage.direct, someValue]

/-- The conditions of the theorems on the population hold with beta spins of concentrations 2, 2. -/
example : ∃ m laws, Describes .o3 betaOption 1 0 (smoothedTold .o3 (betaTable (1 / 20)) betaOption 1 0 someValue) m smoothShared ∧ HaveLaws m.components laws ∧
    (∀ w ∈ m.weights, 0 ≤ w) ∧ (∀ ls ∈ laws, ∀ L ∈ ls, L.Proper) ∧ (∀ ls ∈ laws, ∀ L ∈ ls, Peaked L) ∧ Law.beta (1 / 2) (1 / 20) ∈ laws.flatten := by
  rw [betaTold]
  refine ⟨_, [[.powerlaw (-3) 5 80, .beta (1 / 2) (1 / 20), .beta (1 / 2) (1 / 20)]], ⟨rfl, ⟨rfl, rfl, rfl, rfl, rfl, rfl, rfl⟩⟩, ?_, ?_, ?_, ?_, ?_⟩
  · refine .cons (.cons rfl (.cons ?_ (.cons rfl .nil))) .nil
    show some (Law.beta (1 / 2) ((1 / 20 : ℚ) : ℝ)) = _
    norm_num
  · simp [closeWeights]
  · norm_num [Law.Proper]
  · norm_num [Peaked]
  · simp

theorem betaTable_mem {q : ℚ} {n : String} {v : Guru.PVal XR} (h : (n, v) ∈ betaTable q) : (n, v) = ("log_rate", .dist Sage.exA) ∨ ∃ q, v = .num q := by
  rcases List.mem_append.1 h with h | h
  · exact smoothTable_mem h
  · simp only [List.mem_cons, List.not_mem_nil, or_false, Prod.mk.injEq] at h
    rcases h with h | h | h | h <;> exact Or.inr ⟨_, h.2⟩

theorem betaTable_meaningful (q : ℚ) : Sage.Meaningful (betaTable q) where
  nodup := by
    show (["log_rate", "beta", "delta_m", "mmax", "mmin", "alpha_pl_0", "mmax_pl_0", "mmin_pl_0", "a_1_mean_pl_0", "a_1_variance_pl_0", "a_2_mean_pl_0",
      "a_2_variance_pl_0"] : List String).Nodup
    decide +kernel
  dist := by
    intro n b h
    rcases betaTable_mem h with h | ⟨q, h⟩ <;> simp at h
    obtain ⟨-, rfl⟩ := h
    exact ⟨rfl, fun _ => trivial⟩
  lazy := by
    intro n ip f a h kw
    rcases betaTable_mem h with h | ⟨q, h⟩ <;> simp at h
  deps := by
    intro n ip f a h
    rcases betaTable_mem h with h | ⟨q, h⟩ <;> simp at h
  aliases := by
    intro n t h
    rcases betaTable_mem h with h | ⟨q, h⟩ <;> simp at h

def betaSettings (q : ℚ) : Settings := { someSettings with params := betaTable q }

theorem betaRuns (q : ℚ) (prior : Fin 1 → Event (smoothedColumns betaOption) → ℝ) (xs : Fin 1 → List (Event (smoothedColumns betaOption)))
    (rate : Likelihood.Model FRow → XR) :
    ∃ r, Sage.run id Jenks.exOracle (observe (smoothedInputs .o3 (betaSettings q) betaOption 1 0) row (smoothedColumns betaOption).length prior xs rate) = .ok r := by
  have hs : ∃ s, Guru.setup id (betaTable q) (smoothedExtra .o3 betaOption 1 0) = .ok s := ⟨_, rfl⟩
  obtain ⟨s, hs⟩ := hs
  set inp := observe (smoothedInputs .o3 (betaSettings q) betaOption 1 0) row (smoothedColumns betaOption).length prior xs rate with hinp
  have : ∃ c bs, Likelihood.readData Jenks.exOracle inp.data inp.refs (some 1) 3 = .ok (c, bs) := by
    unfold Likelihood.readData
    rw [if_neg (by simp [hinp, observe])]
    have : ∃ a b m, Jenks.padAndStack Jenks.exOracle (fun w => List.replicate w (0 : XR)) [inp.data, inp.refs] (some 1) 3 = .ok ([a, b], m) := by
      rw [Jenks.padAndStack, if_neg (by norm_num)]
      exact ⟨_, _, _, rfl⟩
    obtain ⟨a, b, m, h⟩ := this
    rw [h]
    exact ⟨_, _, rfl⟩
  obtain ⟨c, bs, hd⟩ := this
  refine (Sage.C82_stops_iff (inp := inp) (fun l => List.Perm.refl l) (betaTable_meaningful q) (smoothedExtra_nodup .o3 betaOption 1 0) s hs c bs hd).2 ?_
  rintro ⟨n, hn, h⟩
  have hn : n ∈ keys (smoothedExtra .o3 betaOption 1 0) := hn
  rw [smoothedExtra_keys] at hn
  have : n ≠ "log_rate" := by
    rintro rfl
    revert hn
    decide +kernel
  rcases h with (⟨b, h⟩ | ⟨ip, f, a, h⟩) | ⟨t, h, -⟩ <;> rcases betaTable_mem h with h | ⟨q, h⟩ <;> simp at h
  exact this h.1

/-- With a variance of `1 / 12` the primary spin is uniform, and the point is rejected, on any data of one event. -/
example (prior : Fin 1 → Event (smoothedColumns betaOption) → ℝ) (xs : Fin 1 → List (Event (smoothedColumns betaOption))) (rate : Likelihood.Model FRow → XR) :
    ∃ r, Sage.run id Jenks.exOracle (observe (smoothedInputs .o3 (betaSettings (1 / 12)) betaOption 1 0) row (smoothedColumns betaOption).length prior xs rate) = .ok r ∧
      r.flowMC (r.labels.map fun n => fin (someValue n)) = ninf := by
  obtain ⟨r, hr⟩ := betaRuns (1 / 12) prior xs rate
  refine ⟨r, hr, C99_unpeaked_primary_rejected (a := .o3) (s := betaSettings (1 / 12)) (o := betaOption) (Nb := 1) (Ng := 0) (ct := "pl") (i := 0)
    (mean := 1 / 2) (variance := 1 / 12) (fun l => List.Perm.refl l) (betaTable_meaningful _) rfl hr (.inl ⟨rfl, rfl, by norm_num⟩) ?_ ?_ (by norm_num) (.inl (by norm_num))⟩
  · rw [betaSettings, betaTold]; rfl
  · rw [betaSettings, betaTold]
    show some (((1 / 12 : ℚ) : ℝ)) = _
    norm_num

end
end GW.EndToEnd
