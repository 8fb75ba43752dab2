import Verif.Lemmas.PpdModel

/-! # C86: what the predictive file contains -/

namespace GW.Ppd
open PyDict (Dict get?)
open GW.Tools (Err)
open GW.Mixture (Comp Mix mkMix)
open GW.Hybrids

variable {use : Hybrids.Flag → Bool} {Npl Ng : Nat} {den : List Factor → Comp (List ℝ)} {width : Nat} {rows : List (List ℝ)}
  {mapping : Dict String Nat} {constants : Dict String ℝ} {ms : List Hybrids.Mixture} {domains : List Domain} {parameters : List String}

/-! ## Helpers -/

theorem mapM_item {d : Dict String ℝ} {N : Nat} {rates : List ℝ} (hl : rates.length = N)
    (h : ∀ i, i < N → ∃ v, rates[i]? = some v ∧ get? d ("log_rate_" ++ toString i) = some v) :
    ((List.range N).mapM fun i => item d ("log_rate_" ++ toString i)) = .ok rates := by
  have : rates = (List.range N).map fun i => rates[i]?.getD 0 := by
    apply List.ext_getElem (by simp [hl])
    intro i h1 h2
    simp [List.getElem?_eq_getElem h1]
  rw [this]
  have key : ∀ l : List Nat, (∀ i ∈ l, i < N) → (l.mapM fun i => item d ("log_rate_" ++ toString i)) = .ok (l.map fun i => rates[i]?.getD 0) := by
    intro l hl
    induction l with
    | nil => rfl
    | cons a l ih =>
      obtain ⟨v, h1, h2⟩ := h a (hl a (by simp))
      rw [List.mapM_cons, ih fun i hi => hl i (by simp [hi])]
      simp only [item, h2]
      simp [h1]
      rfl
  exact key _ (by simp)

/-- The population depends on the values of the hyper-parameters only. -/
theorem isPopulation_ok {θ : String → Option ℝ} {m : Hybrids.Mixture} (h : IsPopulation use Npl Ng θ m) {d : Dict String ℝ}
    (hd : ∀ n, get? d n = θ n) : nPowerlawMGaussian use Npl Ng d = .ok m := by
  obtain ⟨d', h1, h2⟩ := h
  obtain ⟨_, _, _, _, _, _, _, _, hl, hr⟩ := nPowerlawMGaussian_ok h2
  have := nPowerlawMGaussian_agree (d := d') (d' := d) (fun n _ => by rw [h1, hd]) h2 m.logRates
    (mapM_item hl fun i hi => by
      obtain ⟨v, a, b⟩ := hr i hi
      exact ⟨v, a, by rw [hd, ← h1, b]⟩)
  simpa using this

theorem computeProbs_ok {θ : String → Option ℝ} {m : Hybrids.Mixture} {row : List ℝ} (hm : IsPopulation use Npl Ng θ m) (hp : Proper den m)
    (hθ : ∃ d, arguments constants mapping row = .ok d ∧ ∀ n, get? d n = θ n) :
    ∃ f, computeProbs (logpdf use Npl Ng den) constants mapping row = .ok f ∧ ∀ x, f x = differentialRate den m x := by
  obtain ⟨d, h1, h2⟩ := hθ
  have h3 := isPopulation_ok hm h2
  obtain ⟨_, _, _, _, _, _, _, hpos, hl, _⟩ := nPowerlawMGaussian_ok h3
  have hc := (nPowerlawMGaussian_components h3).1
  obtain ⟨mix, h4, h5⟩ := mixture_density hp (by omega) (by intro h; rw [h] at hc; simp at hc; omega)
  refine ⟨fun x => (mix.logProbChecked true x).expR, ?_, h5⟩
  simp only [computeProbs, h1, logpdf, h3, h4]

theorem ppd_ok (hlen : parameters.length = domains.length) (hnd : parameters.Nodup)
    (h : List.Forall₂ (fun row m => ∃ f, computeProbs (logpdf use Npl Ng den) constants mapping row = .ok f ∧
      ∀ x, f x = differentialRate den m x) rows ms) :
    ∃ file, ppd (logpdf use Npl Ng den) rows mapping constants domains parameters = .ok file ∧ file.headers = parameters ∧
      ∀ σ : Nat → Nat, (∀ i, ∀ hi : i < domains.length, σ i < domains[i].points) →
        file.ppd.val ((List.range domains.length).map σ) = posteriorMean (fun m => differentialRate den m (gridPoint domains σ)) ms := by
  have hfs : ∃ fs, rows.mapM (computeProbs (logpdf use Npl Ng den) constants mapping) = .ok fs ∧
      List.Forall₂ (fun (f : List ℝ → ℝ) m => ∀ x, f x = differentialRate den m x) fs ms := by
    clear hlen hnd
    induction h with
    | nil => exact ⟨[], rfl, .nil⟩
    | @cons row m rows ms hr _ ih =>
      obtain ⟨f, h1, h2⟩ := hr
      obtain ⟨fs, h3, h4⟩ := ih
      refine ⟨f :: fs, ?_, .cons h2 h4⟩
      rw [List.mapM_cons, h1, h3]
      rfl
  obtain ⟨fs, h1, h2⟩ := hfs
  obtain ⟨file, e, g1, g2, g3, g4, _⟩ := C41_saved_file (fun s x => (fs[s]?.getD fun _ => 0) x) rows.length domains parameters hlen hnd
  refine ⟨file, by simp only [ppd, h1, e], g1, fun σ hσ => ?_⟩
  rw [g4 σ hσ, posteriorMean]
  have hl : fs.length = ms.length := h2.length_eq
  have hl' : rows.length = ms.length := h.length_eq
  rw [hl']
  congr 1
  rw [← Fin.sum_univ_fun_getElem, Finset.sum_range]
  apply Finset.sum_congr rfl
  intro i _
  have hi : i.val < ms.length := i.isLt
  rw [List.getElem?_eq_getElem (by omega), Option.getD_some]
  exact (List.forall₂_iff_get.1 h2).2 i.val (by omega) hi _

/-! ## Theorems -/

/-- **C86 (rates kept).**  For every table of posterior samples of the multi-component model, on every grid: without wiping the rates, the file
holds at every grid point the posterior mean of the differential rate there, each sample being evaluated with its own hyper-parameters. -/
theorem C86_differential_rate (h : Posterior use Npl Ng den width rows mapping constants ms)
    (hlen : parameters.length = domains.length) (hnd : parameters.Nodup) :
    ∃ file, ppd (logpdf use Npl Ng den) rows mapping constants domains parameters = .ok file ∧ file.headers = parameters ∧
      ∀ σ : Nat → Nat, (∀ i, ∀ hi : i < domains.length, σ i < domains[i].points) →
        file.ppd.val ((List.range domains.length).map σ) = posteriorMean (fun m => differentialRate den m (gridPoint domains σ)) ms := by
  apply ppd_ok hlen hnd
  have hb : ∀ row ∈ rows, ∀ p ∈ mapping, p.2 < row.length := by
    intro row hr p hp
    rw [h.rectangular row hr]
    exact h.columns p.1 p.2 (PyDict.get?_of_mem h.names hp)
  have := h.populations
  have hp := h.proper
  have hfree := h.free
  clear h
  induction this with
  | nil => exact .nil
  | @cons row m rows ms hr _ ih =>
    refine .cons ?_ (ih (fun r hr => hb r (by simp [hr])) fun m hm => hp m (by simp [hm]))
    exact computeProbs_ok hr (hp m (by simp)) (arguments_ok (hb row (by simp)) hfree)

theorem rate_name (i : Nat) : Rate ("log_rate_" ++ toString i) := by
  rw [Rate, String.toList_append]
  have : "log_rate_".toList = "log_rate".toList ++ ['_'] := by decide +kernel
  rw [this, List.append_assoc]
  exact List.prefix_append _ _

theorem wipeLoop_keys (zero : ℝ) (ks : List String) : ∀ (width : Nat) (rows : List (List ℝ)) (mapping : Dict String Nat) (constants : Dict String ℝ)
    (width' : Nat) (rows' : List (List ℝ)) (mapping' : Dict String Nat) (constants' : Dict String ℝ),
    wipeLoop zero ks (width, rows, mapping, constants) = .ok (width', rows', mapping', constants') →
      (PyDict.keys mapping').Sublist (PyDict.keys mapping) := by
  induction ks with
  | nil =>
    intro w r m c w' r' m' c' h
    simp only [wipeLoop, Except.ok.injEq, Prod.mk.injEq] at h
    rw [h.2.2.1]
  | cons k ks ih =>
    intro w r m c w' r' m' c' h
    simp only [wipeLoop] at h
    cases hs : wipeStep zero k (w, r, m, c) with
    | error e => rw [hs] at h; simp at h
    | ok st =>
      obtain ⟨w1, r1, m1, c1⟩ := st
      rw [hs] at h
      refine (ih _ _ _ _ _ _ _ _ h).trans ?_
      unfold wipeStep at hs
      simp only at hs
      split_ifs at hs with hk
      · split at hs
        · simp at hs
        · split at hs
          · simp at hs
          · simp only [Except.ok.injEq, Prod.mk.injEq] at hs
            rw [← hs.2.2.1]
            simp only [PyDict.keys, List.map_map]
            exact (List.filter_sublist).map _
      · simp only [Except.ok.injEq, Prod.mk.injEq] at hs
        rw [hs.2.2.1]

/-- The table after wiping. -/
theorem wiped (h : Posterior use Npl Ng den width rows mapping constants ms)
    (hsep : ∀ r n x, Rate r → get? mapping r = some x → get? mapping n = some x → n = r)
    (rates : Hybrids.Mixture → List ℝ)
    (hrates : ∀ m ∈ ms, (rates m).length = m.logRates.length ∧ ∀ (i : Nat) v, m.logRates[i]? = some v →
      (rates m)[i]? = some (if (get? mapping ("log_rate_" ++ toString i)).isSome then 0 else v)) :
    ∃ width' rows' mapping' constants', wipeLogRate 0 width rows mapping constants = .ok (width', rows', mapping', constants') ∧
      List.Forall₂ (fun row m => ∃ f, computeProbs (logpdf use Npl Ng den) constants' mapping' row = .ok f ∧
        ∀ x, f x = differentialRate den ⟨rates m, m.components⟩ x) rows' ms := by
  obtain ⟨w', rows', mapping', constants', e, a1, a2, a3, a4, a5⟩ :=
    C40_wipe_log_rate_partial (0 : ℝ) width rows mapping constants h.names h.columns hsep
  refine ⟨w', rows', mapping', constants', e, ?_⟩
  have hsub := wipeLoop_keys (0 : ℝ) _ _ _ _ _ _ _ _ _ e
  have hnd' : (PyDict.keys mapping').Nodup := h.names.sublist hsub
  have hback : ∀ n y, get? mapping' n = some y → ¬ Rate n ∧ ∃ x, get? mapping n = some x := by
    intro n y hy
    have := (a1 n).1 (by rw [hy]; rfl)
    exact ⟨this.2, Option.isSome_iff_exists.1 this.1⟩
  have hfree' : ∀ n ∈ PyDict.keys mapping', n ∉ PyDict.keys constants' := by
    intro n hn
    obtain ⟨y, hy⟩ := Option.isSome_iff_exists.1 ((PyDict.mem_keys_iff _ _).1 hn)
    obtain ⟨h1, x, hx⟩ := hback n y hy
    rw [← PyDict.get?_eq_none_iff, a5 n (fun hh => h1 hh.1), PyDict.get?_eq_none_iff]
    exact h.free n ((PyDict.mem_keys_iff _ _).2 (by rw [hx]; rfl))
  rw [List.forall₂_iff_get] 
  have hlen := h.populations.length_eq
  refine ⟨by rw [a2, List.length_map, hlen], fun i h1 h2 => ?_⟩
  have hi : i < rows.length := by omega
  have hrow : rows[i] ∈ rows := List.getElem_mem hi
  have hm : ms[i] ∈ ms := List.getElem_mem h2
  have hg1 : rows[i]? = some rows[i] := List.getElem?_eq_getElem hi
  have hg2 : rows'[i]? = some rows'[i] := List.getElem?_eq_getElem (by simpa using h1)
  have hval : ∀ n x y, get? mapping n = some x → get? mapping' n = some y → rows'[i][y]? = rows[i][x]? := a3 i _ _ hg1 hg2
  have hb : ∀ p ∈ mapping', p.2 < rows'[i].length := by
    intro p hp
    have hy := PyDict.get?_of_mem hnd' hp
    obtain ⟨_, x, hx⟩ := hback _ _ hy
    have hxw := h.columns _ _ hx
    rw [← h.rectangular _ hrow] at hxw
    have := hval _ _ _ hx hy
    rw [List.getElem?_eq_getElem hxw] at this
    exact (List.getElem?_eq_some_iff.1 this).1
  obtain ⟨d', hd1, hd2⟩ := arguments_ok hb hfree'
  obtain ⟨d, hd3, hd4⟩ : IsPopulation use Npl Ng (hyperparameters constants mapping rows[i]) ms[i] := by
    have := (List.forall₂_iff_get.1 h.populations).2 i hi h2
    simpa using this
  have hmap : ∀ n, ¬ Rate n → (get? mapping n).isSome → ∃ y, get? mapping' n = some y := fun n h1 h2 =>
    Option.isSome_iff_exists.1 ((a1 n).2 ⟨h2, h1⟩)
  have hagree : Agree d d' := by
    intro n hn
    rw [hd3, hd2]
    unfold hyperparameters
    cases hx : get? mapping n with
    | some x =>
      obtain ⟨y, hy⟩ := hmap n hn (by rw [hx]; rfl)
      rw [hy]
      exact (hval n x y hx hy).symm
    | none =>
      cases hy : get? mapping' n with
      | some y => obtain ⟨_, x, hx'⟩ := hback n y hy; rw [hx] at hx'; simp at hx'
      | none => exact (a5 n fun hh => hn hh.1).symm
  have hrate' : ∀ n, Rate n → get? d' n = if (get? mapping n).isSome then some 0 else get? d n := by
    intro n hn
    rw [hd2, hd3]
    unfold hyperparameters
    cases hy : get? mapping' n with
    | some y => exact absurd hn (hback n y hy).1
    | none =>
      cases hx : get? mapping n with
      | some x => simpa using a4 n hn (by rw [hx]; rfl)
      | none => simpa using a5 n (by rw [hx]; simp)
  obtain ⟨_, _, _, _, _, _, _, _, hl, hr⟩ := nPowerlawMGaussian_ok hd4
  have hnew := nPowerlawMGaussian_agree hagree hd4 (rates ms[i]) (mapM_item (by rw [(hrates _ hm).1, hl]) fun k hk => by
    obtain ⟨v, g1, g2⟩ := hr k hk
    refine ⟨_, (hrates _ hm).2 k v g1, ?_⟩
    rw [hrate' _ (rate_name k), g2]
    split_ifs <;> rfl)
  have hp := h.proper _ hm
  exact computeProbs_ok (θ := fun n => get? d' n) ⟨d', fun n => rfl, hnew⟩ ⟨hp.isLog, hp.outside, hp.validates, hp.shape⟩ ⟨d', by simpa using hd1, fun n => rfl⟩

theorem zipWith_zero (den : List Factor → Comp (List ℝ)) (x : List ℝ) (cs : List (List Factor)) :
    List.zipWith (fun r c => Real.exp r * ((den c).logProb x).expR) (List.replicate cs.length 0) cs =
      cs.map fun c => ((den c).logProb x).expR := by
  induction cs with
  | nil => rfl
  | cons c cs ih => simp [List.replicate_succ, ih]

/-- **C86 (rates wiped).**  If all rates are sampled (and none of them shares its column), then after wiping the rates the file holds at every grid
point the posterior mean of the plain sum of the components' densities there: the sampled rates have no influence on it. -/
theorem C86_wiped (h : Posterior use Npl Ng den width rows mapping constants ms)
    (hsep : ∀ r n x, "log_rate".toList <+: r.toList → get? mapping r = some x → get? mapping n = some x → n = r)
    (hsampled : ∀ i, i < Npl + Ng → (get? mapping ("log_rate_" ++ toString i)).isSome)
    (hlen : parameters.length = domains.length) (hnd : parameters.Nodup) :
    ∃ file, predictive (logpdf use Npl Ng den) width rows mapping constants domains parameters = .ok file ∧ file.headers = parameters ∧
      ∀ σ : Nat → Nat, (∀ i, ∀ hi : i < domains.length, σ i < domains[i].points) →
        file.ppd.val ((List.range domains.length).map σ) = posteriorMean (fun m => unweightedDensity den m (gridPoint domains σ)) ms := by
  have hlens : ∀ m ∈ ms, m.logRates.length = Npl + Ng ∧ m.components.length = Npl + Ng := by
    intro m hm
    obtain ⟨i, hi, rfl⟩ := List.getElem_of_mem hm
    have hi' : i < rows.length := by rw [h.populations.length_eq]; exact hi
    obtain ⟨d, _, hd⟩ := (List.forall₂_iff_get.1 h.populations).2 i hi' hi
    obtain ⟨_, _, _, _, _, _, _, _, hl, _⟩ := nPowerlawMGaussian_ok hd
    exact ⟨hl, (nPowerlawMGaussian_components hd).1⟩
  obtain ⟨w', rows', mapping', constants', e, hF⟩ := wiped h hsep (fun m => List.replicate m.components.length 0) (by
    intro m hm
    obtain ⟨h1, h2⟩ := hlens m hm
    refine ⟨by simp [h1, h2], fun i v hv => ?_⟩
    have hi : i < Npl + Ng := by rw [← h1]; exact (List.getElem?_eq_some_iff.1 hv).1
    rw [if_pos (hsampled i hi), List.getElem?_replicate, if_pos (by omega)])
  have hF' : List.Forall₂ (fun row m => ∃ f, computeProbs (logpdf use Npl Ng den) constants' mapping' row = .ok f ∧
      ∀ x, f x = differentialRate den m x) rows' (ms.map fun m => ⟨List.replicate m.components.length 0, m.components⟩) := by
    rw [List.forall₂_map_right_iff]
    exact hF
  obtain ⟨file, g1, g2, g3⟩ := ppd_ok hlen hnd hF'
  refine ⟨file, by simp only [predictive, e, g1], g2, fun σ hσ => ?_⟩
  rw [g3 σ hσ, posteriorMean, posteriorMean, List.map_map, List.length_map]
  congr 2
  apply List.map_congr_left
  intro m _
  simp only [Function.comp, differentialRate, unweightedDensity, zipWith_zero]

/-- **C86 (one component).**  For a model with one component whose rate is sampled, the file holds at every grid point the posterior mean of the
density of an event: the posterior predictive density. -/
theorem C86_predictive_partial (h : Posterior use Npl Ng den width rows mapping constants ms) (hone : Npl + Ng = 1)
    (hsep : ∀ r n x, "log_rate".toList <+: r.toList → get? mapping r = some x → get? mapping n = some x → n = r)
    (hsampled : (get? mapping "log_rate_0").isSome) (hlen : parameters.length = domains.length) (hnd : parameters.Nodup) :
    ∃ file, predictive (logpdf use Npl Ng den) width rows mapping constants domains parameters = .ok file ∧ file.headers = parameters ∧
      ∀ σ : Nat → Nat, (∀ i, ∀ hi : i < domains.length, σ i < domains[i].points) →
        file.ppd.val ((List.range domains.length).map σ) = posteriorMean (fun m => eventDensity den m (gridPoint domains σ)) ms := by
  obtain ⟨file, g1, g2, g3⟩ := C86_wiped h hsep (by
    intro i hi
    have : i = 0 := by omega
    subst this
    exact hsampled) hlen hnd
  refine ⟨file, g1, g2, fun σ hσ => ?_⟩
  rw [g3 σ hσ, posteriorMean, posteriorMean]
  congr 2
  apply List.map_congr_left
  intro m hm
  obtain ⟨i, hi, rfl⟩ := List.getElem_of_mem hm
  have hi' : i < rows.length := by rw [h.populations.length_eq]; exact hi
  obtain ⟨d, _, hd⟩ := (List.forall₂_iff_get.1 h.populations).2 i hi' hi
  obtain ⟨_, _, _, _, _, _, _, _, hl, _⟩ := nPowerlawMGaussian_ok hd
  have hc := (nPowerlawMGaussian_components hd).1
  rw [hone] at hl hc
  simp only [List.get_eq_getElem] at hl hc
  obtain ⟨r, hr⟩ := List.length_eq_one_iff.1 hl
  obtain ⟨c, hc⟩ := List.length_eq_one_iff.1 hc
  simp only [eventDensity, differentialRate, unweightedDensity, hr, hc]
  simp [mul_div_cancel_left₀ _ (Real.exp_pos r).ne']

/-! ## Witnesses -/

/-- Components centred at one are uniform on the grid, the others vanish there. -/
noncomputable def demoDen (c : List Factor) : Comp (List ℝ) :=
  open Classical in
  let here := c.head?.bind (fun f => f.args.head?.bind fun a => a.value) = some 1
  ⟨fun _ => if here then .fin 0 else .ninf, fun _ => decide here, "", [], true, fun _ => .fin 0⟩

theorem demo_proper (m : Hybrids.Mixture) : Proper demoDen m := by
  refine ⟨fun c _ x => ?_, fun c _ x h => ?_, fun c _ => rfl, fun c _ d _ => rfl⟩
  · simp only [demoDen]
    split_ifs
    · exact XR.isLog_fin 0
    · exact XR.isLog_ninf
  · simp only [demoDen, decide_eq_false_iff_not] at h ⊢
    rw [if_neg h]

/-- One Gaussian component of `NPowerlawMGaussian` with the given location. -/
noncomputable def demoComp (loc : ℝ) : List Factor :=
  [⟨"TruncatedNormal", ["mass_1_source"], [⟨some 0, "loc", some loc⟩, ⟨some 0, "scale", some 1⟩, ⟨some 0, "low", none⟩, ⟨some 0, "high", none⟩]⟩,
   ⟨"TruncatedNormal", ["mass_2_source"], [⟨some 0, "loc", some 1⟩, ⟨some 0, "scale", some 1⟩, ⟨some 0, "low", none⟩, ⟨some 0, "high", none⟩]⟩]

theorem demo_prob (loc : ℝ) (x : List ℝ) : ((demoDen (demoComp loc)).logProb x).expR = if loc = 1 then 1 else 0 := by
  simp only [demoDen, demoComp, List.head?_cons, Option.bind_some, Option.some.injEq]
  split_ifs <;> simp

/-- Two components, rates sampled. -/
noncomputable def demoFixed : Dict String ℝ := [("m1_loc_g_0", 1), ("m1_loc_g_1", 2), ("m1_scale_g", 1), ("m2_loc_g", 1), ("m2_scale_g", 1)]

theorem demo_posterior : Posterior (fun _ => false) 0 2 demoDen 2 [[Real.log 3, 0]] [("log_rate_0", 0), ("log_rate_1", 1)] demoFixed
    [⟨[Real.log 3, 0], [demoComp 1, demoComp 2]⟩] := by
  refine ⟨by decide +kernel, ?_, by simp, ?_, .cons ?_ .nil, fun m _ => demo_proper m⟩
  · intro n x h
    have := PyDict.mem_of_get? h
    simp only [List.mem_cons, Prod.mk.injEq, List.not_mem_nil, or_false] at this
    omega
  · have : PyDict.keys demoFixed = ["m1_loc_g_0", "m1_loc_g_1", "m1_scale_g", "m2_loc_g", "m2_scale_g"] := rfl
    rw [this]
    decide +kernel
  · refine ⟨demoFixed ++ [("log_rate_0", Real.log 3), ("log_rate_1", 0)], fun n => ?_, rfl⟩
    obtain ⟨d, h1, h2⟩ := arguments_ok (constants := demoFixed) (mapping := [("log_rate_0", 0), ("log_rate_1", 1)]) (row := [Real.log 3, 0])
      (by simp) (by
        have : PyDict.keys demoFixed = ["m1_loc_g_0", "m1_loc_g_1", "m1_scale_g", "m2_loc_g", "m2_scale_g"] := rfl
        rw [this]
        decide +kernel)
    have : d = demoFixed ++ [("log_rate_0", Real.log 3), ("log_rate_1", 0)] := by
      have h3 : arguments demoFixed [("log_rate_0", 0), ("log_rate_1", 1)] [Real.log 3, 0] =
        .ok (demoFixed ++ [("log_rate_0", Real.log 3), ("log_rate_1", 0)]) := rfl
      rw [h1] at h3
      exact Except.ok.inj h3
    rw [← this, h2]

/-- **C86 (violated for several components).**  Two components whose sampled rates are as three to one: the first is uniform on the grid, the second
vanishes there, so an event has density 3/4 on the grid; the file written after wiping the rates says 1 — both components were given the same
weight, and the result is not a density. -/
theorem C86_relative_rates_lost_violated :
    ∃ (den : List Factor → Comp (List ℝ)) (rows : List (List ℝ)) (mapping : Dict String Nat) (constants : Dict String ℝ) (ms : List Hybrids.Mixture),
      Posterior (fun _ => false) 0 2 den 2 rows mapping constants ms ∧
      ∃ file, predictive (logpdf (fun _ => false) 0 2 den) 2 rows mapping constants [⟨1, 2, 2⟩, ⟨1, 2, 2⟩] ["mass_1_source", "mass_2_source"] = .ok file ∧
        ∀ i < 2, ∀ j < 2, file.ppd.val [i, j] = 1 ∧ ∀ x, posteriorMean (fun m => eventDensity den m x) ms = 3 / 4 := by
  refine ⟨demoDen, _, _, _, _, demo_posterior, ?_⟩
  obtain ⟨file, g1, _, g3⟩ := C86_wiped (domains := [⟨1, 2, 2⟩, ⟨1, 2, 2⟩]) (parameters := ["mass_1_source", "mass_2_source"]) demo_posterior
    (by
      intro r n x _ h1 h2
      have h1 := PyDict.mem_of_get? h1
      have h2 := PyDict.mem_of_get? h2
      simp only [List.mem_cons, Prod.mk.injEq, List.not_mem_nil, or_false] at h1 h2
      rcases h1 with ⟨rfl, rfl⟩ | ⟨rfl, rfl⟩ <;> rcases h2 with ⟨rfl, h⟩ | ⟨rfl, h⟩ <;> first | rfl | omega)
    (by decide +kernel) rfl (by decide)
  refine ⟨file, g1, fun i hi j hj => ⟨?_, fun x => ?_⟩⟩
  · have := g3 (fun k => if k = 0 then i else j) (by
      intro k hk
      have : k = 0 ∨ k = 1 := by simp at hk; omega
      rcases this with rfl | rfl <;> simp [hi, hj])
    simp only [List.length_cons, List.length_nil, List.range_succ, List.range_zero, List.nil_append, List.map_cons, List.map_nil,
      List.cons_append, if_true, one_ne_zero, if_false] at this
    rw [this]
    simp [posteriorMean, unweightedDensity, demo_prob]
  · simp only [posteriorMean, eventDensity, differentialRate, List.map_cons, List.map_nil, List.zipWith_cons_cons, demo_prob]
    rw [Real.exp_log (by norm_num)]
    simp
    norm_num

/-- **C86 (violated for a fixed rate).**  A rate given as a constant is not wiped: with one component and `log_rate_0` fixed at `log 2`, the file holds
twice the density of an event. -/
theorem C86_fixed_rate_violated :
    ∃ (den : List Factor → Comp (List ℝ)) (rows : List (List ℝ)) (mapping : Dict String Nat) (constants : Dict String ℝ) (ms : List Hybrids.Mixture),
      Posterior (fun _ => false) 0 1 den 1 rows mapping constants ms ∧
      ∃ file, predictive (logpdf (fun _ => false) 0 1 den) 1 rows mapping constants [⟨1, 2, 2⟩, ⟨1, 2, 2⟩] ["mass_1_source", "mass_2_source"] = .ok file ∧
        ∀ i < 2, ∀ j < 2, file.ppd.val [i, j] = 2 ∧ ∀ x, posteriorMean (fun m => eventDensity den m x) ms = 1 := by
  let fixed : Dict String ℝ := [("log_rate_0", Real.log 2), ("m1_loc_g", 1), ("m1_scale_g", 1), ("m2_scale_g", 1)]
  have hkeys : PyDict.keys fixed = ["log_rate_0", "m1_loc_g", "m1_scale_g", "m2_scale_g"] := rfl
  have hpost : Posterior (fun _ => false) 0 1 demoDen 1 [[1]] [("m2_loc_g", 0)] fixed [⟨[Real.log 2], [demoComp 1]⟩] := by
    refine ⟨by decide +kernel, ?_, by simp, ?_, .cons ?_ .nil, fun m _ => demo_proper m⟩
    · intro n x h
      have := PyDict.mem_of_get? h
      simp only [List.mem_cons, Prod.mk.injEq, List.not_mem_nil, or_false] at this
      omega
    · rw [hkeys]
      decide +kernel
    · refine ⟨fixed ++ [("m2_loc_g", 1)], fun n => ?_, rfl⟩
      obtain ⟨d, h1, h2⟩ := arguments_ok (constants := fixed) (mapping := [("m2_loc_g", 0)]) (row := [1]) (by simp) (by
        rw [hkeys]
        decide +kernel)
      have h3 : arguments fixed [("m2_loc_g", 0)] [1] = .ok (fixed ++ [("m2_loc_g", 1)]) := rfl
      rw [h1] at h3
      rw [← Except.ok.inj h3, h2]
  refine ⟨demoDen, _, _, _, _, hpost, ?_⟩
  have hwipe : wipeLogRate 0 1 [[1]] [("m2_loc_g", 0)] fixed = .ok (1, [[1]], [("m2_loc_g", 0)], fixed) := rfl
  obtain ⟨file, g1, _, g3⟩ := C86_differential_rate (domains := [⟨1, 2, 2⟩, ⟨1, 2, 2⟩]) (parameters := ["mass_1_source", "mass_2_source"]) hpost rfl (by decide)
  refine ⟨file, by simp only [predictive, hwipe, g1], fun i hi j hj => ⟨?_, fun x => ?_⟩⟩
  · have := g3 (fun k => if k = 0 then i else j) (by
      intro k hk
      have : k = 0 ∨ k = 1 := by simp at hk; omega
      rcases this with rfl | rfl <;> simp [hi, hj])
    simp only [List.length_cons, List.length_nil, List.range_succ, List.range_zero, List.nil_append, List.map_cons, List.map_nil,
      List.cons_append, if_true, one_ne_zero, if_false] at this
    rw [this]
    simp only [posteriorMean, differentialRate, List.map_cons, List.map_nil, List.zipWith_cons_cons, demo_prob]
    rw [Real.exp_log (by norm_num)]
    simp
  · simp only [posteriorMean, eventDensity, differentialRate, List.map_cons, List.map_nil, List.zipWith_cons_cons, demo_prob]
    rw [Real.exp_log (by norm_num)]
    simp

/-- A one-component posterior with a sampled rate and a sampled location: the hypotheses of `C86_predictive_partial` hold. -/
example : let fixed : Dict String ℝ := [("m1_loc_g", 1), ("m1_scale_g", 1), ("m2_scale_g", 1)]
    Posterior (fun _ => false) 0 1 demoDen 2 [[Real.log 5, 1], [0, 1]] [("log_rate_0", 0), ("m2_loc_g", 1)] fixed
      [⟨[Real.log 5], [demoComp 1]⟩, ⟨[0], [demoComp 1]⟩] ∧
    ∃ file, predictive (logpdf (fun _ => false) 0 1 demoDen) 2 [[Real.log 5, 1], [0, 1]] [("log_rate_0", 0), ("m2_loc_g", 1)] fixed
      [⟨1, 2, 2⟩, ⟨1, 2, 2⟩] ["mass_1_source", "mass_2_source"] = .ok file := by
  intro fixed
  have hkeys : PyDict.keys fixed = ["m1_loc_g", "m1_scale_g", "m2_scale_g"] := rfl
  have hpop : ∀ a : ℝ, IsPopulation (fun _ => false) 0 1 (hyperparameters fixed [("log_rate_0", 0), ("m2_loc_g", 1)] [a, 1]) ⟨[a], [demoComp 1]⟩ := by
    intro a
    refine ⟨fixed ++ [("log_rate_0", a), ("m2_loc_g", 1)], fun n => ?_, rfl⟩
    obtain ⟨d, h1, h2⟩ := arguments_ok (constants := fixed) (mapping := [("log_rate_0", 0), ("m2_loc_g", 1)]) (row := [a, 1]) (by simp) (by
      rw [hkeys]
      decide +kernel)
    have h3 : arguments fixed [("log_rate_0", 0), ("m2_loc_g", 1)] [a, 1] = .ok (fixed ++ [("log_rate_0", a), ("m2_loc_g", 1)]) := rfl
    rw [h1] at h3
    rw [← Except.ok.inj h3, h2]
  have hpost : Posterior (fun _ => false) 0 1 demoDen 2 [[Real.log 5, 1], [0, 1]] [("log_rate_0", 0), ("m2_loc_g", 1)] fixed
      [⟨[Real.log 5], [demoComp 1]⟩, ⟨[0], [demoComp 1]⟩] := by
    refine ⟨by decide +kernel, ?_, by simp, ?_, .cons (hpop _) (.cons (hpop _) .nil), fun m _ => demo_proper m⟩
    · intro n x h
      have := PyDict.mem_of_get? h
      simp only [List.mem_cons, Prod.mk.injEq, List.not_mem_nil, or_false] at this
      omega
    · rw [hkeys]
      decide +kernel
  refine ⟨hpost, ?_⟩
  obtain ⟨file, g1, _⟩ := C86_predictive_partial (domains := [⟨1, 2, 2⟩, ⟨1, 2, 2⟩]) (parameters := ["mass_1_source", "mass_2_source"]) hpost rfl
    (by
      intro r n x _ h1 h2
      have h1 := PyDict.mem_of_get? h1
      have h2 := PyDict.mem_of_get? h2
      simp only [List.mem_cons, Prod.mk.injEq, List.not_mem_nil, or_false] at h1 h2
      rcases h1 with ⟨rfl, rfl⟩ | ⟨rfl, rfl⟩ <;> rcases h2 with ⟨rfl, h⟩ | ⟨rfl, h⟩ <;> first | rfl | omega)
    (by decide +kernel) rfl (by decide)
  exact ⟨file, g1⟩

end GW.Ppd
