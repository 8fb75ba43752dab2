import Verif.Lemmas.PpdPlot
import Verif.Props.Scripts

/-!
# C104: the plot of a posterior predictive file shows the posterior mean, with its bands
-/

namespace GW.Ppd
open GW.Tools (Err)

/-- **C104.**  The file that `compute_and_save_ppd` writes is plotted without error, one panel per parameter in the order of the parameters.  The panel of parameter `k` has its
name, the points of its grid on the x axis, the bands of its marginal densities over the posterior samples, and as predictive curve, at every grid point, the mean over the
posterior samples of those same marginal densities. -/
theorem C104_panels (density : Nat → List ℝ → ℝ) (nSamples : Nat) (hn : 0 < nSamples) (domains : List Domain) (parameters : List String)
    (hlen : parameters.length = domains.length) (hnd : parameters.Nodup) (hpts : ∀ d ∈ domains, 0 < d.points) (file : PpdFile)
    (hf : computeAndSave density nSamples domains parameters = .ok file) :
    ∃ ps, panels file = .ok ps ∧ ps.length = domains.length ∧ ∀ k, ∀ hk : k < domains.length, ∃ p, ps[k]? = some p ∧
      parameters[k]? = some p.header ∧
      p.xs = (List.range domains[k].points).map (gridAt domains[k]) ∧
      p.predictive = ((List.range domains[k].points).map fun t => (∑ s ∈ Finset.range nSamples, sampleMarginal k domains density s t) / nSamples) ∧
      Scripts.IsBands ((List.range domains[k].points).map fun t => (List.range nSamples).map fun s => sampleMarginal k domains density s t) p.bands := by
  obtain ⟨file', hf', hh, hd, hs, hv, hmn, hmk⟩ := C41_saved_file density nSamples domains parameters hlen hnd
  rw [hf] at hf'
  cases hf'
  obtain ⟨ms, hms, hml, hmv⟩ := allMarginals_plain file.ppd domains hs
  have hpos : ∀ i, ∀ hi : i < domains.length, 0 < domains[i].points := fun i hi => hpts _ (List.getElem_mem hi)
  have hfind : ∀ k, ∀ hk : k < domains.length, file.marginals.find? (·.1 == parameters[k]) = file.marginals[k]? := by
    intro k hk
    obtain ⟨m, hm, -⟩ := hmk k hk
    rw [hm, List.find?_eq_some_iff_getElem]
    have hkl : k < file.marginals.length := by
      rw [List.getElem?_eq_some_iff] at hm; exact hm.1
    refine ⟨by simp, k, hkl, ?_, ?_⟩
    · rw [List.getElem?_eq_some_iff] at hm; exact hm.2
    · intro j hj
      have hjl : j < file.marginals.length := by omega
      have hj1 : (file.marginals[j]).1 = parameters[j] := by
        have := congrArg (fun l => l[j]?) hmn
        simp only [List.getElem?_map, List.getElem?_eq_getElem hjl, Option.map_some] at this
        rw [List.getElem?_eq_getElem (by omega)] at this
        exact Option.some.inj this
      rw [hj1]
      have : parameters[j] ≠ parameters[k] := by
        intro h
        have := (List.Nodup.getElem_inj_iff hnd).1 h
        omega
      simpa using this
  choose mk hmk1 hmk2 hmk3 using hmk
  choose mp hmp1 hmp2 hmp3 using hmv
  -- values of the marginals of the samples
  have hsm : ∀ k, ∀ hk : k < domains.length, ∀ t, t < domains[k].points → ∀ s, (mk k hk).val [t, s] = sampleMarginal k domains density s t := by
    intro k hk t ht s
    let σ : Nat → Nat := fun i => if i = domains.length then s else if i = k then t else 0
    have hσ : ∀ i, ∀ hi : i < domains.length, σ i < domains[i].points := by
      intro i hi
      simp only [σ, if_neg (show i ≠ domains.length by omega)]
      by_cases hik : i = k
      · subst hik; rw [if_pos rfl]; exact ht
      · rw [if_neg hik]; exact hpos i hi
    have h := hmk3 k hk σ hσ
    have e1 : σ k = t := by simp only [σ, if_neg (show k ≠ domains.length by omega), if_true]
    have e2 : σ domains.length = s := by simp only [σ, if_true]
    rw [e1, e2] at h
    rw [h, integrateOut_congr' k domains (fun τ => τ domains.length = s)
      (fun τ i v hi _ hτ => by rw [Function.update_of_ne (by omega)]; exact hτ)
      (G := fun τ => density s (gridPoint domains τ)) (fun τ hτ => by rw [hτ]) e2]
    unfold sampleMarginal
    -- the value does not depend on the other entries of the assignment
    have key : ∀ (ds : List (Domain × Nat)) (F : (Nat → Nat) → ℝ) (P : Nat), (∀ τ τ' : Nat → Nat, (∀ i, i < P → τ i = τ' i) → F τ = F τ') →
        ∀ τ τ' : Nat → Nat, (∀ i, i < P → τ i = τ' i) →
        ds.foldl (fun F p => if p.2 = k then F else fun σ => trapezoidal p.1 fun t => F (Function.update σ p.2 t)) F τ =
          ds.foldl (fun F p => if p.2 = k then F else fun σ => trapezoidal p.1 fun t => F (Function.update σ p.2 t)) F τ' := by
      intro ds
      induction ds with
      | nil => intro F P hF τ τ' h; exact hF τ τ' h
      | cons p ds ih =>
        intro F P hF τ τ' h
        rw [List.foldl_cons]
        refine ih _ P ?_ τ τ' h
        intro a b hab
        by_cases hp : p.2 = k
        · simp only [hp, if_true]; exact hF a b hab
        · simp only [hp, if_false]
          congr 1
          funext v
          refine hF _ _ fun i hi => ?_
          by_cases hip : i = p.2
          · subst hip; simp
          · rw [Function.update_of_ne hip, Function.update_of_ne hip]; exact hab i hi
    refine key _ _ domains.length (fun τ τ' h => by rw [gridPoint_congr h]) _ _ fun i hi => ?_
    simp only [σ, if_neg (show i ≠ domains.length by omega)]
  -- values of the marginals of the predictive array
  have hpm : ∀ k, ∀ hk : k < domains.length, ∀ t, t < domains[k].points → (mp k hk).val [t] =
      (∑ s ∈ Finset.range nSamples, sampleMarginal k domains density s t) / nSamples := by
    intro k hk t ht
    let σ : Nat → Nat := fun i => if i = k then t else 0
    have hσ : ∀ i, ∀ hi : i < domains.length, σ i < domains[i].points := by
      intro i hi
      by_cases hik : i = k
      · subst hik; simp only [σ, if_true]; exact ht
      · simp only [σ, if_neg hik]; exact hpos i hi
    have h := hmp3 k hk σ
    have e1 : σ k = t := by simp only [σ, if_true]
    rw [e1] at h
    rw [h, integrateOut_congr k domains (G := fun τ => (∑ s ∈ Finset.range nSamples, density s (gridPoint domains τ)) / nSamples)
      (fun τ hτ => hv τ hτ) σ hσ, integrateOut_mean]
    rfl
  -- the panels
  let panel : String × Nat → Panel := fun p =>
    if h : p.2 < domains.length then
      { header := p.1, xs := (List.range domains[p.2].points).map domains[p.2].at, predictive := (mp p.2 h).toList,
        bands := Scripts.curves (mk p.2 h).toRows }
    else { header := "", xs := [], predictive := [], bands := [] }
  have hlook : file.headers.mapM file.marginal =
      .ok (parameters.map fun h => ((file.marginals.find? (·.1 == h)).map (·.2)).getD ⟨[], fun _ => 0⟩) := by
    rw [hh]
    apply mapM_ok
    intro h hmem
    obtain ⟨k, hkl, rfl⟩ := List.getElem_of_mem hmem
    unfold PpdFile.marginal
    rw [hfind k (by omega), hmk1 k (by omega)]
    rfl
  have hps : panels file = .ok (parameters.zipIdx.map panel) := by
    unfold panels
    rw [hlook, hd]
    simp only [hms]
    rw [hh]
    apply mapM_ok
    intro p hp
    have hp' := List.mem_zipIdx_iff_getElem?.1 hp
    have hk : p.2 < domains.length := by
      rw [List.getElem?_eq_some_iff] at hp'; obtain ⟨h, -⟩ := hp'; omega
    have hpk : parameters[p.2]'(by omega) = p.1 := by
      rw [List.getElem?_eq_getElem (by omega)] at hp'; exact Option.some.inj hp'
    have h1 : (parameters.map fun h => ((file.marginals.find? (·.1 == h)).map (·.2)).getD ⟨[], fun _ => 0⟩)[p.2]? = some (mk p.2 hk) := by
      rw [List.getElem?_map, List.getElem?_eq_getElem (by omega)]
      simp only [Option.map_some, hfind p.2 hk, hmk1 p.2 hk, Option.getD_some]
    rw [h1, hmp1 p.2 hk, List.getElem?_eq_getElem hk]
    simp only [panel, dif_pos hk]
  refine ⟨_, hps, by simp [hlen], fun k hk => ⟨panel (parameters[k]'(by omega), k), ?_, ?_, ?_, ?_, ?_⟩⟩
  · rw [List.getElem?_map, List.getElem?_zipIdx, List.getElem?_eq_getElem (by omega)]
    simp
  · simp only [panel, dif_pos hk]
    rw [List.getElem?_eq_getElem (by omega)]
  · simp only [panel, dif_pos hk, at_eq]
  · simp only [panel, dif_pos hk, Arr.toList, hmp2 k hk, List.headD_cons]
    apply List.map_congr_left
    intro t ht
    rw [List.mem_range] at ht
    exact hpm k hk t ht
  · simp only [panel, dif_pos hk]
    have hrows : (mk k hk).toRows = (List.range domains[k].points).map fun t => (List.range nSamples).map fun s => sampleMarginal k domains density s t := by
      simp only [Arr.toRows, hmk2 k hk, List.headD_cons]
      apply List.map_congr_left
      intro t ht
      rw [List.mem_range] at ht
      show (List.range nSamples).map _ = _
      apply List.map_congr_left
      intro s _
      exact hsm k hk t ht s
    rw [hrows]
    apply Scripts.curves_bands
    intro line hline
    rw [List.mem_map] at hline
    obtain ⟨t, -, rfl⟩ := hline
    simp
    omega

/-- **C104 (between the samples).**  At every grid point the predictive curve lies between the smallest and the largest of the marginal densities of the posterior samples. -/
theorem C104_between_samples (k : Nat) (domains : List Domain) (density : Nat → List ℝ → ℝ) (nSamples t : Nat) (hn : 0 < nSamples) :
    (∃ s < nSamples, sampleMarginal k domains density s t ≤ (∑ s ∈ Finset.range nSamples, sampleMarginal k domains density s t) / nSamples) ∧
    (∃ s < nSamples, (∑ s ∈ Finset.range nSamples, sampleMarginal k domains density s t) / nSamples ≤ sampleMarginal k domains density s t) := by
  have hn' : (0 : ℝ) < nSamples := by exact_mod_cast hn
  have hne : (Finset.range nSamples).Nonempty := Finset.nonempty_range_iff.2 (by omega)
  constructor
  · by_contra h
    push Not at h
    have := Finset.sum_lt_sum_of_nonempty hne (fun s hs => h s (Finset.mem_range.1 hs))
    rw [Finset.sum_const, Finset.card_range, nsmul_eq_mul, mul_div_cancel₀ _ hn'.ne'] at this
    exact lt_irrefl _ this
  · by_contra h
    push Not at h
    have := Finset.sum_lt_sum_of_nonempty hne (fun s hs => h s (Finset.mem_range.1 hs))
    rw [Finset.sum_const, Finset.card_range, nsmul_eq_mul, mul_div_cancel₀ _ hn'.ne'] at this
    exact lt_irrefl _ this

/-- Two parameters, three points each, two samples with densities `x` and `3 y`: the file exists, and the marginal of the first parameter at its last point. -/
example : ∃ file, computeAndSave (fun s x => if s = 0 then x.getD 0 0 else 3 * x.getD 1 0) 2 [⟨0, 1, 3⟩, ⟨0, 2, 3⟩] ["a", "b"] = .ok file ∧
    (∀ d ∈ [(⟨0, 1, 3⟩ : Domain), ⟨0, 2, 3⟩], 0 < d.points) ∧
    sampleMarginal 0 [⟨0, 1, 3⟩, ⟨0, 2, 3⟩] (fun s x => if s = 0 then x.getD 0 0 else 3 * x.getD 1 0) 0 2 = 2 := by
  obtain ⟨file, h, -⟩ := C41_saved_file (fun s x => if s = 0 then x.getD 0 0 else 3 * x.getD 1 0) 2 [⟨0, 1, 3⟩, ⟨0, 2, 3⟩] ["a", "b"] rfl (by decide)
  refine ⟨file, h, by simp, ?_⟩
  norm_num [sampleMarginal, integrateOut, trapezoidal, gridAt, gridPoint, Finset.sum_range_succ, Function.update]

end GW.Ppd
