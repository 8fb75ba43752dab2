import Verif.Lemmas.Ppd

/-!
# C40, C41: posterior predictive densities
-/

namespace GW.Ppd
open PyDict (Dict get?)
open GW.Tools (Err)

variable {V : Type}

set_option synthInstance.maxSize 512

/-! ## C40 -/

theorem isRate_iff (n : String) : isRate n = true ↔ "log_rate".toList <+: n.toList := by
  rw [isRate, List.isPrefixOf_iff_prefix]

/-- **C40.**  Let every name point to an existing column and let no name share the column of a rate parameter (a name starting with
`log_rate`).  Then `wipe_log_rate` succeeds; the remaining names are exactly the names that are not rate parameters; from every row
exactly the columns of rate parameters are removed, the others staying in order; every remaining name points to the value it pointed to
before, in every row; and the constants give zero to the removed rate parameters and are otherwise unchanged. -/
theorem C40_wipe_log_rate_partial (zero : V) (width : Nat) (rows : List (List V)) (mapping : Dict String Nat) (constants : Dict String V)
    (hkeys : (PyDict.keys mapping).Nodup) (hbound : ∀ n x, get? mapping n = some x → x < width)
    (hsep : ∀ r n x, "log_rate".toList <+: r.toList → get? mapping r = some x → get? mapping n = some x → n = r) :
    ∃ width' rows' mapping' constants',
      wipeLogRate zero width rows mapping constants = .ok (width', rows', mapping', constants') ∧
      (∀ n, (get? mapping' n).isSome ↔ (get? mapping n).isSome ∧ ¬ "log_rate".toList <+: n.toList) ∧
      rows' = rows.map (keepColumns ((mapping.filter fun p => "log_rate".toList <+: p.1.toList).map (·.2))) ∧
      (∀ (i : Nat) (row row' : List V), rows[i]? = some row → rows'[i]? = some row' →
        ∀ n x y, get? mapping n = some x → get? mapping' n = some y → row'[y]? = row[x]?) ∧
      (∀ n, "log_rate".toList <+: n.toList → (get? mapping n).isSome → get? constants' n = some zero) ∧
      (∀ n, ¬ ("log_rate".toList <+: n.toList ∧ (get? mapping n).isSome) → get? constants' n = get? constants n) := by
  classical
  have hg : Good width mapping := ⟨hbound, fun r n x hr => hsep r n x ((isRate_iff r).1 hr)⟩
  obtain ⟨w', r', m', c', e, a1, a2, a3, a4, a5, a6⟩ := wipeLoop_spec zero (PyDict.keys mapping) width rows mapping constants hg hkeys
    (fun n _ => PyDict.mem_keys_iff mapping n)
  refine ⟨w', r', m', c', e, ?_, ?_, ?_, ?_, ?_⟩
  · intro n
    rw [← isRate_iff]
    by_cases hn : isRate n = true
    · rw [a1 n hn]; simp [hn]
    · rw [a2 n (by simpa using hn)]; simp [hn]
  · rw [a3]
    apply List.map_congr_left
    intro row _
    rw [keep_eq, keepColumns]
    congr 1
    apply List.filter_congr
    intro p _
    congr 1
    rw [eq_iff_iff, not_iff_not]
    constructor
    · rintro ⟨r, hr, hx⟩
      refine List.mem_map.2 ⟨(r, p.2), ?_, rfl⟩
      rw [List.mem_filter]
      exact ⟨PyDict.mem_of_get? hx, decide_eq_true ((isRate_iff r).1 hr)⟩
    · intro h
      obtain ⟨q, hq, hq2⟩ := List.mem_map.1 h
      rw [List.mem_filter] at hq
      refine ⟨q.1, (isRate_iff _).2 (of_decide_eq_true hq.2), ?_⟩
      rw [← hq2]
      exact PyDict.get?_of_mem hkeys hq.1
  · intro i row row' h1 h2 n x y hx hy
    rw [a3, List.getElem?_map, h1] at h2
    simp only [Option.map_some, Option.some.injEq] at h2
    rw [← h2]
    exact a4 n x y hy hx row
  · intro n hn hs
    exact a5 n ((isRate_iff n).2 hn) hs
  · intro n hn
    rw [← isRate_iff] at hn
    exact a6 n hn

/-- Two rates and two other parameters, in mixed order. -/
example : (wipeLogRate (0 : Nat) 4 [[1, 2, 3, 4], [5, 6, 7, 8]] [("log_rate_0", 1), ("alpha", 0), ("beta", 3), ("log_rate_1", 2)]
    []).toOption = some (2, [[1, 4], [5, 8]], [("alpha", 0), ("beta", 1)], [("log_rate_0", 0), ("log_rate_1", 0)]) := by
  decide +kernel

/-- The hypotheses hold in that case. -/
example : (PyDict.keys [("log_rate_0", 1), ("alpha", 0), ("beta", 3), ("log_rate_1", 2)]).Nodup ∧
    (∀ p ∈ [("log_rate_0", 1), ("alpha", 0), ("beta", 3), ("log_rate_1", 2)], p.2 < 4) := by
  decide +kernel

/-- **C40, error branch.**  If the first rate parameter of the mapping points to a column that does not exist, the call raises `IndexError` and nothing is removed. -/
theorem C40_missing_column_rejected (zero : V) (width : Nat) (rows : List (List V)) (before after : Dict String Nat) (r : String) (i : Nat) (constants : Dict String V)
    (hkeys : (PyDict.keys (before ++ (r, i) :: after)).Nodup) (hb : ∀ p ∈ before, ¬ "log_rate".toList <+: p.1.toList) (hr : "log_rate".toList <+: r.toList) (hi : width ≤ i) :
    wipeLogRate zero width rows (before ++ (r, i) :: after) constants = .error .index := by
  have hskip : ∀ (l : List String) (ks : List String) (st : Nat × List (List V) × Dict String Nat × Dict String V),
      (∀ n ∈ l, isRate n = false) → wipeLoop zero (l ++ ks) st = wipeLoop zero ks st := by
    intro l ks st
    induction l with
    | nil => intro _; rfl
    | cons n l ih =>
      intro h
      have hn : wipeStep zero n st = .ok st := by
        simp only [wipeStep, h n (by simp), Bool.false_eq_true, if_false]
      simp only [List.cons_append, wipeLoop, hn]
      exact ih fun m hm => h m (by simp [hm])
  have hk : PyDict.keys (before ++ (r, i) :: after) = PyDict.keys before ++ r :: PyDict.keys after := by simp [PyDict.keys]
  have hget : get? (before ++ (r, i) :: after) r = some i := PyDict.get?_of_mem hkeys (by simp)
  rw [wipeLogRate, hk, hskip]
  · simp only [wipeLoop, wipeStep, (isRate_iff r).2 hr, if_true, hget, deleteColumn, if_neg (not_lt.2 hi)]
  · intro n hn
    obtain ⟨p, hp, rfl⟩ := List.mem_map.1 hn
    have := hb p hp
    rw [← isRate_iff] at this
    simpa using this

/-- A mapping of another run, with more columns. -/
example : wipeLogRate (0 : Nat) 2 [[1, 2]] ([("alpha", 0)] ++ ("log_rate", 2) :: [("beta", 1)]) [] = .error .index :=
  C40_missing_column_rejected _ _ _ _ _ _ _ _ (by decide +kernel) (by decide +kernel) (by decide +kernel) (by decide)

/-- **C40 (violated for aliases).**  When a second rate parameter is an alias of the first one (both names point to one column, as
happens when a parameter is declared equal to another), the column of an unrelated parameter is deleted too, and that parameter is left
pointing to another parameter's values. -/
theorem C40_alias_of_rate_violated :
    ∃ (rows : List (List Nat)) (mapping : Dict String Nat), (PyDict.keys mapping).Nodup ∧
      (∀ n x, get? mapping n = some x → x < 3) ∧ get? mapping "alpha" = some 1 ∧ rows = [[10, 11, 12]] ∧
      ∃ rows' mapping' constants',
        wipeLogRate 0 3 rows mapping [] = .ok (1, rows', mapping', constants') ∧
        get? mapping' "alpha" = some 0 ∧ rows' = [[12]] := by
  refine ⟨[[10, 11, 12]], [("log_rate_0", 0), ("log_rate_1", 0), ("alpha", 1), ("beta", 2)], by decide +kernel, ?_, by decide +kernel,
    rfl, ?_⟩
  · intro n x h
    have := PyDict.mem_of_get? h
    simp only [List.mem_cons, Prod.mk.injEq, List.not_mem_nil, or_false] at this
    omega
  · refine ⟨[[12]], [("alpha", 0), ("beta", 0)], [("log_rate_0", 0), ("log_rate_1", 0)], ?_, by decide +kernel, rfl⟩
    have h : (wipeLogRate (0 : Nat) 3 [[10, 11, 12]] [("log_rate_0", 0), ("log_rate_1", 0), ("alpha", 1), ("beta", 2)] []).toOption =
        some (1, [[12]], [("alpha", 0), ("beta", 0)], [("log_rate_0", 0), ("log_rate_1", 0)]) := by decide +kernel
    cases hr : wipeLogRate (0 : Nat) 3 [[10, 11, 12]] [("log_rate_0", 0), ("log_rate_1", 0), ("alpha", 1), ("beta", 2)] [] with
    | error e => rw [hr] at h; simp [Except.toOption] at h
    | ok v => rw [hr] at h; simp only [Except.toOption, Option.some.injEq] at h; rw [h]

/-! ## C41 -/

theorem at_eq (d : Domain) : d.at = gridAt d := by
  funext i
  unfold Domain.at gridAt
  ring

theorem trapz_eq (d : Domain) : trapz d = trapezoidal d := by
  funext f
  unfold trapz trapezoidal
  rw [at_eq]
  exact Finset.sum_congr rfl fun t _ => by ring

/-- Integration only uses the values at points of the grid. -/
theorem integrateOut_congr (k : Nat) (domains : List Domain) {F G : (Nat → Nat) → ℝ}
    (h : ∀ σ : Nat → Nat, (∀ i, ∀ hi : i < domains.length, σ i < domains[i].points) → F σ = G σ) (σ : Nat → Nat)
    (hσ : ∀ i, ∀ hi : i < domains.length, σ i < domains[i].points) : integrateOut k domains F σ = integrateOut k domains G σ := by
  unfold integrateOut
  have key : ∀ (ds : List (Domain × Nat)), (∀ p ∈ ds, domains[p.2]? = some p.1) → ∀ F G : (Nat → Nat) → ℝ,
      (∀ σ : Nat → Nat, (∀ i, ∀ hi : i < domains.length, σ i < domains[i].points) → F σ = G σ) →
      ds.foldl (fun F p => if p.2 = k then F else fun σ => trapezoidal p.1 fun t => F (Function.update σ p.2 t)) F σ =
        ds.foldl (fun F p => if p.2 = k then F else fun σ => trapezoidal p.1 fun t => F (Function.update σ p.2 t)) G σ := by
    intro ds
    induction ds with
    | nil => intro _ F G hFG; exact hFG σ hσ
    | cons p ds ih =>
      intro hds F G hFG
      rw [List.foldl_cons, List.foldl_cons]
      refine ih (fun q hq => hds q (List.mem_cons_of_mem _ hq)) _ _ fun τ hτ => ?_
      by_cases hp : p.2 = k
      · simp only [hp, if_true]
        exact hFG τ hτ
      · simp only [hp, if_false]
        have hup : ∀ t, t < p.1.points → F (Function.update τ p.2 t) = G (Function.update τ p.2 t) := by
          intro t ht
          refine hFG _ fun i hi => ?_
          by_cases hip : i = p.2
          · subst hip
            have := hds p (by simp)
            rw [List.getElem?_eq_getElem hi, Option.some.injEq] at this
            rw [Function.update_self, this]
            exact ht
          · rw [Function.update_of_ne hip]
            exact hτ i hi
        unfold trapezoidal
        refine Finset.sum_congr rfl fun t ht => ?_
        rw [Finset.mem_range] at ht
        simp only
        rw [hup t (by omega), hup (t + 1) (by omega)]
  refine key _ (fun p hp => ?_) F G h
  obtain ⟨d, i⟩ := p
  exact (List.mem_zipIdx_iff_getElem?.1 hp)

/-- **C41 (marginal).**  Let `probs` have one axis per domain, with as many points, and a last axis for the posterior samples.  For
every parameter `k`, the `k`-th marginal exists, has the shape (points of `k`, samples), and its value at grid index `σ k` and sample
`σ P` is the integral of `probs` over all parameter axes except `k`, the axes and grids being those of the original numbering. -/
theorem C41_marginal (probs : Arr) (domains : List Domain) (nSamples k : Nat) (hk : k < domains.length)
    (hshape : probs.shape = domains.map Domain.points ++ [nSamples]) :
    ∃ m, computeMarginal probs k domains = .ok m ∧ m.shape = [domains[k].points, nSamples] ∧
      ∀ σ : Nat → Nat, m.val [σ k, σ domains.length] =
        integrateOut k domains (fun σ => probs.val ((List.range (domains.length + 1)).map σ)) σ := by
  set P := domains.length with hP
  let pts : Nat → Nat := fun n => if h : n < P then domains[n].points else nSamples
  have hsh : probs.shape = left k 0 P pts := by
    rw [hshape]
    unfold left
    rw [if_neg (by omega), List.nil_append, Nat.sub_zero, ← List.range_eq_range', List.range_succ, List.map_append]
    congr 1
    · apply List.ext_getElem (by simp [hP])
      intro n h1 h2
      have : n < P := by simpa using h1
      simp [pts, this]
    · simp [pts]
  obtain ⟨y, e, h1, h2⟩ := marginalLoop_spec k P pts domains 0 (by omega) (by
      intro n h; simp only [Nat.zero_add, pts]; rw [dif_pos (by omega)]) probs
    (fun σ => probs.val ((List.range (P + 1)).map σ)) hsh (by
      intro σ; unfold left; rw [if_neg (by omega), List.nil_append, Nat.sub_zero, List.range_eq_range'])
  have hleft : ∀ σ : Nat → Nat, left k P P σ = [σ k, σ P] := by
    intro σ; unfold left; rw [if_pos hk, show P + 1 - P = 1 by omega]; rfl
  refine ⟨y, ?_, ?_, ?_⟩
  · rw [computeMarginal, if_pos (by rw [hshape]; simp; omega)]
    simpa using e
  · rw [h1, hleft]
    simp [pts, hk]
  · intro σ
    rw [← hleft, h2]
    simp only [trapz_eq]
    rfl

theorem mapM_ok {α β : Type} (f : α → Except Err β) (g : α → β) (l : List α) (h : ∀ a ∈ l, f a = .ok (g a)) :
    l.mapM f = .ok (l.map g) := by
  induction l with
  | nil => rfl
  | cons a l ih =>
    rw [List.mapM_cons, h a (by simp), ih (fun b hb => h b (List.mem_cons_of_mem _ hb))]
    rfl

/-- The axis of the posterior samples is integrated over nothing but the parameters, so `get_all_marginals` never fails. -/
theorem allMarginals_ok (probs : Arr) (domains : List Domain) (nSamples : Nat)
    (hshape : probs.shape = domains.map Domain.points ++ [nSamples]) :
    ∃ ms, allMarginals probs domains = .ok ms ∧ ms.length = domains.length + 1 ∧
      ∀ k, k < domains.length → ∃ m, ms[k]? = some m ∧ computeMarginal probs k domains = .ok m := by
  have hall : ∀ k, k < domains.length + 1 → ∃ m, computeMarginal probs k domains = .ok m := by
    intro k hk
    by_cases h : k < domains.length
    · obtain ⟨m, hm, _⟩ := C41_marginal probs domains nSamples k h hshape
      exact ⟨m, hm⟩
    · set P := domains.length with hP
      have hkP : k = P := by omega
      rw [hkP] at hk h ⊢
      let pts : Nat → Nat := fun n => if h : n < P then domains[n].points else nSamples
      have hsh : probs.shape = left P 0 P pts := by
        rw [hshape]
        unfold left
        rw [if_neg (by omega), List.nil_append, Nat.sub_zero, ← List.range_eq_range', List.range_succ, List.map_append]
        congr 1
        · apply List.ext_getElem (by simp [hP])
          intro n h1 h2
          have : n < P := by simpa using h1
          simp [pts, this]
        · simp [pts]
      obtain ⟨y, e, _⟩ := marginalLoop_spec P P pts domains 0 (by omega) (by
          intro n h; simp only [Nat.zero_add, pts]; rw [dif_pos (by omega)]) probs
        (fun σ => probs.val (left P 0 P σ)) hsh (fun σ => rfl)
      refine ⟨y, ?_⟩
      rw [computeMarginal, if_pos (by rw [hshape]; simp; omega)]
      simpa using e
  choose g hg using fun k : {k // k < domains.length + 1} => hall k.1 k.2
  have hlen : probs.shape.length = domains.length + 1 := by rw [hshape]; simp
  let g' : Nat → Arr := fun k => if h : k < domains.length + 1 then g ⟨k, h⟩ else probs
  refine ⟨(List.range (domains.length + 1)).map g', ?_, by simp, ?_⟩
  · rw [allMarginals, hlen]
    apply mapM_ok
    intro a ha
    rw [List.mem_range] at ha
    simp only [g', dif_pos ha]
    exact hg ⟨a, ha⟩
  · intro k hk
    have hk' : k < domains.length + 1 := by omega
    refine ⟨g ⟨k, hk'⟩, ?_, hg ⟨k, hk'⟩⟩
    rw [List.getElem?_map, List.getElem?_range hk']
    simp only [Option.map_some, g', dif_pos hk']

/-- **C41 (grid).**  The array of densities has, at grid indices `σ 0, …, σ (P-1)` and sample `σ P`, the density of that sample's model
at the point whose `i`-th coordinate is the `σ i`-th point of the `i`-th grid: flattening the mesh and reshaping the result do not mix
up the axes. -/
theorem C41_density_grid (domains : List Domain) (nSamples : Nat) (density : Nat → List ℝ → ℝ) (σ : Nat → Nat)
    (h : ∀ i, ∀ hi : i < domains.length, σ i < domains[i].points) :
    (probValues domains nSamples density).val ((List.range (domains.length + 1)).map σ) =
      density (σ domains.length) (gridPoint domains σ) := by
  unfold probValues gridPoint
  simp only
  rw [List.range_succ, List.map_append, List.map_cons, List.map_nil, List.dropLast_concat, List.getLastD_concat, List.getElem?_map]
  have := mesh_ravel domains 0 σ (by intro n hn; simpa using h n hn)
  rw [← List.range_eq_range'] at this
  rw [this]
  simp only [at_eq]
  rfl

/-- **C41 (whole computation).**  For distinct parameter names, one per domain, `compute_and_save_ppd` writes a file whose headers are the
parameters in order; whose predictive array is, at every grid point, the mean over the posterior samples of the density there; and which
stores under the `k`-th parameter's name, for every `k`, the array over (grid of `k`) × (samples) of the density integrated over the
other parameters' grids. -/
theorem C41_saved_file (density : Nat → List ℝ → ℝ) (nSamples : Nat) (domains : List Domain) (parameters : List String)
    (hlen : parameters.length = domains.length) (hnd : parameters.Nodup) :
    ∃ file, computeAndSave density nSamples domains parameters = .ok file ∧
      file.headers = parameters ∧ file.domains = domains ∧ file.ppd.shape = domains.map Domain.points ∧
      (∀ σ : Nat → Nat, (∀ i, ∀ hi : i < domains.length, σ i < domains[i].points) →
        file.ppd.val ((List.range domains.length).map σ) =
          (∑ s ∈ Finset.range nSamples, density s (gridPoint domains σ)) / nSamples) ∧
      file.marginals.map (·.1) = parameters ∧
      ∀ k, ∀ hk : k < domains.length, ∃ m, file.marginals[k]? = some (parameters[k], m) ∧
        m.shape = [domains[k].points, nSamples] ∧
        ∀ σ : Nat → Nat, (∀ i, ∀ hi : i < domains.length, σ i < domains[i].points) →
          m.val [σ k, σ domains.length] = integrateOut k domains (fun σ => density (σ domains.length) (gridPoint domains σ)) σ := by
  set probs := probValues domains nSamples density with hprobs
  have hshape : probs.shape = domains.map Domain.points ++ [nSamples] := rfl
  obtain ⟨ms, hms, hl, hm⟩ := allMarginals_ok probs domains nSamples hshape
  have hndim : (meanLast probs).shape = domains.map Domain.points := by
    simp only [meanLast, hshape, List.dropLast_concat]
  have hgroup : ((ms.zip parameters).map fun p => (p.2, p.1)).map (·.1) = parameters := by
    rw [List.map_map]
    have : ((fun p : String × Arr => p.1) ∘ fun p : Arr × String => (p.2, p.1)) = Prod.snd := rfl
    rw [this, List.map_snd_zip (by omega)]
  refine ⟨⟨domains, parameters, meanLast probs, (ms.zip parameters).map fun p => (p.2, p.1)⟩, ?_, rfl, rfl, hndim, ?_, hgroup, ?_⟩
  · unfold computeAndSave
    simp only [← hprobs, hms, saveProbs, hndim, List.length_map, hlen, ne_eq, not_true_eq_false, if_false]
    rw [if_pos (by rw [hgroup]; exact hnd)]
  · intro σ hσ
    simp only [meanLast, hshape, List.getLastD_concat]
    congr 1
    apply Finset.sum_congr rfl
    intro s _
    have := C41_density_grid domains nSamples density (Function.update σ domains.length s) (by
      intro i hi
      rw [Function.update_of_ne (by omega)]
      exact hσ i hi)
    rw [Function.update_self] at this
    rw [List.range_succ, List.map_append, List.map_cons, List.map_nil, Function.update_self] at this
    have h1 : (List.range domains.length).map (Function.update σ domains.length s) = (List.range domains.length).map σ := by
      apply List.map_congr_left
      intro x hx
      rw [List.mem_range] at hx
      exact Function.update_of_ne (by omega) _ _
    rw [h1] at this
    rw [hprobs, this]
    congr 1
    unfold gridPoint
    apply List.map_congr_left
    intro p hp
    have := List.snd_lt_of_mem_zipIdx hp
    rw [Function.update_of_ne (by omega)]
  · intro k hk
    obtain ⟨m, hmk, hcm⟩ := hm k hk
    obtain ⟨m', hm', hs, hv⟩ := C41_marginal probs domains nSamples k hk hshape
    rw [hcm] at hm'
    cases hm'
    refine ⟨m, ?_, hs, fun σ hσ => ?_⟩
    case refine_2 =>
      rw [hv σ]
      exact integrateOut_congr k domains (fun τ hτ => C41_density_grid domains nSamples density τ hτ) σ hσ
    simp only [List.getElem?_map]
    rw [show (ms.zip parameters)[k]? = some (m, parameters[k]) from
      List.getElem?_zip_eq_some.2 ⟨hmk, List.getElem?_eq_getElem (by omega)⟩]
    rfl

/-- The checks of `save_probs`: a table of ranges or names of another length is rejected. -/
theorem C41_mismatch_rejected (ppd : Arr) (marginals : List Arr) (domains : List Domain) (headers : List String)
    (h : domains.length ≠ ppd.shape.length ∨ headers.length ≠ ppd.shape.length) :
    saveProbs ppd marginals domains headers = .error .valueError := by
  unfold saveProbs
  split_ifs with h1 h2
  · rfl
  · rfl
  · push Not at h1 h2
    rcases h with h | h
    · exact absurd h1.symm h
    · exact absurd h2.symm h

/-- Two parameters on grids of two and three points, and five samples with the densities `s + m1 + 10 m2`: the hypotheses of `C41_saved_file` hold, and the
second marginal integrates over the first axis only: at `m2 = 2` and sample 3 it is the mean of 23 and 24. -/
example : ∃ file, computeAndSave (fun s x => s + x.getD 0 0 + 10 * x.getD 1 0) 5 [⟨0, 1, 2⟩, ⟨0, 2, 3⟩] ["m1", "m2"] = .ok file ∧
    ∃ m, file.marginals[1]? = some ("m2", m) ∧ m.shape = [3, 5] ∧ m.val [2, 3] = 47 / 2 := by
  obtain ⟨file, h1, _, _, _, _, _, h2⟩ := C41_saved_file (fun s x => s + x.getD 0 0 + 10 * x.getD 1 0) 5 [⟨0, 1, 2⟩, ⟨0, 2, 3⟩] ["m1", "m2"] rfl (by decide)
  refine ⟨file, h1, ?_⟩
  obtain ⟨m, a, b, c⟩ := h2 1 (by simp)
  refine ⟨m, a, b, ?_⟩
  have := c (fun i => if i = 1 then 2 else if i = 2 then 3 else 0) (by
    intro i hi
    have : i = 0 ∨ i = 1 := by simp at hi; omega
    rcases this with rfl | rfl <;> simp)
  simp only [List.length_cons, List.length_nil] at this
  norm_num at this
  rw [this]
  simp [integrateOut, trapezoidal, gridAt, gridPoint, Function.update]
  norm_num

end GW.Ppd
