import Verif.Spec.Plots
import Verif.Props.Tables
import Verif.Props.Scripts

/-! # C90, C91: what the plots of chains and of classes of points show -/

namespace GW.Plots
open GW.Tables (File Tok Comments IsTable savetxt cell)
open GW.Tools (Err)
open GW.Scripts (quantile)

noncomputable section
open Classical

/-! ## Helpers -/

theorem mapM_ok {α β ε : Type} (f : α → Except ε β) (g : α → β) : ∀ (l : List α), (∀ x ∈ l, f x = .ok (g x)) → l.mapM f = .ok (l.map g)
  | [], _ => rfl
  | a :: l, h => by
    rw [List.mapM_cons, h a (by simp), mapM_ok f g l fun x hx => h x (by simp [hx])]
    rfl

theorem samples_savetxt {names : List String} {rows : List (List ℝ)} (h : IsTable names rows) (hr : rows ≠ []) (c : Comments) :
    samples (savetxt c names rows) = .ok (names.length, rows.tail) := by
  have h1 := Tables.C70_first_sample_violated h c
  rw [if_neg hr] at h1
  cases rows with
  | nil => exact absurd rfl hr
  | cons a as =>
    have ha := h.width a (by simp)
    simp only [Tables.allSamples, Tables.readCsv, savetxt, List.drop_succ_cons, List.drop_zero, List.map_cons, bind, Except.bind, pure, Except.pure] at h1
    injection h1 with h1
    simp only [samples, Tables.readCsv, savetxt, List.drop_succ_cons, List.drop_zero, List.map_cons, bind, Except.bind, pure, Except.pure]
    rw [h1, mapM_ok _ (fun r => r.filterMap fun x => match x with | some (.val v) => some v | _ => none)]
    · simp only [List.tail_cons, List.map_map, List.length_map, ha]
      congr 2
      conv_rhs => rw [← List.map_id as]
      refine List.map_congr_left fun r _ => ?_
      simp only [Function.comp, List.filterMap_map, cell, id]
      exact List.filterMap_some
    · intro r hr
      simp only [List.tail_cons, List.mem_map] at hr
      obtain ⟨q, -, rfl⟩ := hr
      rw [mapM_ok number (fun x => match x with | some (.val v) => v | _ => 0)]
      · simp only [cell, List.filterMap_map, Function.comp_def, List.map_map, List.filterMap_some, List.map_id']
      · intro x hx
        obtain ⟨v, -, rfl⟩ := List.mem_map.1 hx
        rfl

theorem trace_eq (rows : List (List ℝ)) (j T : ℕ) (h : rows.length = T) : trace rows j = (List.range T).map fun t => (rows.getD t []).getD j 0 := by
  subst h
  refine List.ext_getElem (by simp [trace]) fun i h1 h2 => ?_
  simp [trace] at h1
  simp [trace, h1]

theorem lines_slice (data : List (List (List ℝ))) (T j : ℕ) (h : ∀ d ∈ data, d.length = T) :
    lines data.length (slice data T j) = data.map fun d => .line (trace d j) := by
  refine List.ext_getElem (by simp [lines]) fun i h1 h2 => ?_
  simp only [lines, List.length_map, List.length_range] at h1
  simp only [lines, slice, List.getElem_map, List.getElem_range, List.map_map, Function.comp_def]
  rw [trace_eq _ j T (h _ (List.getElem_mem h1))]
  simp [h1]

/-- The chains as they are drawn: without their first samples. -/
def drawn (chains : List (List (List ℝ))) : List (List (List ℝ)) := chains.map List.tail

theorem chainPlot_many (band : Bool) (names labels : List String) (hn : 2 ≤ names.length) (hl : names.length ≤ labels.length) (T : ℕ)
    (chains : List (List (List ℝ))) (hne : chains ≠ []) (hc : ∀ rows ∈ chains, IsTable names rows ∧ rows.length = T + 1) (c : Comments) :
    chainPlot band labels (chains.map (savetxt c names)) =
      .ok ((List.range names.length).map fun i => ⟨labels.getD i "", draw band chains.length (slice (drawn chains) T i)⟩) := by
  obtain ⟨d, ds, rfl⟩ : ∃ d ds, chains = d :: ds := by cases chains with | nil => exact absurd rfl hne | cons d ds => exact ⟨d, ds, rfl⟩
  have hs : ∀ rows ∈ d :: ds, samples (savetxt c names rows) = .ok (names.length, rows.tail) := fun rows h =>
    samples_savetxt (hc rows h).1 (by have := (hc rows h).2; intro e; simp [e] at this) c
  have hm : ((d :: ds).map (savetxt c names)).mapM samples = .ok ((d :: ds).map fun rows => (names.length, rows.tail)) := by
    rw [mapM_ok samples (fun f => match samples f with | .ok x => x | .error _ => (0, []))]
    · simp only [List.map_map]
      congr 1
      refine List.map_congr_left fun rows h => ?_
      simp [hs rows h]
    · intro f hf
      obtain ⟨rows, h, rfl⟩ := List.mem_map.1 hf
      rw [hs rows h]
  have hd := (hc d (by simp)).2
  have hall : ((d :: ds).map fun rows => (names.length, rows.tail)).all
      (fun x => x.1 == names.length && x.2.length == d.tail.length) = true := by
    rw [List.all_eq_true]
    intro x hx
    obtain ⟨rows, h, rfl⟩ := List.mem_map.1 hx
    simp [(hc rows h).2, hd]
  rw [List.map_cons] at hm ⊢
  unfold chainPlot
  simp only
  rw [hs d (by simp)]
  simp only [bind, Except.bind, pure, Except.pure]
  rw [if_neg (by omega), if_neg (by omega), hm]
  simp only
  rw [hall, if_pos rfl, if_neg (by omega)]
  simp [drawn, hd]
  intros; rfl

theorem chainPlot_one (band : Bool) (name : String) (label : String) (more : List String) (chains : List (List (List ℝ))) (hne : chains ≠ [])
    (hc : ∀ rows ∈ chains, IsTable [name] rows ∧ rows ≠ []) (c : Comments) :
    chainPlot band (label :: more) (chains.map (savetxt c [name])) = .ok [⟨label, chains.flatMap fun rows => draw band 1 rows.tail⟩] := by
  obtain ⟨d, ds, rfl⟩ : ∃ d ds, chains = d :: ds := by cases chains with | nil => exact absurd rfl hne | cons d ds => exact ⟨d, ds, rfl⟩
  have hs : ∀ rows ∈ d :: ds, samples (savetxt c [name] rows) = .ok (1, rows.tail) := fun rows h => samples_savetxt (hc rows h).1 (hc rows h).2 c
  have hm : ((d :: ds).map (savetxt c [name])).mapM (fun f => (samples f).bind fun data => .ok (draw band data.1 data.2)) =
      .ok ((d :: ds).map fun rows => draw band 1 rows.tail) := by
    rw [mapM_ok _ (fun f => match samples f with | .ok x => draw band x.1 x.2 | .error _ => [])]
    · simp only [List.map_map]
      congr 1
      refine List.map_congr_left fun rows h => ?_
      simp [hs rows h]
    · intro f hf
      obtain ⟨rows, h, rfl⟩ := List.mem_map.1 hf
      rw [hs rows h]
      rfl
  rw [List.map_cons] at hm ⊢
  unfold chainPlot
  simp only
  rw [hs d (by simp)]
  simp only [bind, Except.bind, pure, Except.pure]
  simp only [Except.bind] at hm
  rw [if_neg (by omega), if_pos trivial, hm]
  simp [List.flatMap]

/-! ## C90: chains -/

/-- **C90 (chains).**  Without `--band`, for any number of parameters and chains of equal lengths: the axis of a parameter has its label and one line for each
file, with the values of the parameter in the order of the samples (all but the first, see C70). -/
theorem C90_chains (names labels : List String) (hl : names.length ≤ labels.length) (T : ℕ) (chains : List (List (List ℝ))) (hne : chains ≠ [])
    (hc : ∀ rows ∈ chains, IsTable names rows ∧ rows.length = T + 1) (c : Comments) :
    ∃ panels, chainPlot false labels (chains.map (savetxt c names)) = .ok panels ∧ panels.length = names.length ∧
      ∀ j < names.length, ∃ p, panels[j]? = some p ∧ labels[j]? = some p.label ∧ p.marks = chains.map fun rows => .line (trace rows.tail j) := by
  have hn : names ≠ [] := by
    obtain ⟨d, hd⟩ := List.exists_mem_of_ne_nil _ hne
    exact (hc d hd).1.nonempty
  by_cases h1 : names.length = 1
  · obtain ⟨name, rfl⟩ := List.length_eq_one_iff.1 h1
    obtain ⟨l, more, rfl⟩ : ∃ l more, labels = l :: more := by cases labels with | nil => simp at hl | cons l m => exact ⟨l, m, rfl⟩
    refine ⟨_, chainPlot_one false name l more chains hne (fun rows h => ⟨(hc rows h).1, by have := (hc rows h).2; intro e; simp [e] at this⟩) c, by simp, ?_⟩
    intro j hj
    obtain rfl : j = 0 := by simpa using hj
    refine ⟨_, rfl, rfl, ?_⟩
    rw [List.map_eq_flatMap]
    refine List.flatMap_congr fun rows _ => ?_
    simp [draw, lines, trace]
  · have h2 : 2 ≤ names.length := by
      have := List.length_pos_iff.2 hn
      omega
    refine ⟨_, chainPlot_many false names labels h2 hl T chains hne hc c, by simp, ?_⟩
    intro j hj
    refine ⟨⟨labels.getD j "", draw false chains.length (slice (drawn chains) T j)⟩, by simp [hj], by simp [show j < labels.length by omega], ?_⟩
    have := lines_slice (drawn chains) T j (by
      intro d hd
      obtain ⟨rows, h, rfl⟩ := List.mem_map.1 hd
      simp [(hc rows h).2])
    simp only [drawn, List.length_map] at this
    simp only [draw, Bool.false_eq_true, if_false, drawn]
    rw [this, List.map_map]
    rfl

/-- **C90 (bands).**  With `--band`, for at least two parameters and chains of equal lengths: the axis of a parameter shows the band across the chains. -/
theorem C90_band_partial (names labels : List String) (hn : 2 ≤ names.length) (hl : names.length ≤ labels.length) (T : ℕ) (chains : List (List (List ℝ)))
    (hne : chains ≠ []) (hc : ∀ rows ∈ chains, IsTable names rows ∧ rows.length = T + 1) (c : Comments) :
    ∃ panels, chainPlot true labels (chains.map (savetxt c names)) = .ok panels ∧ panels.length = names.length ∧
      ∀ j < names.length, ∃ p, panels[j]? = some p ∧ labels[j]? = some p.label ∧ IsBandAcross (chains.map List.tail) T j p.marks := by
  refine ⟨_, chainPlot_many true names labels hn hl T chains hne hc c, by simp, ?_⟩
  intro j hj
  refine ⟨⟨labels.getD j "", draw true chains.length (slice (drawn chains) T j)⟩, by simp [hj], by simp [show j < labels.length by omega], ?_⟩
  refine ⟨fun t => quantile (atStep (chains.map List.tail) j t) 0.05, fun t => quantile (atStep (chains.map List.tail) j t) 0.25,
    fun t => quantile (atStep (chains.map List.tail) j t) 0.75, fun t => quantile (atStep (chains.map List.tail) j t) 0.95,
    fun t => (atStep (chains.map List.tail) j t).sum / (chains.map List.tail).length, ?_, ?_⟩
  · simp [draw, bandMarks, slice, drawn, atStep, mean, Function.comp_def]
  · intro t _
    have hl : atStep (chains.map List.tail) j t ≠ [] := by simpa [atStep] using hne
    exact ⟨(Scripts.quantile_iff hl (by norm_num) (by norm_num) _).2 rfl, (Scripts.quantile_iff hl (by norm_num) (by norm_num) _).2 rfl,
      (Scripts.quantile_iff hl (by norm_num) (by norm_num) _).2 rfl, (Scripts.quantile_iff hl (by norm_num) (by norm_num) _).2 rfl, rfl⟩

theorem quantile_single (x p : ℝ) (h0 : 0 ≤ p) (h1 : p ≤ 1) : quantile [x] p = x := by
  have := Scripts.quantile_between (l := [x]) (by simp) h0 h1
  simp [quantile]

/-- **C90 (bands, violated for one parameter).**  With `--band` and a single parameter every chain gets two areas of no width, which are the chain itself: the
spread between the chains is not shown. -/
theorem C90_band_single_violated (name label : String) (more : List String) (chains : List (List (List ℝ))) (hne : chains ≠ [])
    (hc : ∀ rows ∈ chains, IsTable [name] rows ∧ rows ≠ []) (c : Comments) :
    chainPlot true (label :: more) (chains.map (savetxt c [name])) = .ok [⟨label, chains.flatMap fun rows =>
      [.area (trace rows.tail 0) (trace rows.tail 0), .area (trace rows.tail 0) (trace rows.tail 0), .line (trace rows.tail 0)]⟩] := by
  rw [chainPlot_one true name label more chains hne hc c]
  congr 3
  refine List.flatMap_congr fun rows h => ?_
  have hw : ∀ r ∈ rows.tail, r = [r.getD 0 0] := by
    intro r hr
    obtain ⟨x, rfl⟩ := List.length_eq_one_iff.1 ((hc rows h).1.width r (List.mem_of_mem_tail hr))
    rfl
  have hq : ∀ p : ℝ, 0 ≤ p → p ≤ 1 → (rows.tail.map fun r => quantile r p) = trace rows.tail 0 := by
    intro p h0 h1
    refine List.map_congr_left fun r hr => ?_
    rw [hw r hr, quantile_single _ _ h0 h1]
    rfl
  have hm : rows.tail.map mean = trace rows.tail 0 := by
    refine List.map_congr_left fun r hr => ?_
    rw [hw r hr]
    simp [mean]
  simp only [draw, if_true, bandMarks]
  rw [hq _ (by norm_num) (by norm_num), hq _ (by norm_num) (by norm_num), hq _ (by norm_num) (by norm_num), hq _ (by norm_num) (by norm_num), hm]

/-- The band across two chains at a step where they differ has a width. -/
theorem C90_band_width (a b : ℝ) (h : a ≠ b) (lo hi : ℝ) (hlo : Scripts.IsQuantile [a, b] 0.05 lo) (hhi : Scripts.IsQuantile [a, b] 0.95 hi) : lo < hi := by
  rw [Scripts.quantile_iff (by simp) (by norm_num) (by norm_num)] at hlo hhi
  subst hlo hhi
  have hs : ∀ x y : ℝ, x < y → quantile [x, y] 0.05 = x + 0.05 * (y - x) ∧ quantile [x, y] 0.95 = x + 0.95 * (y - x) ∧
      quantile [y, x] 0.05 = x + 0.05 * (y - x) ∧ quantile [y, x] 0.95 = x + 0.95 * (y - x) := by
    intro x y hxy
    have e1 : [x, y].mergeSort = [x, y] := List.mergeSort_of_pairwise (by simp [hxy.le])
    have e2 : [y, x].mergeSort = [x, y] := by
      refine List.Perm.eq_of_pairwise (le := fun a b => a ≤ b) (fun a b _ _ h1 h2 => le_antisymm h1 h2) (Scripts.mergeSort_sorted _) (by simp [hxy.le]) ?_
      exact (List.mergeSort_perm _ _).trans (List.Perm.swap _ _ _)
    have f1 : ⌊(0.05 : ℝ) * ((2 : ℕ) - 1)⌋₊ = 0 := by rw [Nat.floor_eq_zero]; norm_num
    have f2 : ⌊(0.95 : ℝ) * ((2 : ℕ) - 1)⌋₊ = 0 := by rw [Nat.floor_eq_zero]; norm_num
    simp only [quantile, e1, e2, List.length_cons, List.length_nil, zero_add, Nat.reduceAdd, f1, f2]
    norm_num
  rcases lt_or_gt_of_ne h with h | h
  · rw [(hs a b h).1, (hs a b h).2.1]; linarith
  · rw [(hs b a h).2.2.1, (hs b a h).2.2.2]; linarith

/-- **C90 (refusals).**  Chains of different lengths are refused when there are at least two parameters, and so are too few labels. -/
theorem C90_refused (band : Bool) (names labels : List String) (hn : 2 ≤ names.length) (first : List (List ℝ)) (chains : List (List (List ℝ)))
    (hc : ∀ rows ∈ first :: chains, IsTable names rows ∧ rows ≠ []) (c : Comments) :
    ((∃ rows ∈ chains, rows.length ≠ first.length) → chainPlot band labels ((first :: chains).map (savetxt c names)) = .error .valueError) ∧
    ((∀ rows ∈ chains, rows.length = first.length) → labels.length < names.length →
      chainPlot band labels ((first :: chains).map (savetxt c names)) = .error .index) := by
  have hs : ∀ rows ∈ first :: chains, samples (savetxt c names rows) = .ok (names.length, rows.tail) := fun rows h =>
    samples_savetxt (hc rows h).1 (hc rows h).2 c
  have hm : ((first :: chains).map (savetxt c names)).mapM samples = .ok ((first :: chains).map fun rows => (names.length, rows.tail)) := by
    rw [mapM_ok samples (fun f => match samples f with | .ok x => x | .error _ => (0, []))]
    · simp only [List.map_map]
      congr 1
      refine List.map_congr_left fun rows h => ?_
      simp [hs rows h]
    · intro f hf
      obtain ⟨rows, h, rfl⟩ := List.mem_map.1 hf
      rw [hs rows h]
  have hpos : ∀ rows ∈ first :: chains, 0 < rows.length := fun rows h => List.length_pos_iff.2 (hc rows h).2
  rw [List.map_cons] at hm ⊢
  constructor
  · rintro ⟨rows, h, hlen⟩
    unfold chainPlot
    simp only
    rw [hs first (by simp)]
    simp only [bind, Except.bind, pure, Except.pure]
    rw [if_neg (by omega), if_neg (by omega), hm]
    simp only
    rw [if_neg]
    simp only [Bool.not_eq_true, List.all_eq_false]
    refine ⟨(names.length, rows.tail), by simp; exact Or.inr ⟨rows, h, rfl⟩, ?_⟩
    have h1 := hpos rows (by simp [h])
    have h2 := hpos first (by simp)
    simp
    omega
  · intro hlen hlab
    unfold chainPlot
    simp only
    rw [hs first (by simp)]
    simp only [bind, Except.bind, pure, Except.pure]
    rw [if_neg (by omega), if_neg (by omega), hm]
    simp only
    rw [if_pos, if_pos hlab]
    rw [List.all_eq_true]
    intro x hx
    obtain ⟨rows, h, rfl⟩ := List.mem_map.1 hx
    rcases List.mem_cons.1 h with rfl | h
    · simp
    · simp [hlen rows h]

/-! ## C90: effective sample sizes -/

theorem readChains_savetxt (names : List String) (T : ℕ) (hT : 2 ≤ T) (chains : List (List (List ℝ))) (hne : chains ≠ [])
    (hc : ∀ rows ∈ chains, IsTable names rows ∧ rows.length = T) (c : Comments) (hcm : c ≠ .none) :
    readChains (chains.map (savetxt c names)) =
      .ok (if names.length = 1 then .scalar T (chains.map fun rows => trace rows 0) else .vector T names.length chains) := by
  have hload : (chains.map (savetxt c names)).mapM (fun f => (Tables.loadtxt 0 f).bind fun r => .ok (squeeze r)) = .ok (chains.map squeeze) := by
    rw [mapM_ok _ (fun f => match Tables.loadtxt 0 f with | .ok r => squeeze r | .error _ => .vec [])]
    · rw [List.map_map]
      congr 1
      refine List.map_congr_left fun rows h => ?_
      simp [Tables.C70_loadtxt (hc rows h).1 c hcm]
    · intro f hf
      obtain ⟨rows, h, rfl⟩ := List.mem_map.1 hf
      rw [Tables.C70_loadtxt (hc rows h).1 c hcm]
      rfl
  have hsq : ∀ rows ∈ chains, squeeze rows = if names.length = 1 then .vec (trace rows 0) else .mat rows := by
    intro rows h
    obtain ⟨h1, h2⟩ := hc rows h
    match rows, h2 with
    | [], h2 => simp at h2; omega
    | [r], h2 => simp at h2; omega
    | r :: r' :: rest, h2 =>
      have hw := h1.width r (by simp)
      simp only [squeeze, List.headD_cons, hw]
      split
      · congr 1
        refine List.map_congr_left fun q hq => ?_
        cases q <;> rfl
      · rfl
  unfold readChains
  simp only [bind, pure, Except.pure]
  rw [hload]
  simp only [Except.bind]
  obtain ⟨d, ds, rfl⟩ : ∃ d ds, chains = d :: ds := by cases chains with | nil => exact absurd rfl hne | cons d ds => exact ⟨d, ds, rfl⟩
  rw [List.map_congr_left hsq]
  by_cases h1 : names.length = 1
  · simp only [h1, if_true, List.map_cons, stack]
    rw [← List.map_cons (f := fun rows => Loaded.vec (trace rows 0)), mapM_ok _ (fun f => match f with | .vec w => w | .mat _ => [])]
    · simp [bind, Except.bind, pure, Except.pure, trace, (hc d (by simp)).2]
    · intro f hf
      obtain ⟨rows, h, rfl⟩ := List.mem_map.1 hf
      simp [trace, (hc rows h).2, (hc d (by simp)).2]
  · simp only [h1, if_false, List.map_cons, stack]
    have hd := hc d (by simp)
    have hhead : ∀ rows : List (List ℝ), IsTable names rows → rows.length = T → (rows.headD []).length = names.length := by
      intro rows h1 h2
      cases rows with
      | nil => simp at h2; omega
      | cons r rs => exact h1.width r (by simp)
    rw [← List.map_cons (f := Loaded.mat), mapM_ok _ (fun f => match f with | .mat w => w | .vec _ => [])]
    · simp only [bind, Except.bind, pure, Except.pure, hd.2, hhead d hd.1 hd.2, List.map_map, Function.comp_def, List.map_id']
    · intro f hf
      obtain ⟨rows, h, rfl⟩ := List.mem_map.1 hf
      simp only
      rw [if_pos ⟨by rw [(hc rows h).2, hd.2], by rw [hhead rows (hc rows h).1 (hc rows h).2, hhead d hd.1 hd.2]⟩]

theorem essColumn_eq (ess : List (List ℝ) → ℝ) (names : List String) (T nDraws : ℕ) (chains : List (List (List ℝ))) :
    (if names.length = 1 then Chains.scalar T (chains.map fun rows => trace rows 0) else .vector T names.length chains).essColumn ess nDraws names.length =
      .ok ((List.range names.length).map fun j => essPerDraw ess chains nDraws j) := by
  by_cases h1 : names.length = 1
  · simp [h1, Chains.essColumn, essPerDraw]
  · simp [h1, Chains.essColumn, essPerDraw, trace]

/-- The table of effective sample sizes. -/
theorem essPlot_eq (ess : List (List ℝ) → ℝ) (names labels : List String) (hl : labels.length = names.length) (n m : ℕ) (hn : 2 ≤ n) (hm : 2 ≤ m)
    (train prod : List (List (List ℝ))) (ht : train ≠ []) (hp : prod ≠ []) (htr : ∀ rows ∈ train, IsTable names rows ∧ rows.length = n)
    (hpr : ∀ rows ∈ prod, IsTable names rows ∧ rows.length = m) (c : Comments) (hc : c ≠ .none) :
    ∃ table, essPlot ess labels (train.map (savetxt c names)) (prod.map (savetxt c names)) = .ok table ∧ table.length = names.length ∧
      ∀ j < names.length, ∃ row, table[j]? = some row ∧ labels[j]? = some row.parameter ∧ row.training = essPerDraw ess train n j ∧
        row.production = essPerDraw ess prod n j := by
  unfold essPlot
  rw [readChains_savetxt names n hn train ht htr c hc, readChains_savetxt names m hm prod hp hpr c hc]
  simp only [bind, Except.bind, pure, Except.pure]
  have hd : (if names.length = 1 then Chains.scalar n (train.map fun rows => trace rows 0) else .vector n names.length train).draws = n := by
    split <;> rfl
  rw [hd, hl, essColumn_eq ess names n n train, essColumn_eq ess names m n prod]
  refine ⟨_, rfl, by simp, ?_⟩
  intro j hj
  refine ⟨⟨labels.getD j "", essPerDraw ess train n j, essPerDraw ess prod n j⟩, by simp [hj], by simp [show j < labels.length by omega], rfl, rfl⟩

/-- **C90 (effective sample sizes, part).**  The bar of a parameter for the training chains is its effective sample size per draw; the bar for the production chains
is so if there are as many production draws as training draws. -/
theorem C90_ess_partial (ess : List (List ℝ) → ℝ) (names labels : List String) (hl : labels.length = names.length) (n m : ℕ) (hn : 2 ≤ n) (hm : 2 ≤ m)
    (train prod : List (List (List ℝ))) (ht : train ≠ []) (hp : prod ≠ []) (htr : ∀ rows ∈ train, IsTable names rows ∧ rows.length = n)
    (hpr : ∀ rows ∈ prod, IsTable names rows ∧ rows.length = m) (c : Comments) (hc : c ≠ .none) :
    ∃ table, essPlot ess labels (train.map (savetxt c names)) (prod.map (savetxt c names)) = .ok table ∧ table.length = names.length ∧
      ∀ j < names.length, ∃ row, table[j]? = some row ∧ labels[j]? = some row.parameter ∧ row.training = essPerDraw ess train n j ∧
        (m = n → row.production = essPerDraw ess prod m j) := by
  obtain ⟨table, h1, h2, h3⟩ := essPlot_eq ess names labels hl n m hn hm train prod ht hp htr hpr c hc
  refine ⟨table, h1, h2, fun j hj => ?_⟩
  obtain ⟨row, a, b, c, d⟩ := h3 j hj
  exact ⟨row, a, b, c, fun e => e ▸ d⟩

/-- **C90 (effective sample sizes, refused).**  Another number of labels than of parameters (of which there are at least two) is an error, not a wrong plot. -/
theorem C90_ess_refused (ess : List (List ℝ) → ℝ) (names labels : List String) (h1 : names.length ≠ 1) (hl : labels.length ≠ names.length) (n m : ℕ) (hn : 2 ≤ n)
    (hm : 2 ≤ m) (train prod : List (List (List ℝ))) (ht : train ≠ []) (hp : prod ≠ []) (htr : ∀ rows ∈ train, IsTable names rows ∧ rows.length = n)
    (hpr : ∀ rows ∈ prod, IsTable names rows ∧ rows.length = m) (c : Comments) (hc : c ≠ .none) :
    essPlot ess labels (train.map (savetxt c names)) (prod.map (savetxt c names)) = .error .valueError := by
  unfold essPlot
  rw [readChains_savetxt names n hn train ht htr c hc, readChains_savetxt names m hm prod hp hpr c hc]
  simp [bind, Except.bind, h1, Chains.essColumn, Ne.symm hl]

/-- **C90 (effective sample sizes, violated).**  The bar for the production chains is wrong whenever the numbers of draws differ: it is the effective sample size per
draw times the ratio of the numbers of draws. -/
theorem C90_ess_violated (ess : List (List ℝ) → ℝ) (names labels : List String) (hl : labels.length = names.length) (n m : ℕ) (hn : 2 ≤ n) (hm : 2 ≤ m)
    (hnm : m ≠ n) (train prod : List (List (List ℝ))) (ht : train ≠ []) (hp : prod ≠ []) (htr : ∀ rows ∈ train, IsTable names rows ∧ rows.length = n)
    (hpr : ∀ rows ∈ prod, IsTable names rows ∧ rows.length = m) (c : Comments) (hc : c ≠ .none) :
    ∃ table, essPlot ess labels (train.map (savetxt c names)) (prod.map (savetxt c names)) = .ok table ∧
      ∀ j < names.length, ∃ row, table[j]? = some row ∧ row.production = essPerDraw ess prod m j * (m / n) ∧
        (essPerDraw ess prod m j ≠ 0 → row.production ≠ essPerDraw ess prod m j) := by
  obtain ⟨table, h1, -, h3⟩ := essPlot_eq ess names labels hl n m hn hm train prod ht hp htr hpr c hc
  refine ⟨table, h1, fun j hj => ?_⟩
  obtain ⟨row, a, -, -, d⟩ := h3 j hj
  have hn0 : (n : ℝ) ≠ 0 := by positivity
  have hm0 : (m : ℝ) ≠ 0 := by positivity
  have e : row.production = essPerDraw ess prod m j * (m / n) := by
    rw [d, essPerDraw, essPerDraw]
    field_simp
  refine ⟨row, a, e, fun h0 => ?_⟩
  rw [e]
  intro h
  have : (m : ℝ) / n = 1 := by
    have := mul_left_cancel₀ h0 (h.trans (mul_one _).symm)
    exact this
  rw [div_eq_one_iff_eq hn0] at this
  exact hnm (by exact_mod_cast this)

/-! ## C91: classes of points -/

theorem unique_nodup (l : List ℝ) : (unique l).Nodup := List.nodup_dedup _

theorem mem_unique {l : List ℝ} {x : ℝ} : x ∈ unique l ↔ x ∈ l := by simp [unique]

theorem unique_sorted (l : List ℝ) : (unique l).Pairwise (· < ·) := by
  have h1 : (unique l).Pairwise (· ≤ ·) := (Scripts.mergeSort_sorted l).sublist (List.dedup_sublist _)
  exact (h1.and (unique_nodup l)).imp fun h => lt_of_le_of_ne h.1 h.2

theorem trunc_nat (k : ℕ) : trunc (k : ℝ) = k := by simp [trunc]

/-- The numbers `0, …, K - 1`, each of which occurs. -/
theorem unique_classes {cls : List ℕ} {K : ℕ} (h : ∀ k, k ∈ cls ↔ k < K) : unique (cls.map Nat.cast) = (List.range K).map Nat.cast := by
  have hp : (unique (cls.map (Nat.cast : ℕ → ℝ))).Perm ((List.range K).map Nat.cast) := by
    refine (List.perm_ext_iff_of_nodup (unique_nodup _) (List.nodup_range.map Nat.cast_injective)).2 fun x => ?_
    simp only [mem_unique, List.mem_map, List.mem_range, h]
  refine hp.eq_of_pairwise (fun a b _ _ h1 h2 => absurd (lt_trans h1 h2) (lt_irrefl _)) (unique_sorted _) ?_
  rw [List.pairwise_map]
  exact List.pairwise_lt_range.imp fun h => by exact_mod_cast h

/-- Splitting a list by class keeps all its elements. -/
theorem split_perm {β : Type} (l : List (β × ℕ)) : ∀ (K : ℕ), ((List.range K).flatMap fun k => l.filter fun p => decide (p.2 = k)).Perm
    (l.filter fun p => decide (p.2 < K))
  | 0 => by simp
  | K + 1 => by
    rw [List.range_succ, List.flatMap_append, List.flatMap_singleton]
    refine ((split_perm l K).append_right _).trans ?_
    induction l with
    | nil => simp
    | cons a l ih =>
      simp only [List.filter_cons]
      by_cases h1 : a.2 < K
      · simp only [h1, decide_true, if_true, show a.2 < K + 1 by omega, show ¬ a.2 = K by omega, decide_false, Bool.false_eq_true, if_false, List.cons_append]
        exact ih.cons _
      · by_cases h2 : a.2 = K
        · simp only [decide_false, Bool.false_eq_true, if_false, h2, decide_true, if_true, show K < K + 1 by omega, lt_irrefl]
          exact List.perm_middle.trans (ih.cons _)
        · simp only [h1, h2, decide_false, Bool.false_eq_true, if_false, show ¬ a.2 < K + 1 by omega]
          exact ih

theorem zipIdx_map_range {K : ℕ} (f : ℕ → ℝ) : ((List.range K).map f).zipIdx = (List.range K).map fun k => (f k, k) := by
  refine List.ext_getElem (by simp) fun i h1 h2 => ?_
  simp

theorem select_classes (xy : List (ℝ × ℝ)) (cls : List ℕ) (k : ℕ) :
    selectPoints xy (cls.map Nat.cast) k = ((xy.zip cls).filter fun p => decide (p.2 = k)).map Prod.fst := by
  induction xy generalizing cls with
  | nil => simp [selectPoints]
  | cons p xy ih =>
    cases cls with
    | nil => simp [selectPoints]
    | cons c cls =>
      have := ih cls
      simp only [selectPoints] at this
      simp only [selectPoints, List.map_cons, List.zip_cons_cons, List.filter_cons, Nat.cast_inj]
      by_cases h : c = k <;> simp [h, this]

theorem mapM_view {α β γ ε : Type} (f : α → Except ε β) (v : β → γ) (w : α → γ) : ∀ (l : List α), (∀ x ∈ l, ∃ y, f x = .ok y ∧ v y = w x) →
    ∃ ys, l.mapM f = .ok ys ∧ ys.map v = l.map w
  | [], _ => ⟨[], rfl, rfl⟩
  | a :: l, h => by
    obtain ⟨y, h1, h2⟩ := h a (by simp)
    obtain ⟨ys, h3, h4⟩ := mapM_view f v w l fun x hx => h x (by simp [hx])
    exact ⟨y :: ys, by rw [List.mapM_cons, h1, h3]; rfl, by simp [h2, h4]⟩

theorem mapM_error {α β ε : Type} (f : α → Except ε β) (e : ε) : ∀ (l : List α), (∀ x ∈ l, ∀ e', f x = .error e' → e' = e) → (∃ x ∈ l, f x = .error e) →
    l.mapM f = .error e
  | [], _, h => by simp at h
  | a :: l, h1, h2 => by
    rw [List.mapM_cons]
    cases ha : f a with
    | error e' => rw [h1 a (by simp) e' ha]; rfl
    | ok y =>
      obtain ⟨x, hx, he⟩ := h2
      have : x ∈ l := by
        rcases List.mem_cons.1 hx with rfl | h
        · rw [ha] at he; cases he
        · exact h
      rw [mapM_error f e l (fun x hx => h1 x (by simp [hx])) ⟨x, this, he⟩]
      rfl

theorem pyIndex_nat {C : Type} {l : List C} {k : ℕ} (h : k < l.length) : pyIndex l (k : ℤ) = .ok l[k] := by
  simp only [pyIndex, show ¬ (k : ℤ) < 0 by omega, if_false, Int.toNat_natCast, List.getElem?_eq_getElem h]

/-- The groups, seen as their points, labels and colours. -/
theorem scatter_groups {C : Type} (palette : ℕ → List C) (hpal : ∀ n, (palette n).length = n) (override : Option (List C)) (legend : Option (List String))
    (xy : List (ℝ × ℝ)) (cls : List ℕ) (hlen : cls.length = xy.length) (K : ℕ) (hcls : ∀ k, k ∈ cls ↔ k < K) (hleg : ∀ l, legend = some l → K ≤ l.length)
    (hover : ∀ l, override = some l → K ≤ l.length) :
    ∃ pic, scatterColour palette override legend xy (cls.map Nat.cast) = .ok pic ∧ pic.legend = false ∧
      (pic.groups.map fun g => (g.points, g.label, some g.colour)) = (List.range K).map fun k =>
        (((xy.zip cls).filter fun p => decide (p.2 = k)).map Prod.fst, legend.bind (·[k]?), (override.getD (palette K))[k]?) := by
  have hK : K ≤ (override.getD (palette K)).length := by
    cases override with
    | none => simp [hpal]
    | some l => exact hover l rfl
  simp only [scatterColour, unique_classes hcls, List.length_map, List.length_range, zipIdx_map_range]
  obtain ⟨gs, h1, h2⟩ := mapM_view (fun p : ℝ × ℕ => if cls.length ≠ xy.length then .error .index
    else do
      let label ← legendLabel legend p.2
      let c ← pyIndex (override.getD (palette K)) (trunc p.1)
      return (⟨selectPoints xy (cls.map Nat.cast) p.1, label, c⟩ : Group C)) (fun g => (g.points, g.label, some g.colour)) (fun p =>
        (((xy.zip cls).filter fun q => decide (q.2 = p.2)).map Prod.fst, legend.bind (·[p.2]?), (override.getD (palette K))[p.2]?))
    ((List.range K).map fun k : ℕ => ((k : ℝ), k)) (by
      intro p hp
      obtain ⟨k, hk, rfl⟩ := List.mem_map.1 hp
      have hk := List.mem_range.1 hk
      have hka : k < (override.getD (palette K)).length := lt_of_lt_of_le hk hK
      have hlab : legendLabel legend k = .ok (legend.bind (·[k]?)) := by
        cases legend with
        | none => rfl
        | some l => simp [legendLabel, List.getElem?_eq_getElem (lt_of_lt_of_le hk (hleg l rfl))]
      refine ⟨⟨selectPoints xy (cls.map Nat.cast) k, legend.bind (·[k]?), (override.getD (palette K))[k]⟩, ?_, ?_⟩
      · simp only [hlen, ne_eq, not_true, if_false, trunc_nat, pyIndex_nat hka, hlab]
        rfl
      · simp only [select_classes, List.getElem?_eq_getElem hka])
  refine ⟨⟨gs, false⟩, ?_, rfl, ?_⟩
  · rw [h1]; rfl
  · rw [h2, List.map_map]; rfl

theorem points_view {C : Type} (p : Picture C) : (p.points.map fun q => (q.1, some q.2)) =
    (p.groups.map fun g => (g.points, g.label, some g.colour)).flatMap fun v => v.1.map fun q => (q, v.2.2) := by
  simp [Picture.points, List.map_flatMap, List.flatMap_map, Function.comp_def]

/-- **C91 (classes).**  If the classes are numbered `0, …, K - 1` and each has a point, with the palette or with at least `K` colours of one's own: every point is
drawn once, in the colour of its class. -/
theorem C91_classes_partial {C : Type} (palette : ℕ → List C) (hpal : ∀ n, (palette n).length = n) (override : Option (List C)) (legend : Option (List String))
    (xy : List (ℝ × ℝ)) (cls : List ℕ) (hlen : cls.length = xy.length) (K : ℕ) (hcls : ∀ k, k ∈ cls ↔ k < K) (hleg : ∀ l, legend = some l → K ≤ l.length)
    (hover : ∀ l, override = some l → K ≤ l.length) :
    ∃ pic, scatterColour palette override legend xy (cls.map Nat.cast) = .ok pic ∧
      (pic.points.map fun p => (p.1, some p.2)).Perm ((xy.zip cls).map fun p => (p.1, (override.getD (palette K))[p.2]?)) := by
  obtain ⟨pic, h1, -, h3⟩ := scatter_groups palette hpal override legend xy cls hlen K hcls hleg hover
  refine ⟨pic, h1, ?_⟩
  rw [points_view, h3, List.flatMap_map]
  have h4 := (split_perm (xy.zip cls) K).map fun p => (p.1, (override.getD (palette K))[p.2]?)
  have h5 : ((xy.zip cls).filter fun p => decide (p.2 < K)) = xy.zip cls := by
    rw [List.filter_eq_self]
    intro p hp
    simpa using (hcls p.2).1 (List.of_mem_zip hp).2
  rw [h5, List.map_flatMap] at h4
  refine (List.Perm.of_eq ?_).trans h4
  refine List.flatMap_congr fun k _ => ?_
  rw [List.map_map]
  refine List.map_congr_left fun p hp => ?_
  have : p.2 = k := by simpa using (List.mem_filter.1 hp).2
  simp [this]

/-- **C91 (legend, violated).**  The option `--legend` changes nothing that can be seen. -/
theorem C91_legend_violated {C : Type} (palette : ℕ → List C) (override : Option (List C)) (l : List String) (xy : List (ℝ × ℝ)) (colour : List ℝ) (pic : Picture C)
    (h : scatterColour palette override (some l) xy colour = .ok pic) :
    ∃ pic', scatterColour palette override none xy colour = .ok pic' ∧ pic'.visible = pic.visible := by
  simp only [scatterColour] at h ⊢
  set us := (unique colour).zipIdx with hus
  set all := override.getD (palette (unique colour).length) with hall
  clear_value us all
  have key : ∀ (us : List (ℝ × ℕ)) (gs : List (Group C)), (us.mapM fun (p : ℝ × ℕ) => if colour.length ≠ xy.length then .error .index
      else do
        let label ← legendLabel (some l) p.2
        let c ← pyIndex all (trunc p.1)
        return (⟨selectPoints xy colour p.1, label, c⟩ : Group C)) = .ok gs →
      ∃ gs', (us.mapM fun (p : ℝ × ℕ) => if colour.length ≠ xy.length then .error .index
      else do
        let label ← legendLabel none p.2
        let c ← pyIndex all (trunc p.1)
        return (⟨selectPoints xy colour p.1, label, c⟩ : Group C)) = .ok gs' ∧
        (gs'.map fun g => (g.points, g.colour)) = gs.map fun g => (g.points, g.colour) := by
    intro us
    induction us with
    | nil => intro gs h; exact ⟨[], rfl, by cases h; rfl⟩
    | cons a us ih =>
      intro gs h
      rw [List.mapM_cons] at h ⊢
      by_cases hl : colour.length ≠ xy.length
      · rw [if_pos hl] at h; cases h
      · rw [if_neg hl] at h ⊢
        cases h1 : legendLabel (some l) a.2 with
        | error e => rw [h1] at h; cases h
        | ok s =>
          cases h2 : pyIndex all (trunc a.1) with
          | error e => rw [h1, h2] at h; cases h
          | ok c =>
            rw [h1, h2] at h
            simp only [bind, Except.bind, pure, Except.pure] at h ih ⊢
            split at h
            · cases h
            · rename_i gs0 h3
              cases h
              obtain ⟨gs', h4, h5⟩ := ih gs0 h3
              rw [h4]
              exact ⟨_, rfl, by simp [h5]⟩
  cases hm : (us.mapM fun (p : ℝ × ℕ) => if colour.length ≠ xy.length then .error .index
      else do
        let label ← legendLabel (some l) p.2
        let c ← pyIndex all (trunc p.1)
        return (⟨selectPoints xy colour p.1, label, c⟩ : Group C)) with
  | error e => rw [hm] at h; cases h
  | ok gs =>
    rw [hm] at h
    cases h
    obtain ⟨gs', h1, h2⟩ := key us gs hm
    rw [h1]
    refine ⟨_, rfl, ?_⟩
    have hp : ∀ gs : List (Group C), (Picture.mk gs false).points = (gs.map fun g => (g.points, g.colour)).flatMap fun v => v.1.map fun q => (q, v.2) := by
      intro gs
      simp [Picture.points, List.flatMap_map]
    simp [Picture.visible, hp, h2]

/-- **C91 (numbering, violated).**  Without `--override-color`, a class whose number is not less than the number of classes stops the script; so classes numbered
from one are always refused. -/
theorem C91_numbering_violated {C : Type} (palette : ℕ → List C) (hpal : ∀ n, (palette n).length = n) (xy : List (ℝ × ℝ)) (colour : List ℝ) (c : ℝ)
    (hc : c ∈ colour) (hbig : ((unique colour).length : ℝ) ≤ c) : scatterColour palette none none xy colour = .error .index := by
  simp only [scatterColour]
  rw [mapM_error _ .index]
  · rfl
  · intro x _ e' he
    by_cases hl : colour.length ≠ xy.length
    · rw [if_pos hl] at he; cases he; rfl
    · rw [if_neg hl] at he
      simp only [legendLabel, bind, Except.bind, pure, Except.pure] at he
      split at he
      · rename_i e h
        cases he
        simp only [pyIndex] at h
        split at h <;> split at h <;> try split at h
        all_goals first | (cases h; rfl) | cases h
      · cases he
  · obtain ⟨i, hi, rfl⟩ := List.mem_iff_getElem.1 (mem_unique.2 hc)
    refine ⟨((unique colour)[i], i), ?_, ?_⟩
    · rw [List.mem_zipIdx_iff_getElem?]
      simp [hi]
    · by_cases hl : colour.length ≠ xy.length
      · simp [hl]
      · have h0 : (0 : ℝ) ≤ (unique colour)[i] := le_trans (Nat.cast_nonneg _) hbig
        have ht : ((unique colour).length : ℤ) ≤ trunc (unique colour)[i] := by
          rw [trunc, if_pos h0]
          exact Int.le_floor.2 (by exact_mod_cast hbig)
        have hp : pyIndex (palette (unique colour).length) (trunc (unique colour)[i]) = .error .index := by
          have h1 : ¬ trunc (unique colour)[i] < 0 := by omega
          simp only [pyIndex, h1, if_false]
          rw [List.getElem?_eq_none (by rw [hpal]; omega)]
        simp only [hl, if_false, Option.getD_none, hp, legendLabel]
        rfl

/-- Classes numbered from one. -/
theorem C91_from_one_violated {C : Type} (palette : ℕ → List C) (hpal : ∀ n, (palette n).length = n) (xy : List (ℝ × ℝ)) (cls : List ℕ) (K : ℕ) (hK : 0 < K)
    (hcls : ∀ k, k ∈ cls ↔ 1 ≤ k ∧ k ≤ K) : scatterColour palette none none xy (cls.map Nat.cast) = .error .index := by
  refine C91_numbering_violated palette hpal xy _ (K : ℝ) (List.mem_map.2 ⟨K, (hcls K).2 ⟨hK, le_refl _⟩, rfl⟩) ?_
  have hp : (unique (cls.map (Nat.cast : ℕ → ℝ))).Perm ((List.range K).map fun k => ((k + 1 : ℕ) : ℝ)) := by
    refine (List.perm_ext_iff_of_nodup (unique_nodup _) (List.nodup_range.map fun a b h => by simpa using h)).2 fun x => ?_
    simp only [mem_unique, List.mem_map, List.mem_range, hcls]
    constructor
    · rintro ⟨k, ⟨h1, h2⟩, rfl⟩
      exact ⟨k - 1, by omega, by rw [Nat.sub_add_cancel h1]⟩
    · rintro ⟨k, h, rfl⟩
      exact ⟨k + 1, ⟨by omega, by omega⟩, rfl⟩
  rw [hp.length_eq]
  simp

/-- **C91 (colours, violated).**  Two classes whose numbers have the same integer part are drawn in the same colour, whatever the palette. -/
theorem C91_same_colour_violated {C : Type} (palette : ℕ → List C) (hpal : ∀ n, (palette n).length = n) :
    ∃ pic c, scatterColour palette none none [(1, 1), (2, 2)] [0.2, 0.7] = .ok pic ∧ pic.points = [((1, 1), c), ((2, 2), c)] := by
  have hu : unique [0.2, 0.7] = [(0.2 : ℝ), 0.7] := by
    have : [(0.2 : ℝ), 0.7].mergeSort = [0.2, 0.7] := List.mergeSort_of_pairwise (by simp; norm_num)
    rw [unique, this, List.dedup_eq_self]
    simp
    norm_num
  have h2 : (palette 2).length = 2 := hpal 2
  have hi : pyIndex (palette 2) 0 = .ok (palette 2)[0] := pyIndex_nat (k := 0) (by omega)
  have t1 : trunc 0.2 = 0 := by rw [trunc, if_pos (by norm_num), Int.floor_eq_iff]; norm_num
  have t2 : trunc 0.7 = 0 := by rw [trunc, if_pos (by norm_num), Int.floor_eq_iff]; norm_num
  refine ⟨⟨[⟨[(1, 1)], none, (palette 2)[0]⟩, ⟨[(2, 2)], none, (palette 2)[0]⟩], false⟩, (palette 2)[0], ?_, by simp [Picture.points]⟩
  simp only [scatterColour, hu, List.length_cons, List.length_nil, zero_add, Nat.reduceAdd, Option.getD_none, List.zipIdx_cons, List.zipIdx_nil, List.mapM_cons,
    List.mapM_nil, t1, t2, hi, legendLabel, bind, Except.bind, pure, Except.pure, ne_eq, not_true, if_false]
  simp [selectPoints]
  norm_num

/-- **C91 (three dimensions).**  Without `--color` the points have the three named columns as coordinates and the `z` values as colours; with it, the script always
fails. -/
theorem C91_3d_violated (f : File ℝ) (x y z : String) (colour : Option ℤ) :
    (colour ≠ none → ∀ r, scatter3d f x y z colour ≠ .ok r) ∧
    ∀ xs ys zs cs, scatter3d f x y z none = .ok (xs, ys, zs, cs) ↔
      ∃ df, Tables.readCsv 0 f = .ok df ∧ df.col x = .ok xs ∧ df.col y = .ok ys ∧ df.col z = .ok zs ∧ cs = zs := by
  constructor
  · intro hc r h
    obtain ⟨k, rfl⟩ := Option.ne_none_iff_exists'.1 hc
    simp only [scatter3d, bind, Except.bind, colour3d] at h
    repeat (split at h; · cases h)
    cases h
  · intro xs ys zs cs
    constructor
    · intro h
      simp only [scatter3d, bind, Except.bind, pure, Except.pure, colour3d] at h
      repeat (split at h; · cases h)
      cases h
      exact ⟨_, by assumption, by assumption, by assumption, by assumption, rfl⟩
    · rintro ⟨df, h1, h2, h3, h4, rfl⟩
      simp only [scatter3d, bind, Except.bind, pure, Except.pure, colour3d, h1, h2, h3, h4]

/-! ## Examples -/

/-- Two chains of two parameters. -/
def exChains : List (List (List ℝ)) := [[[0, 1], [2, 3], [4, 5]], [[0, 2], [1, 1], [7, 5]]]

theorem exTables : ∀ rows ∈ exChains, IsTable ["a", "b"] rows ∧ rows.length = 2 + 1 := by
  intro rows h
  have hw : ∀ r ∈ rows, r.length = 2 := by
    simp only [exChains, List.mem_cons, List.not_mem_nil, or_false] at h
    rcases h with rfl | rfl <;> simp
  refine ⟨⟨by simp, by simp, ?_, hw⟩, ?_⟩
  · intro l hl
    simp only [List.mem_cons, List.not_mem_nil, or_false] at hl
    rcases hl with rfl | rfl <;> decide
  · simp only [exChains, List.mem_cons, List.not_mem_nil, or_false] at h
    rcases h with rfl | rfl <;> rfl

/-- The conditions of C90 hold of them. -/
example : ∃ panels, chainPlot false ["A", "B"] (exChains.map (savetxt .hashSpace ["a", "b"])) = .ok panels ∧
    ∃ p, panels[1]? = some p ∧ p.label = "B" ∧ p.marks = [.line [3, 5], .line [1, 5]] := by
  obtain ⟨panels, h1, -, h3⟩ := C90_chains ["a", "b"] ["A", "B"] (by simp) 2 exChains (by simp [exChains]) exTables .hashSpace
  obtain ⟨p, h4, h5, h6⟩ := h3 1 (by simp)
  refine ⟨panels, h1, p, h4, by simpa using h5.symm, ?_⟩
  rw [h6]
  simp [exChains, trace]

example : ∃ panels, chainPlot true ["A", "B"] (exChains.map (savetxt .hashSpace ["a", "b"])) = .ok panels ∧ panels.length = 2 := by
  obtain ⟨panels, h1, h2, -⟩ := C90_band_partial ["a", "b"] ["A", "B"] (by simp) (by simp) 2 exChains (by simp [exChains]) exTables .hashSpace
  exact ⟨panels, h1, h2⟩

/-- Three training draws and two production draws. -/
example (ess : List (List ℝ) → ℝ) : ∃ table, essPlot ess ["A", "B"] (exChains.map (savetxt .hashSpace ["a", "b"]))
    ((exChains.map List.tail).map (savetxt .hashSpace ["a", "b"])) = .ok table ∧
    ∃ row, table[0]? = some row ∧ row.production = essPerDraw ess (exChains.map List.tail) 2 0 * (2 / 3) := by
  obtain ⟨table, h1, h2⟩ := C90_ess_violated ess ["a", "b"] ["A", "B"] rfl 3 2 (by omega) (by omega) (by omega) exChains (exChains.map List.tail)
    (by simp [exChains]) (by simp [exChains]) exTables (by
      intro rows h
      obtain ⟨r, hr, rfl⟩ := List.mem_map.1 h
      obtain ⟨a, b⟩ := exTables r hr
      exact ⟨⟨a.nonempty, a.nodup, a.plain, fun q hq => a.width q (List.mem_of_mem_tail hq)⟩, by simp [b]⟩) .hashSpace (by simp)
  obtain ⟨row, h3, h4, -⟩ := h2 0 (by simp)
  exact ⟨table, h1, row, h3, by exact_mod_cast h4⟩

/-- Three points of two classes. -/
example : ∃ pic, scatterColour (fun n => List.range n) none none [(1, 1), (2, 2), (3, 3)] (([1, 0, 1] : List ℕ).map Nat.cast) = .ok pic ∧
    (pic.points.map fun p => (p.1, some p.2)).Perm [((1, 1), some 1), ((2, 2), some 0), ((3, 3), some 1)] := by
  obtain ⟨pic, h1, h2⟩ := C91_classes_partial (fun n => List.range n) (fun n => List.length_range) none none [(1, 1), (2, 2), (3, 3)] [1, 0, 1] rfl 2
    (by intro k; simp; omega) (by simp) (by simp)
  exact ⟨pic, h1, by simpa using h2⟩

end
end GW.Plots
