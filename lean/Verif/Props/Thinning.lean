import Verif.Lemmas.Thinning
import Verif.Props.Population
import Mathlib.Probability.StrongLaw
import Mathlib.Probability.Independence.InfinitePi
import Mathlib.MeasureTheory.Measure.WithDensity
import Mathlib.MeasureTheory.Measure.Prod
import Mathlib.MeasureTheory.Constructions.BorelSpace.Order

/-!
# C85: a synthetic catalogue is drawn from the population seen through the detector
-/

namespace GW.Population
open GW XR MeasureTheory Filter Topology ProbabilityTheory
open GW.Tools (Err)

noncomputable section
open Classical

variable {α : Type} {logSelection : α → XR} {rows : List α}

theorem selectIndex_eq (hpos : 0 < (rows.map fun r => weight (logSelection r)).sum) (u : ℝ) :
    selectIndex logSelection rows u =
      choose ((rows.map fun r => weight (logSelection r) / (rows.map fun r => weight (logSelection r)).sum).map fin) u := by
  have hw : (rows.map fun r => cleanSelection (logSelection r)).map weight = rows.map fun r => weight (logSelection r) := by
    rw [List.map_map]; exact List.map_congr_left fun r _ => weight_clean _
  unfold selectIndex
  rw [softmaxWeights_eq, hw, List.map_map, List.map_map]
  · congr 1
    refine List.map_congr_left fun r _ => ?_
    simp only [Function.comp_apply, weight_clean]
  · intro x hx
    obtain ⟨r, _, rfl⟩ := List.mem_map.1 hx
    exact clean_cases _
  · rw [hw]; exact hpos

theorem shares_nonneg (p : ℝ) (hp : p ∈ rows.map fun r => weight (logSelection r) / (rows.map fun r => weight (logSelection r)).sum) :
    0 ≤ p := by
  obtain ⟨r, _, rfl⟩ := List.mem_map.1 hp
  refine div_nonneg (weight_nonneg _) (List.sum_nonneg ?_)
  intro x hx
  obtain ⟨r, _, rfl⟩ := List.mem_map.1 hx
  exact weight_nonneg _

theorem shares_sum (hpos : 0 < (rows.map fun r => weight (logSelection r)).sum) :
    (rows.map fun r => weight (logSelection r) / (rows.map fun r => weight (logSelection r)).sum).sum = 1 := by
  simp only [div_eq_mul_inv]
  rw [List.sum_map_mul_right, mul_inv_cancel₀ hpos.ne']

theorem sum_pos_iff : 0 < (rows.map fun r => weight (logSelection r)).sum ↔ ∃ r ∈ rows, ∃ a, logSelection r = fin a := by
  constructor
  · intro h
    by_contra hno
    push Not at hno
    have : rows.map (fun r => weight (logSelection r)) = rows.map fun _ => 0 := List.map_congr_left fun r hr => by
      have := weight_nonneg (logSelection r)
      by_contra h0
      obtain ⟨a, ha⟩ := (weight_pos_iff (logSelection r)).1 (lt_of_le_of_ne this (Ne.symm h0))
      exact hno r hr a ha
    rw [this] at h
    simp at h
  · rintro ⟨r, hr, ha⟩
    have hmem : weight (logSelection r) ∈ rows.map fun r => weight (logSelection r) := List.mem_map.2 ⟨r, hr, rfl⟩
    refine lt_of_lt_of_le ((weight_pos_iff _).2 ha) (List.single_le_sum ?_ _ hmem)
    intro x hx
    obtain ⟨r, _, rfl⟩ := List.mem_map.1 hx
    exact weight_nonneg _

/-- **C85** (only detectable events).  If at least one row of the pool can be detected, then for every random number the event taken is a row
of the pool that can be detected. -/
theorem C85_detectable (h : ∃ r ∈ rows, ∃ a, logSelection r = fin a) {u : ℝ} (h0 : 0 ≤ u) (h1 : u < 1) :
    ∃ r a, rows[selectIndex logSelection rows u]? = some r ∧ logSelection r = fin a := by
  have hpos := sum_pos_iff.2 h
  have hs := shares_sum hpos
  obtain ⟨h2, h3⟩ := choose_iff shares_nonneg hs h0 h1
  have hi : choose ((rows.map fun r => weight (logSelection r) / (rows.map fun r => weight (logSelection r)).sum).map fin) u < rows.length := by
    simpa using h2
  have h4 := (h3 _ h2).1 rfl
  rw [partialSum_succ h2, List.getElem_map] at h4
  rw [selectIndex_eq hpos, List.getElem?_eq_getElem hi]
  have h5 : 0 < weight (logSelection (rows[choose ((rows.map fun r => weight (logSelection r) /
      (rows.map fun r => weight (logSelection r)).sum).map fin) u])) := by
    by_contra hle
    rw [le_antisymm (not_lt.1 hle) (weight_nonneg _), zero_div, add_zero] at h4
    linarith [h4.1, h4.2]
  obtain ⟨a, ha⟩ := (weight_pos_iff _).1 h5
  exact ⟨_, a, rfl, ha⟩

/-- **C85** (selection).  If at least one row of the pool can be detected, the event taken lies in a set with probability equal to the share of
the detection probability of the pool that lies in the set. -/
theorem C85_pool_law (h : ∃ r ∈ rows, ∃ a, logSelection r = fin a) (A : Set α) :
    unif {u | ∃ x ∈ A, rows[selectIndex logSelection rows u]? = some x} = ENNReal.ofReal (poolLaw logSelection rows A) := by
  have hpos := sum_pos_iff.2 h
  simp only [selectIndex_eq hpos]
  rw [choose_law shares_nonneg (shares_sum hpos) fun i => ∃ x ∈ A, rows[i]? = some x]
  congr 1
  unfold poolLaw
  set W := (rows.map fun r => weight (logSelection r)).sum
  have e1 : (rows.map fun r => if r ∈ A then weight (logSelection r) else 0).sum / W =
      (rows.map fun r => (if r ∈ A then weight (logSelection r) else 0) / W).sum := by
    simp only [div_eq_mul_inv]
    rw [List.sum_map_mul_right]
  rw [e1, ← Fin.sum_univ_getElem]
  have hl : (rows.map fun r => weight (logSelection r) / W).length = (rows.map fun r => (if r ∈ A then weight (logSelection r) else 0) / W).length := by
    simp
  refine Fintype.sum_equiv (finCongr hl) _ _ fun i => ?_
  have hi : i.val < rows.length := by simpa using i.isLt
  have e2 : (∃ x ∈ A, rows[i.val]? = some x) ↔ rows[i.val] ∈ A := by
    rw [List.getElem?_eq_getElem hi]
    constructor
    · rintro ⟨x, hx, h⟩; rw [Option.some.inj h]; exact hx
    · intro h; exact ⟨_, h, rfl⟩
  simp only [e2, Fin.getElem_fin, List.getElem_map, finCongr_apply, Fin.val_cast]
  split_ifs <;> simp

/-- **C85** (every event of a realisation).  All the events of a realisation are rows of its pool that can be detected, and there are as many
as asked for. -/
theorem C85_events (h : ∃ r ∈ rows, ∃ a, logSelection r = fin a) {us : Nat → ℝ} (hu : ∀ k, 0 ≤ us k ∧ us k < 1) (size : Nat) :
    (take rows (selectIndices logSelection us rows size)).length = size ∧
    ∀ x ∈ take rows (selectIndices logSelection us rows size), x ∈ rows ∧ ∃ a, logSelection x = fin a := by
  unfold take selectIndices
  have key : ∀ k, ∃ r a, rows[selectIndex logSelection rows (us k)]? = some r ∧ logSelection r = fin a := fun k =>
    C85_detectable h (hu k).1 (hu k).2
  choose r a hr ha using key
  have e : ((List.range size).map fun k => selectIndex logSelection rows (us k)).filterMap (fun i => rows[i]?) = (List.range size).map r := by
    rw [List.filterMap_map]
    rw [show ((fun i => rows[i]?) ∘ fun k => selectIndex logSelection rows (us k)) = fun k => some (r k) from funext fun k => hr k]
    exact List.filterMap_eq_map' ▸ rfl
  rw [e]
  refine ⟨by simp, fun x hx => ?_⟩
  obtain ⟨k, _, rfl⟩ := List.mem_map.1 hx
  exact ⟨List.mem_of_getElem? (hr k), a k, ha k⟩

theorem measurable_weight [MeasurableSpace α] {pdet : α → ℝ} (hm : Measurable pdet) (hsel : ∀ x, weight (logSelection x) = pdet x) :
    Measurable fun x => weight (logSelection x) := by
  simpa only [hsel] using hm

/-- **C85** (large pools).  Let the rows of the pool be drawn independently from the population `P`, let the detection probability be
measurable, integrable and not almost everywhere zero.  Then, with probability one, the law of an event taken from the first `n` rows of the
pool converges to the population weighted with the detection probability, as the pool grows. -/
theorem C85_large_pool [MeasurableSpace α] {Ω : Type} [MeasurableSpace Ω] {μ : Measure Ω} {P : Measure α} {X : ℕ → Ω → α}
    (hX : ∀ i, Measurable (X i)) (hind : iIndepFun X μ) (hlaw : ∀ i, μ.map (X i) = P)
    (hm : Measurable fun x => weight (logSelection x)) (hint : Integrable (fun x => weight (logSelection x)) P)
    (hpos : 0 < ∫ x, weight (logSelection x) ∂P) {A : Set α} (hA : MeasurableSet A) :
    ∀ᵐ ω ∂μ, Tendsto (fun n => unif {u | ∃ x ∈ A, ((List.range n).map (X · ω))[selectIndex logSelection ((List.range n).map (X · ω)) u]? = some x})
      atTop (𝓝 (ENNReal.ofReal (detectedLaw P logSelection A))) := by
  have slln : ∀ f : α → ℝ, Measurable f → Integrable f P →
      ∀ᵐ ω ∂μ, Tendsto (fun n : ℕ => (∑ i ∈ Finset.range n, f (X i ω)) / n) atTop (𝓝 (∫ x, f x ∂P)) := by
    intro f hf hfi
    have h := strong_law_ae_real (μ := μ) (fun i ω => f (X i ω))
      (by
        have := (hlaw 0 ▸ hfi : Integrable f (μ.map (X 0)))
        exact this.comp_measurable (hX 0))
      (fun i j hij => (hind.indepFun hij).comp hf hf)
      (fun i => ⟨(hf.comp (hX i)).aemeasurable, (hf.comp (hX 0)).aemeasurable, by
        change μ.map (f ∘ X i) = μ.map (f ∘ X 0)
        rw [← Measure.map_map hf (hX i), hlaw i, ← hlaw 0, Measure.map_map hf (hX 0)]⟩)
    have e : ∫ x, f x ∂P = ∫ ω, f (X 0 ω) ∂μ := by
      rw [← hlaw 0, integral_map (hX 0).aemeasurable hf.aestronglyMeasurable]
    rw [e]
    exact h
  set w : α → ℝ := fun x => weight (logSelection x) with hw
  filter_upwards [slln w hm hint, slln (A.indicator w) (hm.indicator hA) (hint.indicator hA)] with ω h1 h2
  rw [integral_indicator hA] at h2
  have h3 := h2.div h1 hpos.ne'
  have hsums : ∀ (f : α → ℝ) (n : ℕ), (((List.range n).map (X · ω)).map f).sum = ∑ i ∈ Finset.range n, f (X i ω) := by
    intro f n
    rw [List.map_map, Finset.sum_range, ← List.sum_ofFn]
    congr 1
    apply List.ext_getElem <;> simp
  have hev : ∀ᶠ n : ℕ in atTop, 0 < ∑ i ∈ Finset.range n, w (X i ω) := by
    filter_upwards [h1.eventually (lt_mem_nhds hpos), eventually_gt_atTop 0] with n hn hn0
    have : (0 : ℝ) < n := by exact_mod_cast hn0
    exact (div_pos_iff_of_pos_right this).1 hn
  refine ((ENNReal.continuous_ofReal.tendsto _).comp h3).congr' ?_
  filter_upwards [hev, eventually_gt_atTop 0] with n hn hn0
  have hn' : 0 < (((List.range n).map (X · ω)).map w).sum := by rw [hsums]; exact hn
  rw [C85_pool_law (sum_pos_iff.1 hn')]
  simp only [Function.comp_apply]
  congr 1
  unfold poolLaw
  have e1 : (((List.range n).map (X · ω)).map fun r => if r ∈ A then weight (logSelection r) else 0) =
      ((List.range n).map (X · ω)).map (A.indicator w) := List.map_congr_left fun r _ => by
    rw [Set.indicator_apply]
  rw [e1, hsums, hsums]
  have : (n : ℝ) ≠ 0 := by exact_mod_cast hn0.ne'
  simp only [Pi.div_apply]
  rw [div_div_div_cancel_right₀ this]

/-- **C85** (violated: nothing detectable).  If no row of the pool can be detected, the program does not stop: all its "detected" events are
the first row of the pool, an event that cannot be detected. -/
theorem C85_nothing_detectable_violated (h : ∀ r ∈ rows, ¬ ∃ a, logSelection r = fin a) (u : ℝ) : selectIndex logSelection rows u = 0 := by
  have hc : rows.map (fun r => cleanSelection (logSelection r)) = List.replicate rows.length ninf := by
    rw [List.eq_replicate_iff]
    refine ⟨by simp, fun x hx => ?_⟩
    obtain ⟨r, hr, rfl⟩ := List.mem_map.1 hx
    have := h r hr
    cases hl : logSelection r <;> simp_all [cleanSelection, nanToNum]
  have htop : ∀ n, top (List.replicate n ninf) = ninf := by
    intro n
    induction n with
    | zero => rfl
    | succ n ih => rw [List.replicate_succ]; show XR.max ninf (top (List.replicate n ninf)) = ninf; rw [ih]; rfl
  unfold selectIndex
  rw [hc]
  unfold softmaxWeights
  simp only [htop, List.map_replicate]
  cases hn : rows.length with
  | zero => rfl
  | succ n =>
    have hnan : XR.exp (ninf - ninf) = nan := rfl
    simp only [List.replicate_succ, hnan, sum_cons, nan_add]
    have hdiv : (nan / nan : XR) = nan := rfl
    rw [hdiv]
    unfold choose searchsorted
    simp only [cumsumFrom, add_nan]
    rw [List.findIdx_cons]
    simp [sortsUpTo]

/-! ## Ordering of the masses -/

/-- Putting the masses in order acts on a row as on the pair of its masses. -/
theorem swapRow_ordered {β : Type} (rest : β → List ℝ) (x : ℝ × ℝ × β) :
    swapRow 0 1 (x.1 :: x.2.1 :: rest x.2.2) = (ordered x).1 :: (ordered x).2.1 :: rest (ordered x).2.2 := by
  simp [swapRow, ordered]

theorem measurable_ordered {β : Type} [MeasurableSpace β] : Measurable (ordered : ℝ × ℝ × β → ℝ × ℝ × β) := by
  unfold ordered
  fun_prop

/-- Exchange of the two masses. -/
def exchange {β : Type} (x : ℝ × ℝ × β) : ℝ × ℝ × β := (x.2.1, x.1, x.2.2)

theorem measurePreserving_exchange {β : Type} [MeasurableSpace β] (ν : Measure β) [SFinite ν] :
    MeasurePreserving (exchange : ℝ × ℝ × β → ℝ × ℝ × β) (volume.prod (volume.prod ν)) (volume.prod (volume.prod ν)) := by
  have h1 : MeasurePreserving (MeasurableEquiv.prodAssoc (α := ℝ) (β := ℝ) (γ := β)) ((volume.prod volume).prod ν)
      (volume.prod (volume.prod ν)) := measurePreserving_prodAssoc _ _ _
  have h2 : MeasurePreserving (Prod.map (Prod.swap : ℝ × ℝ → ℝ × ℝ) (id : β → β)) ((volume.prod volume).prod ν) ((volume.prod volume).prod ν) :=
    Measure.measurePreserving_swap.prod (MeasurePreserving.id ν)
  exact h1.comp (h2.comp h1.symm)

/-- **C85** (masses).  If the model draws the masses and the other parameters with the density `f`, then after the masses have been put in
order the density at `m1 > m2` is `f` at `(m1, m2)` plus `f` at `(m2, m1)`, and there is nothing at `m1 < m2`. -/
theorem C85_ordered_law {β : Type} [MeasurableSpace β] (ν : Measure β) [SFinite ν] {f : ℝ × ℝ × β → ENNReal} (hf : Measurable f) :
    ((volume.prod (volume.prod ν)).withDensity f).map ordered =
      (volume.prod (volume.prod ν)).withDensity fun x => if x.2.1 < x.1 then f x + f (exchange x) else 0 := by
  set μ := (volume : Measure ℝ).prod ((volume : Measure ℝ).prod ν)
  have hlt : MeasurableSet {x : ℝ × ℝ × β | x.2.1 < x.1} := measurableSet_lt (by fun_prop) (by fun_prop)
  have hgt : MeasurableSet {x : ℝ × ℝ × β | x.1 < x.2.1} := measurableSet_lt (by fun_prop) (by fun_prop)
  have hex : Measurable (exchange : ℝ × ℝ × β → ℝ × ℝ × β) := by unfold exchange; fun_prop
  have hdiag : μ {x : ℝ × ℝ × β | x.1 = x.2.1} = 0 := by
    have hm : MeasurableSet {x : ℝ × ℝ × β | x.1 = x.2.1} := measurableSet_eq_fun (by fun_prop) (by fun_prop)
    rw [Measure.measure_prod_null_of_ae_null hm]
    filter_upwards with a
    have : Prod.mk a ⁻¹' {x : ℝ × ℝ × β | x.1 = x.2.1} = {a} ×ˢ Set.univ := by
      ext ⟨b, c⟩; simp [eq_comm]
    rw [this, Measure.prod_prod]; simp
  ext S hS
  have hi : Measurable (S.indicator (1 : ℝ × ℝ × β → ENNReal)) := measurable_one.indicator hS
  set h : ℝ × ℝ × β → ENNReal := fun y => if y.2.1 < y.1 then S.indicator 1 y * f (exchange y) else 0 with hh
  have hhm : Measurable h := Measurable.ite hlt (hi.mul (hf.comp hex)) measurable_const
  have e1 : ((μ.withDensity f).map ordered) S = ∫⁻ x, S.indicator 1 (ordered x) * f x ∂μ := by
    rw [Measure.map_apply measurable_ordered hS, withDensity_apply _ (measurable_ordered hS), ← lintegral_indicator (measurable_ordered hS)]
    refine lintegral_congr fun x => ?_
    by_cases hx : ordered x ∈ S
    · rw [Set.indicator_of_mem (by exact hx), Set.indicator_of_mem hx]; simp
    · rw [Set.indicator_of_notMem (by exact hx), Set.indicator_of_notMem hx]; simp
  have e2 : (∫⁻ x, S.indicator 1 (ordered x) * f x ∂μ) = ∫⁻ x, ((if x.2.1 < x.1 then S.indicator 1 x * f x else 0) + h (exchange x)) ∂μ := by
    refine lintegral_congr_ae ?_
    have hne : ∀ᵐ x ∂μ, ¬ x.1 = x.2.1 := by rw [ae_iff]; simpa only [not_not] using hdiag
    filter_upwards [hne] with x hx
    rcases lt_or_gt_of_ne hx with hl | hl
    · have : ordered x = exchange x := by simp [ordered, exchange, hl.le]
      simp only [hh, this, not_lt.2 hl.le, if_false, zero_add]
      simp [exchange, hl]
    · have : ordered x = x := by simp [ordered, hl.le]
      simp only [hh, this, hl, if_true]
      simp [exchange, not_lt.2 hl.le]
  have e3 : ∫⁻ x, h (exchange x) ∂μ = ∫⁻ x, h x ∂μ := (measurePreserving_exchange ν).lintegral_comp hhm
  rw [e1, e2, lintegral_add_right _ (show Measurable fun x => h (exchange x) from hhm.comp hex), e3, ← lintegral_add_right _ hhm, withDensity_apply _ hS, ← lintegral_indicator hS]
  refine lintegral_congr fun x => ?_
  by_cases hx : x ∈ S <;> by_cases hl : x.2.1 < x.1 <;> simp [hh, hx, hl]

/-- **C85** (masses, models with ordered masses).  If the model itself only draws masses with `m1 ≥ m2`, the generated law is the model's. -/
theorem C85_ordered_model {β : Type} [MeasurableSpace β] (P : Measure (ℝ × ℝ × β)) (h : ∀ᵐ x ∂P, x.2.1 ≤ x.1) : P.map ordered = P := by
  have : P.map ordered = P.map id := Measure.map_congr (by
    filter_upwards [h] with x hx
    simp [ordered, hx])
  rw [this, Measure.map_id]

/-- **C85** (violated: Gaussian components).  If the two masses are drawn independently with the same density (as in a Gaussian component
with equal parameters for the two masses), all generated events have `m1 ≥ m2`, but the model, whose density the analysis evaluates, gives
these events only half of the probability. -/
theorem C85_gaussian_component_violated {g : ℝ → ENNReal} (hone : ∫⁻ m, g m = 1) :
    let P := ((volume : Measure ℝ).withDensity g).prod ((volume : Measure ℝ).withDensity g)
    P.map (fun x : ℝ × ℝ => (Max.max x.1 x.2, Min.min x.1 x.2)) {x | x.2 ≤ x.1} = 1 ∧ P {x | x.2 ≤ x.1} = 1 / 2 := by
  intro P
  have hp : IsProbabilityMeasure ((volume : Measure ℝ).withDensity g) := ⟨by rw [withDensity_apply _ MeasurableSet.univ]; simpa using hone⟩
  have hle : MeasurableSet {x : ℝ × ℝ | x.2 ≤ x.1} := measurableSet_le measurable_snd measurable_fst
  have hlt : MeasurableSet {x : ℝ × ℝ | x.1 ≤ x.2} := measurableSet_le measurable_fst measurable_snd
  have hm : Measurable fun x : ℝ × ℝ => (Max.max x.1 x.2, Min.min x.1 x.2) := by fun_prop
  constructor
  · rw [Measure.map_apply hm hle]
    have : (fun x : ℝ × ℝ => (Max.max x.1 x.2, Min.min x.1 x.2)) ⁻¹' {x | x.2 ≤ x.1} = Set.univ := by
      ext x; simp
    rw [this, measure_univ]
  · have hna : NullSingletonClass ((volume : Measure ℝ).withDensity g) := ⟨fun a => withDensity_absolutelyContinuous _ _ (measure_singleton a)⟩
    have hdiag : P {x : ℝ × ℝ | x.1 = x.2} = 0 := by
      have hmd : MeasurableSet {x : ℝ × ℝ | x.1 = x.2} := measurableSet_eq_fun measurable_fst measurable_snd
      rw [Measure.measure_prod_null hmd]
      filter_upwards with a
      have : Prod.mk a ⁻¹' {x : ℝ × ℝ | x.1 = x.2} = {a} := by ext b; simp [eq_comm]
      rw [this]; simp
    have hsw : P {x | x.1 ≤ x.2} = P {x | x.2 ≤ x.1} := by
      have := (Measure.measurePreserving_swap (μ := (volume : Measure ℝ).withDensity g) (ν := (volume : Measure ℝ).withDensity g)).measure_preimage
        hlt.nullMeasurableSet
      rw [← this]; rfl
    have hun : P ({x | x.2 ≤ x.1} ∪ {x | x.1 ≤ x.2}) + P ({x | x.2 ≤ x.1} ∩ {x | x.1 ≤ x.2}) = P {x | x.2 ≤ x.1} + P {x | x.1 ≤ x.2} :=
      measure_union_add_inter _ hlt
    have hu : ({x : ℝ × ℝ | x.2 ≤ x.1} ∪ {x | x.1 ≤ x.2}) = Set.univ := by ext x; simpa using le_total x.2 x.1
    have hin : ({x : ℝ × ℝ | x.2 ≤ x.1} ∩ {x | x.1 ≤ x.2}) = {x | x.1 = x.2} := by
      ext x; simp only [Set.mem_inter_iff, Set.mem_ofPred_eq]; exact ⟨fun h => le_antisymm h.2 h.1, fun h => ⟨h.ge, h.le⟩⟩
    rw [hu, hin, hdiag, measure_univ, add_zero, hsw, ← two_mul] at hun
    rw [ENNReal.eq_div_iff (by norm_num) (by norm_num)]
    exact hun.symm

/-! ## Realisations -/

variable {parameters : List String} {poisson : Key → Nat} {draw : Key → Nat → List (List ℝ) × List Nat}
  {logSel : Option (List ℝ → XR)} {uniforms : Key → Nat → ℝ} {key : Key} {numRealizations : Nat}

theorem mapM_ok {γ δ : Type} {f : γ → Except Err δ} {Q : δ → Prop} (l : List γ) (h : ∀ i ∈ l, ∃ y, f i = .ok y ∧ Q y) :
    ∃ out, l.mapM f = .ok out ∧ out.length = l.length ∧ ∀ y ∈ out, Q y := by
  induction l with
  | nil => exact ⟨[], rfl, rfl, by simp⟩
  | cons i l ih =>
    obtain ⟨y, hy, hQ⟩ := h i (by simp)
    obtain ⟨out, ho, hl, hall⟩ := ih fun j hj => h j (by simp [hj])
    refine ⟨y :: out, ?_, by simp [hl], ?_⟩
    · rw [List.mapM_cons, hy, ho]; rfl
    · intro z hz
      rcases List.mem_cons.1 hz with rfl | hz
      · exact hQ
      · exact hall z hz

/-- **C85** (realisations).  If the model draws as many rows as asked for, over the declared parameters, and (when there is a selection) every
pool has a detectable row, then the run fails exactly if the Poisson number is zero; otherwise every realisation has exactly that many
events, every one of them a row of its own raw population, and detectable if there is a selection. -/
theorem C85_realizations (h1 : "mass_1_source" ∈ parameters) (h2 : "mass_2_source" ∈ parameters)
    (hdraw : ∀ k n, (draw k n).1.length = n ∧ (draw k n).2.length = n ∧ ∀ row ∈ (draw k n).1, row.length = parameters.length)
    (hu : ∀ k j, 0 ≤ uniforms k j ∧ uniforms k j < 1)
    (hdet : ∀ s, logSel = some s → ∀ k, ∃ r ∈ (draw k (poisson (Key.sub key 0) + 10000)).1.map (swapRow (parameters.idxOf "mass_1_source") (parameters.idxOf "mass_2_source")),
      ∃ a, s r = fin a) :
    (poisson (Key.sub key 0) = 0 → generateRealizations parameters poisson draw logSel uniforms numRealizations key = .error .valueError) ∧
    (0 < poisson (Key.sub key 0) → ∃ out, generateRealizations parameters poisson draw logSel uniforms numRealizations key = .ok out ∧
      out.length = numRealizations ∧ ∀ r ∈ out, r.2.2.1.length = poisson (Key.sub key 0) ∧
        ∀ x ∈ r.2.2.1, x ∈ r.1 ∧ ∀ s, logSel = some s → ∃ a, s x = fin a) := by
  constructor
  · intro h; simp [generateRealizations, h]
  · intro h
    have hne : ¬ poisson (Key.sub key 0) ≤ 0 := by omega
    obtain ⟨out, ho, hl, hall⟩ := mapM_ok (Q := fun r : List (List ℝ) × List Nat × List (List ℝ) × List Nat =>
        r.2.2.1.length = poisson (Key.sub key 0) ∧ ∀ x ∈ r.2.2.1, x ∈ r.1 ∧ ∀ s, logSel = some s → ∃ a, s x = fin a)
      (f := fun i => generatePopulation parameters (draw (Key.sub (Key.sub key 1) i))
        (logSel.map fun s => selectIndices s (uniforms (Key.sub (Key.sub (Key.sub (Key.sub key 1) i) 1) 1))) (poisson (Key.sub key 0)))
      (List.range numRealizations) (by
        intro i _
        unfold generatePopulation
        simp only [if_neg (not_not.2 h1), if_neg (not_not.2 h2)]
        cases hs : logSel with
        | none =>
          refine ⟨_, rfl, ?_, ?_⟩
          · simpa using (hdraw _ _).1
          · intro x hx; exact ⟨hx, by simp⟩
        | some s =>
          refine ⟨_, rfl, ?_⟩
          obtain ⟨e1, e2⟩ := C85_events (hdet s hs (Key.sub (Key.sub key 1) i))
            (hu (Key.sub (Key.sub (Key.sub (Key.sub key 1) i) 1) 1)) (poisson (Key.sub key 0))
          refine ⟨e1, fun x hx => ⟨(e2 x hx).1, fun s' hs' => ?_⟩⟩
          cases hs'
          exact (e2 x hx).2)
    exact ⟨out, by simp only [generateRealizations, if_neg hne]; exact ho, by simpa using hl, hall⟩

/-- **C85** (violated: numbers of events).  The Poisson number is drawn once for the whole run: whatever the seed, all realisations of one
run have the same number of events, so they are not independent catalogues. -/
theorem C85_same_counts_violated (h1 : "mass_1_source" ∈ parameters) (h2 : "mass_2_source" ∈ parameters)
    (hdraw : ∀ k n, (draw k n).1.length = n ∧ (draw k n).2.length = n ∧ ∀ row ∈ (draw k n).1, row.length = parameters.length)
    (hu : ∀ k j, 0 ≤ uniforms k j ∧ uniforms k j < 1)
    (hdet : ∀ s, logSel = some s → ∀ k, ∃ r ∈ (draw k (poisson (Key.sub key 0) + 10000)).1.map (swapRow (parameters.idxOf "mass_1_source") (parameters.idxOf "mass_2_source")),
      ∃ a, s r = fin a) {out}
    (h : generateRealizations parameters poisson draw logSel uniforms numRealizations key = .ok out) :
    ∀ r ∈ out, ∀ r' ∈ out, r.2.2.1.length = r'.2.2.1.length := by
  obtain ⟨g1, g2⟩ := C85_realizations (poisson := poisson) (logSel := logSel) (uniforms := uniforms) (key := key)
    (numRealizations := numRealizations) h1 h2 hdraw hu hdet
  rcases Nat.eq_zero_or_pos (poisson (Key.sub key 0)) with h0 | h0
  · rw [g1 h0] at h; cases h
  · obtain ⟨out', ho, _, hall⟩ := g2 h0
    rw [h] at ho
    cases ho
    intro r hr r' hr'
    rw [(hall r hr).1, (hall r' hr').1]

/-- **C85** (violated: repeated events).  The detected events are taken with replacement: two events of a realisation are the same row of the
pool with probability `Σ wᵢ²`, where `wᵢ` is the share of row `i` in the detection probability of the pool, which is never zero. -/
theorem C85_repeated_events_violated (h : ∃ r ∈ rows, ∃ a, logSelection r = fin a) :
    (unif.prod unif) {u | selectIndex logSelection rows u.1 = selectIndex logSelection rows u.2} =
      ENNReal.ofReal ((rows.map fun r => (weight (logSelection r) / (rows.map fun r => weight (logSelection r)).sum) ^ 2).sum) ∧
    0 < (rows.map fun r => (weight (logSelection r) / (rows.map fun r => weight (logSelection r)).sum) ^ 2).sum := by
  have hpos := sum_pos_iff.2 h
  set W := (rows.map fun r => weight (logSelection r)).sum with hW
  constructor
  · simp only [selectIndex_eq hpos]
    rw [choose_twice shares_nonneg (shares_sum hpos)]
    congr 1
    rw [← Fin.sum_univ_getElem (rows.map fun r => (weight (logSelection r) / W) ^ 2)]
    have hl : (rows.map fun r => weight (logSelection r) / W).length = (rows.map fun r => (weight (logSelection r) / W) ^ 2).length := by simp
    refine Fintype.sum_equiv (finCongr hl) _ _ fun i => ?_
    simp [hW]
  · obtain ⟨r, hr, ha⟩ := h
    have hw : 0 < (weight (logSelection r) / W) ^ 2 := pow_pos (div_pos ((weight_pos_iff _).2 ha) hpos) 2
    refine lt_of_lt_of_le hw (List.single_le_sum ?_ _ (List.mem_map.2 ⟨r, hr, rfl⟩))
    intro x hx
    obtain ⟨r, _, rfl⟩ := List.mem_map.1 hx
    exact sq_nonneg _

/-! ## Examples -/

/-- A pool of two rows, one of which cannot be detected: the other one is always taken. -/
example : (∃ r ∈ [(0 : ℝ), 1], ∃ a, (fun x : ℝ => if x = 0 then ninf else fin 0) r = fin a) ∧
    ∀ u : ℝ, 0 ≤ u → u < 1 → [(0 : ℝ), 1][selectIndex (fun x : ℝ => if x = 0 then ninf else fin 0) [(0 : ℝ), 1] u]? = some 1 := by
  have h : ∃ r ∈ [(0 : ℝ), 1], ∃ a, (fun x : ℝ => if x = 0 then ninf else fin 0) r = fin a := ⟨1, by simp, 0, by simp⟩
  refine ⟨h, fun u h0 h1 => ?_⟩
  obtain ⟨r, a, hr, ha⟩ := C85_detectable h h0 h1
  rw [hr]
  have hm := List.mem_of_getElem? hr
  simp only [List.mem_cons, List.not_mem_nil, or_false] at hm
  rcases hm with rfl | rfl
  · simp at ha
  · rfl

/-- Two rows, one with three times the detection probability of the other: it is taken with probability 3/4. -/
example : unif {u | ∃ x ∈ ({1} : Set ℝ), [(0 : ℝ), 1][selectIndex (fun x : ℝ => if x = 0 then fin 0 else fin (Real.log 3)) [(0 : ℝ), 1] u]? = some x} =
    ENNReal.ofReal (3 / 4) := by
  rw [C85_pool_law ⟨0, by simp, 0, by simp⟩]
  congr 1
  simp [poolLaw, weight, Real.exp_log]
  norm_num

/-- An infinite pool of independent uniform rows, detectable below one half with certainty and not above: the hypotheses of
`C85_large_pool` hold. -/
example : ∃ (Ω : Type) (_ : MeasurableSpace Ω) (μ : Measure Ω) (X : ℕ → Ω → ℝ) (sel : ℝ → XR), (∀ i, Measurable (X i)) ∧ iIndepFun X μ ∧
    (∀ i, μ.map (X i) = unif) ∧ (Measurable fun x => weight (sel x)) ∧ Integrable (fun x => weight (sel x)) unif ∧
    0 < ∫ x, weight (sel x) ∂unif := by
  have hp : IsProbabilityMeasure unif := ⟨by simp [unif]⟩
  have hw : (fun x : ℝ => weight (if x < 1 / 2 then fin 0 else ninf)) = (Set.Iio (1 / 2 : ℝ)).indicator 1 := by
    funext x
    by_cases hx : x < 1 / 2
    · rw [if_pos hx, Set.indicator_of_mem (by exact hx)]; simp [weight]
    · rw [if_neg hx, Set.indicator_of_notMem (by exact hx)]; rfl
  refine ⟨ℕ → ℝ, inferInstance, Measure.infinitePi fun _ => unif, fun i ω => ω i, fun x => if x < 1 / 2 then fin 0 else ninf,
    fun i => measurable_pi_apply i, iIndepFun_infinitePi (P := fun _ => unif) (X := fun _ x => x) (fun _ => measurable_id),
    fun i => Measure.infinitePi_map_eval _ i, ?_, ?_, ?_⟩
  · rw [hw]; exact measurable_one.indicator measurableSet_Iio
  · rw [hw]; exact (integrable_const (1 : ℝ)).indicator measurableSet_Iio
  · rw [hw, integral_indicator_one measurableSet_Iio]
    have : unif.real (Set.Iio (1 / 2)) = 1 / 2 := by
      rw [Measure.real, unif, Measure.restrict_apply measurableSet_Iio,
        show Set.Iio (1 / 2 : ℝ) ∩ Set.Ico 0 1 = Set.Ico 0 (1 / 2) from Set.ext fun x =>
          ⟨fun h => ⟨h.2.1, h.1⟩, fun h => ⟨h.2, h.1, lt_trans h.2 (by norm_num)⟩⟩, Real.volume_Ico]
      norm_num
    rw [this]; norm_num

/-- A run with a model of equal-mass rows of which all can be detected meets the hypotheses of `C85_realizations`. -/
example : let parameters := ["mass_1_source", "mass_2_source"]
    let draw : Key → Nat → List (List ℝ) × List Nat := fun _ n => (List.replicate n [2, 3], List.replicate n 0)
    (∀ k n, (draw k n).1.length = n ∧ (draw k n).2.length = n ∧ ∀ row ∈ (draw k n).1, row.length = parameters.length) ∧
    ∀ k : Key, ∃ r ∈ (draw k (4 + 10000)).1.map (swapRow (parameters.idxOf "mass_1_source") (parameters.idxOf "mass_2_source")),
      ∃ a, (fun r : List ℝ => fin (r.getD 0 0)) r = fin a := by
  intro parameters draw
  refine ⟨fun k n => ⟨by simp [draw], by simp [draw], fun row hr => ?_⟩, fun k => ⟨swapRow (parameters.idxOf "mass_1_source")
    (parameters.idxOf "mass_2_source") [2, 3], List.mem_map.2 ⟨[2, 3], ?_, rfl⟩, _, rfl⟩⟩
  · rw [List.eq_of_mem_replicate hr]; rfl
  · exact List.mem_replicate.2 ⟨by norm_num, rfl⟩

end
end GW.Population
