import Verif.Props.Hierarchy

/-! # Events that have probability zero

Observations that almost surely stay in a set `G` are observations of events in `G`. -/

namespace GW.Hierarchy
open GW XR MeasureTheory ProbabilityTheory Filter Topology PyDict
open GW.Likelihood (FRow)
open GW.Sage (Inputs Analysis run)
open GW.PoissonMean (foundInjections Campaign)

noncomputable section
open Classical

variable {α Ω : Type} [MeasurableSpace α] [MeasurableSpace Ω] {K : ℕ} {P : Measure Ω} {ν : Measure α} {L prior : Fin K → α → ℝ} {X : Fin K → ℕ → Ω → α}
  {pdet q : α → ℝ} {Y : ℕ → Ω → α × ℝ} {G : Set α}

/-- Keep the events of `G`, send the others to `x₀`. -/
def retract (G : Set α) (x₀ : G) (x : α) : G := ⟨if x ∈ G then x else x₀, by split <;> [assumption; exact x₀.2]⟩

omit [MeasurableSpace α] in
theorem retract_coe {x₀ : G} {x : α} (hx : x ∈ G) : (retract G x₀ x : α) = x := by simp [retract, hx]

theorem measurable_retract (hG : MeasurableSet G) (x₀ : G) : Measurable (retract G x₀) :=
  Measurable.subtype_mk (Measurable.ite hG measurable_id measurable_const)

theorem ae_retract {x₀ : G} (hnull : ∀ᵐ x ∂ν, x ∈ G) : ∀ᵐ x ∂ν, (retract G x₀ x : α) = x := hnull.mono fun _ hx => retract_coe hx

theorem map_coe (hG : MeasurableSet G) (x₀ : G) (hnull : ∀ᵐ x ∂ν, x ∈ G) : (ν.map (retract G x₀)).map Subtype.val = ν := by
  rw [Measure.map_map measurable_subtype_coe (measurable_retract hG x₀),
    Measure.map_congr (f := Subtype.val ∘ retract G x₀) (g := id) (ae_retract (x₀ := x₀) hnull), Measure.map_id]

theorem integral_retract (hG : MeasurableSet G) (x₀ : G) (hnull : ∀ᵐ x ∂ν, x ∈ G) (f : α → ℝ) : ∫ x : G, f x ∂(ν.map (retract G x₀)) = ∫ x, f x ∂ν := by
  conv_rhs => rw [← map_coe hG x₀ hnull]
  exact ((MeasurableEmbedding.subtype_coe hG).integral_map _).symm

theorem integrable_retract (hG : MeasurableSet G) (x₀ : G) (hnull : ∀ᵐ x ∂ν, x ∈ G) {f : α → ℝ} (hf : Integrable f ν) : Integrable (fun x : G => f x) (ν.map (retract G x₀)) := by
  rw [← map_coe hG x₀ hnull] at hf
  exact (MeasurableEmbedding.subtype_coe hG).integrable_map_iff.1 hf

theorem withDensity_retract (hG : MeasurableSet G) (x₀ : G) (hnull : ∀ᵐ x ∂ν, x ∈ G) {f : α → ENNReal} (hf : Measurable f) :
    (ν.withDensity f).map (retract G x₀) = (ν.map (retract G x₀)).withDensity fun x => f x := by
  have hm := measurable_retract hG x₀
  ext s hs
  rw [Measure.map_apply hm hs, withDensity_apply _ (hm hs), withDensity_apply _ hs, setLIntegral_map (f := fun x : G => f x) hs (hf.comp measurable_subtype_coe) hm]
  refine lintegral_congr_ae (ae_restrict_of_ae ?_)
  filter_upwards [ae_retract (x₀ := x₀) hnull] with x hx
  rw [hx]

/-- The observations, sent into `G`. -/
theorem World.retract [SFinite ν] (hG : MeasurableSet G) (x₀ : G) (hnull : ∀ᵐ x ∂ν, x ∈ G) (hw : World P ν L prior X pdet q Y) :
    World P (ν.map (retract G x₀)) (fun i (x : G) => L i x) (fun i (x : G) => prior i x) (fun i j ω => Hierarchy.retract G x₀ (X i j ω)) (fun x : G => pdet x) (fun x : G => q x)
      (fun j ω => (Hierarchy.retract G x₀ (Y j ω).1, (Y j ω).2)) where
  observed := by
    have hm := measurable_retract hG x₀
    refine ⟨fun i j => hm.comp (hw.observed.measurable i j), fun i j => ?_, fun i => (hw.observed.samples i).comp (fun _ => Hierarchy.retract G x₀) fun _ => hm,
      hw.observed.events.comp (fun _ x j => Hierarchy.retract G x₀ (x j)) fun _ => measurable_pi_lambda _ fun j => hm.comp (measurable_pi_apply j)⟩
    have hd : Measurable fun x => L i x * prior i x / evidence ν (L i) (prior i) := ((hw.measurable_L i).mul (hw.measurable_prior i)).div_const _
    have := Measure.map_map (μ := P) hm (hw.observed.measurable i j)
    rw [hw.observed.law i j, withDensity_retract hG x₀ hnull hd.ennreal_ofReal] at this
    rw [evidence, integral_retract hG x₀ hnull fun x => L i x * prior i x]
    exact this.symm
  campaign := by
    have hm := measurable_retract hG x₀
    have hm2 : Measurable (Prod.map (Hierarchy.retract G x₀) (id : ℝ → ℝ)) := hm.prodMap measurable_id
    refine ⟨fun j => hm2.comp (hw.campaign.measurable j), fun j => ?_, hw.campaign.independent.comp (fun _ => Prod.map (Hierarchy.retract G x₀) id) fun _ => hm2⟩
    have := Measure.map_map (μ := P) hm2 (hw.campaign.measurable j)
    have hp := hw.campaign.independent.isProbabilityMeasure
    have hs : SFinite (ν.withDensity fun x => ENNReal.ofReal (q x)) := by
      infer_instance
    rw [hw.campaign.law j] at this
    have e := Measure.map_prod_map (ν.withDensity fun x => ENNReal.ofReal (q x)) PoissonMean.unit hm measurable_id
    rw [← e, withDensity_retract hG x₀ hnull hw.measurable_q.ennreal_ofReal, Measure.map_id] at this
    exact this.symm
  measurable_L i := (hw.measurable_L i).comp measurable_subtype_coe
  L_nonneg i x := hw.L_nonneg i x
  measurable_prior i := (hw.measurable_prior i).comp measurable_subtype_coe
  prior_nonneg i x := hw.prior_nonneg i x
  evidence_pos i := by
    rw [evidence, integral_retract hG x₀ hnull fun x => L i x * prior i x]
    exact hw.evidence_pos i
  measurable_q := hw.measurable_q.comp measurable_subtype_coe
  q_nonneg x := hw.q_nonneg x
  measurable_pdet := hw.measurable_pdet.comp measurable_subtype_coe
  pdet_nonneg x := hw.pdet_nonneg x
  pdet_le_one x := hw.pdet_le_one x

theorem Proper.retract (hG : MeasurableSet G) (x₀ : G) (hnull : ∀ᵐ x ∂ν, x ∈ G) {lp : α → XR} (hp : Proper ν L pdet lp) :
    Proper (ν.map (Hierarchy.retract G x₀)) (fun i (x : G) => L i x) (fun x : G => pdet x) fun x : G => lp x where
  isLog x := hp.isLog x
  measurable := hp.measurable.comp measurable_subtype_coe
  seen i := integrable_retract hG x₀ hnull (hp.seen i)
  detected := integrable_retract hG x₀ hnull hp.detected
  possible i := by
    rw [integral_retract hG x₀ hnull fun x => L i x * expR (lp x)]
    exact hp.possible i

/-- The observations almost surely are in `G`. -/
theorem World.ae_mem (hnull : ∀ᵐ x ∂ν, x ∈ G) (hw : World P ν L prior X pdet q Y) : ∀ᵐ ω ∂P, (∀ i j, X i j ω ∈ G) ∧ ∀ j, (Y j ω).1 ∈ G := by
  rw [eventually_and]
  constructor
  · rw [ae_all_iff]; intro i
    rw [ae_all_iff]; intro j
    refine ae_of_ae_map (hw.observed.measurable i j).aemeasurable ?_
    rw [hw.observed.law i j]
    exact (withDensity_absolutelyContinuous _ _).ae_le hnull
  · rw [ae_all_iff]; intro j
    refine ae_of_ae_map (p := fun y : α × ℝ => y.1 ∈ G) (hw.campaign.measurable j).aemeasurable ?_
    rw [hw.campaign.law j]
    exact Measure.quasiMeasurePreserving_fst.ae ((withDensity_absolutelyContinuous _ _).ae_le hnull)

/-- There is something in `G`. -/
theorem World.nonempty (hnull : ∀ᵐ x ∂ν, x ∈ G) (hw : World P ν L prior X pdet q Y) : Nonempty G := by
  have := hw.campaign.independent.isProbabilityMeasure
  obtain ⟨ω, hω⟩ := (hw.ae_mem hnull).exists
  exact ⟨⟨_, hω.2 0⟩⟩

omit [MeasurableSpace α] [MeasurableSpace Ω] in
theorem observe_retract {inp : Inputs} {row : α → FRow} {width : ℕ} {x₀ : G} {m : Fin K → ℕ} {rate : Likelihood.Model FRow → XR} {ω : Ω} (hω : ∀ i j, X i j ω ∈ G) :
    observe inp (fun x : G => row x) width (fun i (x : G) => prior i x) (fun i => (List.range (m i)).map fun j => retract G x₀ (X i j ω)) rate =
      observe inp row width prior (fun i => (List.range (m i)).map fun j => X i j ω) rate := by
  simp only [observe, List.map_map, Function.comp_def, retract_coe (hω _ _)]

omit [MeasurableSpace α] [MeasurableSpace Ω] in
theorem injectionRate_retract {row : α → FRow} {x₀ : G} {T : ℝ} {N : ℕ} {ω : Ω} (hω : ∀ j, (Y j ω).1 ∈ G) :
    injectionRate (fun x : G => row x) (fun x : G => pdet x) (fun x : G => q x) (fun j ω => (retract G x₀ (Y j ω).1, (Y j ω).2)) T N ω = injectionRate row pdet q Y T N ω := by
  funext M
  simp only [injectionRate, foundInjections, List.map_map, Function.comp_def, retract_coe (hω _)]

end
end GW.Hierarchy
