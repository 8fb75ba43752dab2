import Verif.Lemmas.MonkStep
import Verif.Props.Monk
import Verif.Props.Survey
import Verif.Lemmas.Spin

/-!
# C92: the log posterior of an analysis of Gaussian events converges to the exact one

`Z k t` is the `t`-th standard normal vector made with the key `k`, and `n` the number of draws of a batch.
-/

namespace GW.Monk
open GW PyDict XR Matrix MeasureTheory ProbabilityTheory Filter Topology
open GW.Sage (Meaningful meaning inPrior logPriorOf Sampled)
open GW.Analytic (IsCholesky IsTril batchKey)
open scoped Classical

noncomputable section

variable {d : ℕ} {ord : List String → List String} {chol : Matrix (Fin d) (Fin d) ℝ → Matrix (Fin d) (Fin d) ℝ}
  {inp : Inputs d} {names : List String} {value : String → ℝ} {logPrior : ℝ} {evs : List ((Fin d → ℝ) × Matrix (Fin d) (Fin d) ℝ)}

theorem labels_eq {normals : Key → List (Fin d → ℝ)} {r : Analysis} (hm : Meaningful inp.params) (hat : At inp names value logPrior) {inp' : Inputs d} (hpar : inp'.params = inp.params)
    (h : run ord chol normals inp' = .ok r) : r.labels = names := by
  obtain ⟨-, h2, h3, h4⟩ := C83_labels (inp := inp') (by rw [hpar]; exact hm) h
  refine List.Perm.eq_of_pairwise (fun _ _ _ _ => String.le_antisymm) h3 hat.sorted ((List.perm_ext_iff_of_nodup h2 hat.nodup).2 fun n => ?_)
  rw [h4, hpar, hat.columns]

theorem zipIdx_eq {β : Type} (l : List β) : l.zipIdx = (List.finRange l.length).map fun i : Fin l.length => (l[i], (i : ℕ)) := by
  apply List.ext_getElem <;> simp

/-- The key of batch `j` of event `i`. -/
def drawKey (inp : Inputs d) (i j : ℕ) : Key := batchKey (Key.sub (.sub (.sub (.seed inp.seed) 0) 1) i) j

/-- The mean weight of event `i` over `b` batches of `n` draws, for the log rate `lp`. -/
def estimate (chol : Matrix (Fin d) (Fin d) ℝ → Matrix (Fin d) (Fin d) ℝ) (inp : Inputs d) (value : String → ℝ) (lp : (Fin d → ℝ) → XR) (evs : List ((Fin d → ℝ) × Matrix (Fin d) (Fin d) ℝ))
    (i : Fin evs.length) (b n : ℕ) (z : Key → ℕ → Fin d → ℝ) : ℝ :=
  (∑ j ∈ Finset.range b, (∑ t ∈ Finset.range n, weight (fun x => expR (lp x) * gauss evs[i].1 evs[i].2 x)
    (fitOf chol inp (meaning inp.params inp.extra fun n => fin (value n)) evs[i]).mean (fitOf chol inp (meaning inp.params inp.extra fun n => fin (value n)) evs[i]).tril
    (z (drawKey inp i j) t)) / n) / b

theorem weights_congr {ρ ρ' : (Fin d → ℝ) → ℝ} {m : Fin d → ℝ} {S : Matrix (Fin d) (Fin d) ℝ} {m' : Fin d → ℝ} {L' : Matrix (Fin d) (Fin d) ℝ} {z : Key → ℕ → Fin d → ℝ}
    (h : ∀ k t, ρ (m' + L'.mulVec (z k t)) = ρ' (m' + L'.mulVec (z k t))) (key : ℕ → Key) (k n : ℕ) :
    weights ρ m S m' L' ((List.range k).map fun j => (List.range n).map fun t => z (key j) t).flatten =
      weights ρ' m S m' L' ((List.range k).map fun j => (List.range n).map fun t => z (key j) t).flatten := by
  unfold weights
  apply List.map_congr_left
  intro y hy
  obtain ⟨l, hl, hy⟩ := List.mem_flatten.1 hy
  obtain ⟨j, -, rfl⟩ := List.mem_map.1 hl
  obtain ⟨t, -, rfl⟩ := List.mem_map.1 hy
  rw [h]

/-- The value of the log density. -/
theorem value_eq (hord : ∀ l, (ord l).Perm l) (hc : IsCholesky chol) (hm : Meaningful inp.params) (hx : (keys inp.extra).Nodup) (hmax : 1 ≤ inp.nMaxSteps) (hT : 0 < inp.tObs)
    (hfile : FileHolds inp.filename inp.file evs) (hS : ∀ e ∈ evs, e.2.PosDef) (hat : At inp names value logPrior)
    (hH : ∀ e ∈ evs, (inp.hess (meaning inp.params inp.extra fun n => fin (value n)) e.1)ᵀ = inp.hess (meaning inp.params inp.extra fun n => fin (value n)) e.1)
    {n : ℕ} (hn : 2 ≤ n) (z : Key → ℕ → Fin d → ℝ) {lp : (Fin d → ℝ) → XR} (hlog : ∀ x, IsLog (lp x))
    (hpop : ∀ e ∈ evs, ∀ k t, population inp value ((fitOf chol inp (meaning inp.params inp.extra fun n => fin (value n)) e).mean +
      (fitOf chol inp (meaning inp.params inp.extra fun n => fin (value n)) e).tril.mulVec (z k t)) = lp ((fitOf chol inp (meaning inp.params inp.extra fun n => fin (value n)) e).mean +
      (fitOf chol inp (meaning inp.params inp.extra fun n => fin (value n)) e).tril.mulVec (z k t)))
    {rate : Sage.Kwargs → XR} {μ : ℝ} (hμ : rate (meaning inp.params inp.extra fun n => fin (value n)) = fin μ) {r : Analysis}
    (h : run ord chol (fun k => (List.range n).map fun t => z k t) { inp with nSamples := n, rate := rate } = .ok r) :
    ∃ b : ℕ → ℕ, (∀ i, 1 ≤ b i ∧ b i ≤ inp.nMaxSteps) ∧
      (∀ i : Fin evs.length, StopsAfter inp.minErr inp.nMaxSteps (fun k => weights (fun x => expR (lp x)) evs[i].1 evs[i].2
        (fitOf chol inp (meaning inp.params inp.extra fun n => fin (value n)) evs[i]).mean (fitOf chol inp (meaning inp.params inp.extra fun n => fin (value n)) evs[i]).tril
        ((List.range k).map fun j => (List.range n).map fun t => z (drawKey inp i j) t).flatten) (b i)) ∧
      r.logpdf (names.map fun n => fin (value n)) =
        XR.sum ((List.finRange evs.length).map fun i => log (fin (estimate chol inp value lp evs i (b i) n z))) + fin (logPrior + evs.length * Real.log inp.tObs - μ) := by
  have hl := labels_eq (inp' := { inp with nSamples := n, rate := rate }) hm hat rfl h
  obtain ⟨b, hb, hs, hp, hv⟩ := value_fit (inp := { inp with nSamples := n, rate := rate }) hord hc hm hx hn hmax hT (by simp) evs hfile hS h value _ rfl
    (fun e he k y hy => by
      obtain ⟨t, -, rfl⟩ := List.mem_map.1 hy
      exact (congrArg IsLog (hpop e he k t)).mpr (hlog _)) hH
    (by rw [hl]; exact hat.inside) logPrior μ (by rw [hl]; exact hat.prior) hμ
  have hw := fun (i : Fin evs.length) => weights_congr (ρ := fun x => expR (population inp value x)) (ρ' := fun x => expR (lp x)) (m := evs[i].1) (S := evs[i].2)
    (m' := (fitOf chol inp (meaning inp.params inp.extra fun n => fin (value n)) evs[i]).mean) (L' := (fitOf chol inp (meaning inp.params inp.extra fun n => fin (value n)) evs[i]).tril) (z := z) (n := n)
    (fun k t => congrArg expR (hpop evs[i] (List.getElem_mem _) k t))
  refine ⟨b, hb, fun i => ?_, ?_⟩
  · have := hs (evs[i], i) (by rw [zipIdx_eq]; exact List.mem_map.2 ⟨i, List.mem_finRange i, rfl⟩)
    rw [← funext fun k => hw i (drawKey inp i) k]
    exact this
  rw [hl] at hv
  rw [hv, zipIdx_eq, List.map_map]
  congr 2
  apply List.map_congr_left
  intro i _
  simp only [Function.comp]
  have := hw i (drawKey inp i) (b i)
  refine (congrArg (fun l => log (fin (mean l))) this).trans ?_
  rw [mean_weights]
  rfl

theorem exactLogPosterior_eq (T logPrior : ℝ) (lp : (Fin d → ℝ) → XR) (μ : ℝ) : exactLogPosterior evs T logPrior lp μ =
    logPrior + ∑ k : Fin evs.length, Real.log (T * ∫ x, expR (lp x) * gauss evs[k].1 evs[k].2 x) - μ := by
  rw [exactLogPosterior, Fin.sum_univ_def]
  congr 3
  have hl : evs = (List.finRange evs.length).map fun k : Fin evs.length => evs[k] := by apply List.ext_getElem <;> simp
  conv_lhs => rw [hl]
  rw [List.map_map]
  rfl

variable {Ω : Type} [MeasurableSpace Ω] {P : Measure Ω} {Z : Key → ℕ → Ω → (Fin d → ℝ)}

theorem draws_eq {lp pop : (Fin d → ℝ) → XR} (hpop : ∀ᵐ x, pop x = lp x) (hZ : Normals P Z) {ft : (Fin d → ℝ) × Matrix (Fin d) (Fin d) ℝ → Analytic.Event d}
    (htri : ∀ e ∈ evs, IsTril (ft e).tril) : ∀ᵐ ω ∂P, ∀ e ∈ evs, ∀ k t, pop ((ft e).mean + (ft e).tril.mulVec (Z k t ω)) = lp ((ft e).mean + (ft e).tril.mulVec (Z k t ω)) := by
  have h : ∀ᵐ ω ∂P, ∀ i : Fin evs.length, ∀ k t, pop ((ft evs[i]).mean + (ft evs[i]).tril.mulVec (Z k t ω)) = lp ((ft evs[i]).mean + (ft evs[i]).tril.mulVec (Z k t ω)) :=
    ae_all_iff.2 fun i => draws_ae hZ _ (htri _ (List.getElem_mem _)) hpop
  filter_upwards [h] with ω h e he
  obtain ⟨i, hi, rfl⟩ := List.getElem_of_mem he
  exact h ⟨i, hi⟩

theorem found_eq {lp pop : (Fin d → ℝ) → XR} (hpop : ∀ᵐ x, pop x = lp x) {pdet q : (Fin d → ℝ) → ℝ} {Y : ℕ → Ω → (Fin d → ℝ) × ℝ} (hY : PoissonMean.Campaign P volume q Y) :
    ∀ᵐ ω ∂P, ∀ N, (PoissonMean.foundInjections pdet Y N ω).map pop = (PoissonMean.foundInjections pdet Y N ω).map lp := by
  have h : ∀ᵐ ω ∂P, ∀ j, pop (Y j ω).1 = lp (Y j ω).1 := by
    rw [ae_all_iff]; intro j
    have := hY.independent.isProbabilityMeasure
    refine ae_of_ae_map (p := fun y : (Fin d → ℝ) × ℝ => pop y.1 = lp y.1) (hY.measurable j).aemeasurable ?_
    rw [hY.law j]
    exact Measure.quasiMeasurePreserving_fst.ae ((withDensity_absolutelyContinuous _ _).ae_le hpop)
  filter_upwards [h] with ω h N
  apply List.map_congr_left
  intro x hx
  obtain ⟨j, -, rfl⟩ := List.mem_map.1 hx
  exact h j

/-- **C92 (consistency, up to a set of measure zero).**  The same for a population model whose log density is `lp` only almost everywhere: what the code computes elsewhere does no harm. -/
theorem C92_consistent_almost_everywhere {lp : (Fin d → ℝ) → XR} (hord : ∀ l, (ord l).Perm l) (hc : IsCholesky chol) (hm : Meaningful inp.params) (hx : (keys inp.extra).Nodup) (hmax : 1 ≤ inp.nMaxSteps) (hT : 0 < inp.tObs)
    (hfile : FileHolds inp.filename inp.file evs) (hS : ∀ e ∈ evs, e.2.PosDef) (hat : At inp names value logPrior) (hpop : ∀ᵐ x, population inp value x = lp x) (hp : Proper lp evs)
    (hH : ∀ e ∈ evs, (inp.hess (meaning inp.params inp.extra fun n => fin (value n)) e.1)ᵀ = inp.hess (meaning inp.params inp.extra fun n => fin (value n)) e.1)
    (hZ : Normals P Z) (n : ℕ → ℕ) (hn : Tendsto n atTop atTop) (rate : ℕ → Ω → Sage.Kwargs → XR) (μ : ℝ)
    (hrate : ∀ᵐ ω ∂P, ∃ m : ℕ → ℝ, (∀ᶠ i in atTop, rate i ω (meaning inp.params inp.extra fun n => fin (value n)) = fin (m i)) ∧ Tendsto m atTop (𝓝 μ)) :
    ∀ᵐ ω ∂P, ∀ r : ℕ → Analysis, (∀ i, run ord chol (firstDraws Z (n i) ω) { inp with nSamples := n i, rate := rate i ω } = .ok (r i)) →
      ∃ v : ℕ → ℝ, (∀ᶠ i in atTop, (r i).labels = names ∧ (r i).logpdf (names.map fun n => fin (value n)) = fin (v i)) ∧
        Tendsto v atTop (𝓝 (exactLogPosterior evs inp.tObs logPrior lp μ)) := by
  have htri : ∀ e ∈ evs, IsTril (fitOf chol inp (meaning inp.params inp.extra fun n => fin (value n)) e).tril := fun e he =>
    Analytic.C60_proposal_is_gaussian chol hc ⟨e.1, chol e.2⟩ (hc e.2 (hS e he)).1 _ _ (hH e he)
  have hlim : ∀ᵐ ω ∂P, ∀ (i : Fin evs.length) (j : ℕ), Tendsto (fun m : ℕ => (∑ t ∈ Finset.range m, weight (fun x => expR (lp x) * gauss evs[i].1 evs[i].2 x)
      (fitOf chol inp (meaning inp.params inp.extra fun n => fin (value n)) evs[i]).mean (fitOf chol inp (meaning inp.params inp.extra fun n => fin (value n)) evs[i]).tril
      (Z (drawKey inp i j) t ω)) / m) atTop (𝓝 (∫ x, expR (lp x) * gauss evs[i].1 evs[i].2 x)) := by
    rw [ae_all_iff]; intro i
    rw [ae_all_iff]; intro j
    exact weight_limit hZ (hp.seen _ (List.getElem_mem _)) (hp.measurable.mul (measurable_gauss _ _)) _ (htri _ (List.getElem_mem _)) _
  filter_upwards [hlim, hrate, draws_eq hpop hZ htri] with ω hω hr hdraws r hrun
  obtain ⟨m, hm1, hm2⟩ := hr
  have hval : ∀ i, ∃ b : ℕ → ℕ, (2 ≤ n i ∧ rate i ω (meaning inp.params inp.extra fun n => fin (value n)) = fin (m i)) → (∀ k, 1 ≤ b k ∧ b k ≤ inp.nMaxSteps) ∧
      (r i).logpdf (names.map fun n => fin (value n)) =
        XR.sum ((List.finRange evs.length).map fun k => log (fin (estimate chol inp value lp evs k (b k) (n i) fun k t => Z k t ω))) +
          fin (logPrior + evs.length * Real.log inp.tObs - m i) := by
    intro i
    by_cases hcond : 2 ≤ n i ∧ rate i ω (meaning inp.params inp.extra fun n => fin (value n)) = fin (m i)
    · obtain ⟨b, hb, -, hv⟩ := value_eq hord hc hm hx hmax hT hfile hS hat hH hcond.1 (fun k t => Z k t ω) hp.isLog hdraws hcond.2 (hrun i)
      exact ⟨b, fun _ => ⟨hb, hv⟩⟩
    · exact ⟨fun _ => 0, fun h => absurd h hcond⟩
  choose b hb using hval
  have hev : ∀ᶠ i in atTop, 2 ≤ n i ∧ rate i ω (meaning inp.params inp.extra fun n => fin (value n)) = fin (m i) :=
    (hn.eventually (eventually_ge_atTop 2)).and hm1
  have hest : ∀ k : Fin evs.length, Tendsto (fun i => estimate chol inp value lp evs k (b i k) (n i) fun k t => Z k t ω) atTop
      (𝓝 (∫ x, expR (lp x) * gauss evs[k].1 evs[k].2 x)) := fun k =>
    average_limit (fun j _ => (hω k j).comp hn) (hev.mono fun i hi => (hb i hi).1 k)
  have hpos : ∀ k : Fin evs.length, 0 < ∫ x, expR (lp x) * gauss evs[k].1 evs[k].2 x := fun k => hp.possible _ (List.getElem_mem _)
  refine ⟨fun i => logPrior + ∑ k : Fin evs.length, Real.log (inp.tObs * estimate chol inp value lp evs k (b i k) (n i) fun k t => Z k t ω) - m i, ?_, ?_⟩
  · have e1 : ∀ᶠ i in atTop, ∀ k : Fin evs.length, 0 < estimate chol inp value lp evs k (b i k) (n i) fun k t => Z k t ω :=
      eventually_all.2 fun k => (hest k).eventually (lt_mem_nhds (hpos k))
    filter_upwards [e1, hev] with i h1 h2
    refine ⟨labels_eq (inp' := { inp with nSamples := n i, rate := rate i ω }) hm hat rfl (hrun i), ?_⟩
    rw [(hb i h2).2, show ((List.finRange evs.length).map fun k => log (fin (estimate chol inp value lp evs k (b i k) (n i) fun k t => Z k t ω))) =
      ((List.finRange evs.length).map fun k => Real.log (estimate chol inp value lp evs k (b i k) (n i) fun k t => Z k t ω)).map fin by
        rw [List.map_map]; exact List.map_congr_left fun k _ => log_fin_pos (h1 k), sum_map_fin, add_fin_fin, ← Fin.sum_univ_def]
    congr 1
    rw [Finset.sum_congr rfl fun k _ => Real.log_mul hT.ne' (h1 k).ne', Finset.sum_add_distrib, Finset.sum_const, Finset.card_univ, Fintype.card_fin, nsmul_eq_mul]
    ring
  · rw [exactLogPosterior_eq]
    refine Tendsto.sub (Tendsto.add tendsto_const_nhds (tendsto_finsetSum _ fun k _ => ?_)) hm2
    exact (Real.continuousAt_log (mul_pos hT (hpos k)).ne').tendsto.comp ((hest k).const_mul _)

/-- **C92 (consistency).**  For every analysis of Gaussian events, whatever the proposals fitted to the events and the numbers of batches the loops choose: almost surely, as the number of draws of a batch
grows and the estimate of the expected number converges, the log density handed to flowMC converges to the exact log posterior. -/
theorem C92_consistent (hord : ∀ l, (ord l).Perm l) (hc : IsCholesky chol) (hm : Meaningful inp.params) (hx : (keys inp.extra).Nodup) (hmax : 1 ≤ inp.nMaxSteps) (hT : 0 < inp.tObs)
    (hfile : FileHolds inp.filename inp.file evs) (hS : ∀ e ∈ evs, e.2.PosDef) (hat : At inp names value logPrior) (hp : Proper (population inp value) evs)
    (hH : ∀ e ∈ evs, (inp.hess (meaning inp.params inp.extra fun n => fin (value n)) e.1)ᵀ = inp.hess (meaning inp.params inp.extra fun n => fin (value n)) e.1)
    (hZ : Normals P Z) (n : ℕ → ℕ) (hn : Tendsto n atTop atTop) (rate : ℕ → Ω → Sage.Kwargs → XR) (μ : ℝ)
    (hrate : ∀ᵐ ω ∂P, ∃ m : ℕ → ℝ, (∀ᶠ i in atTop, rate i ω (meaning inp.params inp.extra fun n => fin (value n)) = fin (m i)) ∧ Tendsto m atTop (𝓝 μ)) :
    ∀ᵐ ω ∂P, ∀ r : ℕ → Analysis, (∀ i, run ord chol (firstDraws Z (n i) ω) { inp with nSamples := n i, rate := rate i ω } = .ok (r i)) →
      ∃ v : ℕ → ℝ, (∀ᶠ i in atTop, (r i).labels = names ∧ (r i).logpdf (names.map fun n => fin (value n)) = fin (v i)) ∧
        Tendsto v atTop (𝓝 (exactLogPosterior evs inp.tObs logPrior (population inp value) μ)) :=
  C92_consistent_almost_everywhere hord hc hm hx hmax hT hfile hS hat (Eventually.of_forall fun _ => rfl) hp hH hZ n hn rate μ hrate

/-- **C92 (consistency, with injections, up to a set of measure zero).** -/
theorem C92_consistent_injections_almost_everywhere {lp : (Fin d → ℝ) → XR} (hord : ∀ l, (ord l).Perm l) (hc : IsCholesky chol) (hm : Meaningful inp.params) (hx : (keys inp.extra).Nodup) (hmax : 1 ≤ inp.nMaxSteps) (hT : 0 < inp.tObs)
    (hfile : FileHolds inp.filename inp.file evs) (hS : ∀ e ∈ evs, e.2.PosDef) (hat : At inp names value logPrior) (hpop : ∀ᵐ x, population inp value x = lp x) (hp : Proper lp evs)
    (hH : ∀ e ∈ evs, (inp.hess (meaning inp.params inp.extra fun n => fin (value n)) e.1)ᵀ = inp.hess (meaning inp.params inp.extra fun n => fin (value n)) e.1)
    (hZ : Normals P Z) (n : ℕ → ℕ) (hn : Tendsto n atTop atTop)
    {pdet q : (Fin d → ℝ) → ℝ} {Y : ℕ → Ω → (Fin d → ℝ) × ℝ} (hY : PoissonMean.Campaign P volume q Y) (hq : Measurable q) (hq0 : ∀ x, 0 ≤ q x) (hpd : Measurable pdet)
    (hp0 : ∀ x, 0 ≤ pdet x) (hp1 : ∀ x, pdet x ≤ 1) (hreach : ∀ x, expR (lp x) * pdet x ≠ 0 → 0 < q x)
    (hint : Integrable fun x => expR (lp x) * pdet x) (N : ℕ → ℕ) (hN : Tendsto N atTop atTop) :
    ∀ᵐ ω ∂P, ∀ r : ℕ → Analysis, (∀ i, run ord chol (firstDraws Z (n i) ω) { inp with nSamples := n i, rate := injectionRate inp pdet q Y (N i) ω } = .ok (r i)) →
      ∃ v : ℕ → ℝ, (∀ᶠ i in atTop, (r i).labels = names ∧ (r i).logpdf (names.map fun n => fin (value n)) = fin (v i)) ∧
        Tendsto v atTop (𝓝 (exactLogPosterior evs inp.tObs logPrior lp (inp.tObs * ∫ x, expR (lp x) * pdet x))) := by
  refine C92_consistent_almost_everywhere hord hc hm hx hmax hT hfile hS hat hpop hp hH hZ n hn _ _ ?_
  filter_upwards [PoissonMean.C87_consistent hY hq hq0 hpd hp0 hp1 (fun x => (hp.isLog x).2) hp.measurable hreach hint inp.tObs hT.le, found_eq (pdet := pdet) hpop hY] with ω ⟨m, h1, h2⟩ hfound
  refine ⟨fun i => m (N i), ?_, h2.comp hN⟩
  filter_upwards [hN.eventually (eventually_ge_atTop 1)] with i hi
  have := h1 (N i) hi
  rw [← hfound] at this
  exact this

/-- **C92 (consistency, with injections).**  The same when the expected number is estimated from the found ones among `N` injections whose density reaches wherever the population is seen. -/
theorem C92_consistent_injections (hord : ∀ l, (ord l).Perm l) (hc : IsCholesky chol) (hm : Meaningful inp.params) (hx : (keys inp.extra).Nodup) (hmax : 1 ≤ inp.nMaxSteps) (hT : 0 < inp.tObs)
    (hfile : FileHolds inp.filename inp.file evs) (hS : ∀ e ∈ evs, e.2.PosDef) (hat : At inp names value logPrior) (hp : Proper (population inp value) evs)
    (hH : ∀ e ∈ evs, (inp.hess (meaning inp.params inp.extra fun n => fin (value n)) e.1)ᵀ = inp.hess (meaning inp.params inp.extra fun n => fin (value n)) e.1)
    (hZ : Normals P Z) (n : ℕ → ℕ) (hn : Tendsto n atTop atTop)
    {pdet q : (Fin d → ℝ) → ℝ} {Y : ℕ → Ω → (Fin d → ℝ) × ℝ} (hY : PoissonMean.Campaign P volume q Y) (hq : Measurable q) (hq0 : ∀ x, 0 ≤ q x) (hpd : Measurable pdet)
    (hp0 : ∀ x, 0 ≤ pdet x) (hp1 : ∀ x, pdet x ≤ 1) (hreach : ∀ x, expR (population inp value x) * pdet x ≠ 0 → 0 < q x)
    (hint : Integrable fun x => expR (population inp value x) * pdet x) (N : ℕ → ℕ) (hN : Tendsto N atTop atTop) :
    ∀ᵐ ω ∂P, ∀ r : ℕ → Analysis, (∀ i, run ord chol (firstDraws Z (n i) ω) { inp with nSamples := n i, rate := injectionRate inp pdet q Y (N i) ω } = .ok (r i)) →
      ∃ v : ℕ → ℝ, (∀ᶠ i in atTop, (r i).labels = names ∧ (r i).logpdf (names.map fun n => fin (value n)) = fin (v i)) ∧
        Tendsto v atTop (𝓝 (exactLogPosterior evs inp.tObs logPrior (population inp value) (inp.tObs * ∫ x, expR (population inp value x) * pdet x))) :=
  C92_consistent_injections_almost_everywhere hord hc hm hx hmax hT hfile hS hat (Eventually.of_forall fun _ => rfl) hp hH hZ n hn hY hq hq0 hpd hp0 hp1 hreach hint N hN

/-- The density handed to the sampler, on the linear scale. -/
theorem expR_value {k : ℕ} {a : Fin k → ℝ} (ha : ∀ i, 0 ≤ a i) (c : ℝ) :
    expR (XR.sum ((List.finRange k).map fun i => log (fin (a i))) + fin c) = Real.exp c * ∏ i, a i := by
  have key : ∀ l : List (Fin k), IsLog (XR.sum (l.map fun i => log (fin (a i)))) ∧ expR (XR.sum (l.map fun i => log (fin (a i)))) = (l.map a).prod := by
    intro l
    induction l with
    | nil => exact ⟨isLog_fin 0, by simp⟩
    | cons i l ih =>
      simp only [List.map_cons, sum_cons, List.prod_cons]
      exact ⟨(isLog_log_sum (ha i)).add ih.1, by rw [expR_add (isLog_log_sum (ha i)) ih.1, Spin.expR_log (ha i), ih.2]⟩
  rw [expR_add (key _).1 (isLog_fin c), (key _).2, expR_fin, Fin.prod_univ_def, mul_comm]

theorem weight_nonneg {f : (Fin d → ℝ) → ℝ} (hf : ∀ x, 0 ≤ f x) (m' : Fin d → ℝ) {L' : Matrix (Fin d) (Fin d) ℝ} (hL : IsTril L') (z : Fin d → ℝ) : 0 ≤ weight f m' L' z :=
  div_nonneg (hf _) (Analytic.gauss_pos hL _).le

theorem event_nonneg (hc : IsCholesky chol) {m : Fin d → ℝ} {S : Matrix (Fin d) (Fin d) ℝ} (hS : S.PosDef) (lp : (Fin d → ℝ) → XR) (x : Fin d → ℝ) : 0 ≤ expR (lp x) * gauss m S x := by
  refine mul_nonneg (expR_nonneg _) ?_
  have h := hc S hS
  rw [← h.2]
  exact (Analytic.gauss_pos h.1 x).le

/-- **C92 (no bias with one batch, up to a set of measure zero).** -/
theorem C92_unbiased_almost_everywhere_partial {lp : (Fin d → ℝ) → XR} (hord : ∀ l, (ord l).Perm l) (hc : IsCholesky chol) (hm : Meaningful inp.params) (hx : (keys inp.extra).Nodup) (hmax : inp.nMaxSteps = 1) (hT : 0 < inp.tObs)
    (hfile : FileHolds inp.filename inp.file evs) (hS : ∀ e ∈ evs, e.2.PosDef) (hat : At inp names value logPrior) (hpop : ∀ᵐ x, population inp value x = lp x) (hp : Proper lp evs)
    (hH : ∀ e ∈ evs, (inp.hess (meaning inp.params inp.extra fun n => fin (value n)) e.1)ᵀ = inp.hess (meaning inp.params inp.extra fun n => fin (value n)) e.1)
    (hZ : Normals P Z) (n : ℕ) (hn : 2 ≤ n) (rate : Sage.Kwargs → XR) (μ : ℝ) (hμ : rate (meaning inp.params inp.extra fun n => fin (value n)) = fin μ) (r : Ω → Analysis)
    (hr : ∀ ω, run ord chol (firstDraws Z n ω) { inp with nSamples := n, rate := rate } = .ok (r ω)) :
    Integrable (fun ω => expR ((r ω).logpdf (names.map fun n => fin (value n)))) P ∧
    ∫ ω, expR ((r ω).logpdf (names.map fun n => fin (value n))) ∂P = Real.exp (exactLogPosterior evs inp.tObs logPrior lp μ) := by
  set kw := meaning inp.params inp.extra fun n => fin (value n) with hkw
  have htri : ∀ e ∈ evs, IsTril (fitOf chol inp kw e).tril := fun e he =>
    Analytic.C60_proposal_is_gaussian chol hc ⟨e.1, chol e.2⟩ (hc e.2 (hS e he)).1 _ _ (hH e he)
  set w : Fin evs.length → (Fin d → ℝ) → ℝ := fun i => weight (fun x => expR (lp x) * gauss evs[i].1 evs[i].2 x) (fitOf chol inp kw evs[i]).mean (fitOf chol inp kw evs[i]).tril with hw
  have hwm : ∀ i, Measurable (w i) := fun i => measurable_weight (hp.measurable.mul (measurable_gauss _ _)) _ _
  set f : Fin evs.length → (ℕ → Fin d → ℝ) → ℝ := fun i z => (∑ t ∈ Finset.range n, w i (z t)) / n with hf
  have hfm : ∀ i, Measurable (f i) := fun i => Measurable.div_const (Finset.measurable_fun_sum _ fun t _ => (hwm i).comp (measurable_pi_apply t)) _
  have hZm : ∀ k, Measurable fun ω (t : ℕ) => Z k t ω := fun k => measurable_pi_lambda _ fun t => hZ.measurable k t
  have hn0 : (n : ℝ) ≠ 0 := by positivity
  have hwi : ∀ i k t, Integrable (fun ω => w i (Z k t ω)) P ∧ ∫ ω, w i (Z k t ω) ∂P = ∫ x, expR (lp x) * gauss evs[i].1 evs[i].2 x := by
    intro i k t
    obtain ⟨h1, h2⟩ := weight_mean (hp.seen evs[i] (List.getElem_mem _)) (fitOf chol inp kw evs[i]).mean (htri evs[i] (List.getElem_mem _))
    rw [← hZ.law k t] at h1 h2
    exact ⟨h1.comp_measurable (hZ.measurable k t), by rw [← h2, integral_map (hZ.measurable k t).aemeasurable (hwm i).aestronglyMeasurable]⟩
  have heq : ∀ᵐ ω ∂P, expR ((r ω).logpdf (names.map fun n => fin (value n))) =
      Real.exp (logPrior + evs.length * Real.log inp.tObs - μ) * ∏ i : Fin evs.length, f i fun t => Z (drawKey inp i 0) t ω := by
    filter_upwards [draws_eq hpop hZ htri] with ω hdraws
    obtain ⟨b, hb, -, hv⟩ := value_eq hord hc hm hx hmax.ge hT hfile hS hat hH hn (fun k t => Z k t ω) hp.isLog hdraws hμ (hr ω)
    have hb1 : ∀ i, b i = 1 := fun i => le_antisymm (hmax ▸ (hb i).2) (hb i).1
    have hest : ∀ i : Fin evs.length, estimate chol inp value lp evs i (b i) n (fun k t => Z k t ω) = f i fun t => Z (drawKey inp i 0) t ω := by
      intro i
      rw [hb1, estimate, Finset.sum_range_one, Nat.cast_one, div_one]
    rw [hv, expR_value]
    · simp only [hest]
    · intro i
      rw [hest]
      exact div_nonneg (Finset.sum_nonneg fun t _ => weight_nonneg (event_nonneg hc (hS _ (List.getElem_mem _)) _) _ (htri _ (List.getElem_mem _)) _) (Nat.cast_nonneg _)
  have hind : iIndepFun (fun (i : Fin evs.length) ω (t : ℕ) => Z (drawKey inp i 0) t ω) P :=
    hZ.keys.precomp (g := fun i : Fin evs.length => drawKey inp i 0) fun i i' h => Fin.ext (Analytic.C11_keys _ _ _ _ _ h).1
  have hfi : ∀ i k, Integrable (fun ω => f i fun t => Z k t ω) P := fun i k => (integrable_finsetSum _ fun t _ => (hwi i k t).1).div_const _
  have hfe : ∀ i k, ∫ ω, f i (fun t => Z k t ω) ∂P = ∫ x, expR (lp x) * gauss evs[i].1 evs[i].2 x := by
    intro i k
    simp only [hf]
    rw [integral_div, integral_finsetSum _ fun t _ => (hwi i k t).1, Finset.sum_congr rfl fun t _ => (hwi i k t).2]
    simp only [Finset.sum_const, Finset.card_range, nsmul_eq_mul]
    field_simp
  have hprod : Integrable (fun ω => ∏ i : Fin evs.length, f i fun t => Z (drawKey inp i 0) t ω) P := by
    have := hind.isProbabilityMeasure
    have hmap := hind.map_fun_eq_pi_map fun i => (hZm _).aemeasurable
    have hi : Integrable (fun x : Fin evs.length → ℕ → Fin d → ℝ => ∏ i, f i (x i)) (P.map fun ω (i : Fin evs.length) t => Z (drawKey inp i 0) t ω) := by
      rw [hmap]
      exact Integrable.fintype_prod fun i => (integrable_map_measure (hfm i).aestronglyMeasurable (hZm _).aemeasurable).2 (hfi i _)
    exact hi.comp_measurable (measurable_pi_lambda _ fun i => hZm _)
  have hpos : ∀ k : Fin evs.length, 0 < ∫ x, expR (lp x) * gauss evs[k].1 evs[k].2 x := fun k => hp.possible _ (List.getElem_mem _)
  have hexact : Real.exp (exactLogPosterior evs inp.tObs logPrior lp μ) =
      Real.exp (logPrior + evs.length * Real.log inp.tObs - μ) * ∏ k : Fin evs.length, ∫ x, expR (lp x) * gauss evs[k].1 evs[k].2 x := by
    rw [exactLogPosterior_eq, Finset.sum_congr rfl fun k _ => Real.log_mul hT.ne' (hpos k).ne', Finset.sum_add_distrib, Finset.sum_const, Finset.card_univ, Fintype.card_fin, nsmul_eq_mul,
      show logPrior + (evs.length * Real.log inp.tObs + ∑ k : Fin evs.length, Real.log (∫ x, expR (lp x) * gauss evs[k].1 evs[k].2 x)) - μ =
        (logPrior + evs.length * Real.log inp.tObs - μ) + ∑ k : Fin evs.length, Real.log (∫ x, expR (lp x) * gauss evs[k].1 evs[k].2 x) by ring,
      Real.exp_add, Real.exp_sum, Finset.prod_congr rfl fun k _ => Real.exp_log (hpos k)]
  refine ⟨(hprod.const_mul _).congr (heq.mono fun _ h => h.symm), ?_⟩
  rw [integral_congr_ae heq, integral_const_mul, hind.integral_fun_prod_comp (fun i => (hZm _).aemeasurable) fun i => (hfm i).aestronglyMeasurable, Finset.prod_congr rfl fun i _ => hfe i _, hexact]

/-- **C92 (no bias with one batch; the full property, for every `n_max_steps`, is false, see below).**  When the loops stop after one batch (`n_max_steps = 1`) and the expected number `μ` is known, the density handed to the sampler (the exponential
of the log density) has, for any number of draws, exactly the exact posterior as its mean over the draws. -/
theorem C92_unbiased_partial (hord : ∀ l, (ord l).Perm l) (hc : IsCholesky chol) (hm : Meaningful inp.params) (hx : (keys inp.extra).Nodup) (hmax : inp.nMaxSteps = 1) (hT : 0 < inp.tObs)
    (hfile : FileHolds inp.filename inp.file evs) (hS : ∀ e ∈ evs, e.2.PosDef) (hat : At inp names value logPrior) (hp : Proper (population inp value) evs)
    (hH : ∀ e ∈ evs, (inp.hess (meaning inp.params inp.extra fun n => fin (value n)) e.1)ᵀ = inp.hess (meaning inp.params inp.extra fun n => fin (value n)) e.1)
    (hZ : Normals P Z) (n : ℕ) (hn : 2 ≤ n) (rate : Sage.Kwargs → XR) (μ : ℝ) (hμ : rate (meaning inp.params inp.extra fun n => fin (value n)) = fin μ) (r : Ω → Analysis)
    (hr : ∀ ω, run ord chol (firstDraws Z n ω) { inp with nSamples := n, rate := rate } = .ok (r ω)) :
    Integrable (fun ω => expR ((r ω).logpdf (names.map fun n => fin (value n)))) P ∧
    ∫ ω, expR ((r ω).logpdf (names.map fun n => fin (value n))) ∂P = Real.exp (exactLogPosterior evs inp.tObs logPrior (population inp value) μ) :=
  C92_unbiased_almost_everywhere_partial hord hc hm hx hmax hT hfile hS hat (Eventually.of_forall fun _ => rfl) hp hH hZ n hn rate μ hμ r hr

/-- The weight of a draw in the analysis `stepInputs c` is zero or one. -/
theorem stepWeight {chol : Matrix (Fin 1) (Fin 1) ℝ → Matrix (Fin 1) (Fin 1) ℝ} (hc : IsCholesky chol) (c : ℝ) (kw : Sage.Kwargs) (z : Fin 1 → ℝ) :
    weight (fun x => expR (population (stepInputs c) exValue x) * gauss 0 1 x) (fitOf chol (stepInputs c) kw (0, 1)).mean (fitOf chol (stepInputs c) kw (0, 1)).tril z = 0 ∨
    weight (fun x => expR (population (stepInputs c) exValue x) * gauss 0 1 x) (fitOf chol (stepInputs c) kw (0, 1)).mean (fitOf chol (stepInputs c) kw (0, 1)).tril z = 1 := by
  have h1 : (1 : Matrix (Fin 1) (Fin 1) ℝ).PosDef := PosDef.one
  have h3 := hc 1 h1
  obtain ⟨k1, -⟩ := Analytic.C60_proposal_fit chol hc ⟨(0 : Fin 1 → ℝ), chol 1⟩ 0 0 (by simp)
  simp only [h3.2, sub_zero, inv_one] at k1
  have hfit : (fitOf chol (stepInputs c) kw (0, 1)).mean = 0 ∧ (fitOf chol (stepInputs c) kw (0, 1)).tril * ((fitOf chol (stepInputs c) kw (0, 1)).tril)ᵀ = 1 := by
    refine ⟨?_, (k1 h1).2.2⟩
    have := (k1 h1).1
    simpa [fitOf, stepInputs] using this
  rw [weight, hfit.1, hfit.2]
  have hg := gauss_one.2.2 (0 + (fitOf chol (stepInputs c) kw (0, 1)).tril.mulVec z)
  simp only [population, stepInputs] at hg ⊢
  split_ifs
  · right
    rw [expR_fin, Real.exp_zero, one_mul, div_self hg.ne']
  · left
    simp

set_option maxHeartbeats 800000 in
/-- **C92 (violated when the number of batches is adapted).**  With two draws in a batch and at most two batches there is an analysis, of one event and a population that has rate one above some number and none below, whose
density has not the exact posterior as its mean over the draws: the loop goes on exactly when the first two weights agree. -/
theorem C92_adaptive_violated {Ω : Type} [MeasurableSpace Ω] {P : Measure Ω} {Z : Key → ℕ → Ω → (Fin 1 → ℝ)} {chol : Matrix (Fin 1) (Fin 1) ℝ → Matrix (Fin 1) (Fin 1) ℝ}
    (hc : IsCholesky chol) (hZ : Normals P Z) :
    ∃ c : ℝ, Proper (population (stepInputs c) exValue) stepEvents ∧ (∀ normals, ∃ r, run id chol normals (stepInputs c) = .ok r) ∧
      ∀ r : Ω → Analysis, (∀ ω, run id chol (firstDraws Z 2 ω) (stepInputs c) = .ok (r ω)) →
        Integrable (fun ω => expR ((r ω).logpdf [fin (1 / 2), fin (1 / 4)])) P ∧
        ∫ ω, expR ((r ω).logpdf [fin (1 / 2), fin (1 / 4)]) ∂P ≠ Real.exp (exactLogPosterior stepEvents 2 (-Real.log (1 / 2)) (population (stepInputs c) exValue) 3) := by
  have hcase : ∃ c, tail c ≠ 1 / 2 := by
    by_cases h : tail 1 = 1 / 2
    · exact ⟨1 + 1, fun h' => absurd (tail_bounds 1).2.2 (by rw [h, h']; exact lt_irrefl _)⟩
    · exact ⟨1, h⟩
  obtain ⟨c, hp⟩ := hcase
  obtain ⟨hp0, hp1, -⟩ := tail_bounds c
  refine ⟨c, stepProper c, fun normals => runs rfl rfl (by simp [stepEvents]) (stepFile c) chol normals, fun r hr => ?_⟩
  have := hZ.keys.isProbabilityMeasure
  have hS : ∀ e ∈ stepEvents, e.2.PosDef := by
    intro e he
    simp only [stepEvents, List.mem_singleton] at he
    subst he
    exact PosDef.one
  have hH : ∀ e ∈ stepEvents, ((stepInputs c).hess (meaning (stepInputs c).params (stepInputs c).extra fun n => fin (exValue n)) e.1)ᵀ =
      (stepInputs c).hess (meaning (stepInputs c).params (stepInputs c).extra fun n => fin (exValue n)) e.1 := fun _ _ => by simp [stepInputs]
  set kw := meaning (stepInputs c).params (stepInputs c).extra fun n => fin (exValue n) with hkw
  have htri : IsTril (fitOf chol (stepInputs c) kw (0, 1)).tril :=
    Analytic.C60_proposal_is_gaussian chol hc ⟨0, chol 1⟩ (hc 1 PosDef.one).1 _ _ (hH (0, 1) (by simp [stepEvents]))
  set w : (Fin 1 → ℝ) → ℝ := weight (fun x => expR (population (stepInputs c) exValue x) * gauss 0 1 x) (fitOf chol (stepInputs c) kw (0, 1)).mean (fitOf chol (stepInputs c) kw (0, 1)).tril with hw
  have hwm : Measurable w := measurable_weight ((stepProper c).measurable.mul (measurable_gauss _ _)) _ _
  have hw01 : ∀ z, w z = 0 ∨ w z = 1 := stepWeight hc c kw
  have hwe : ∀ k t, ∫ ω, w (Z k t ω) ∂P = tail c := by
    intro k t
    have h2 := (weight_mean ((stepProper c).seen (0, 1) (by simp [stepEvents])) (fitOf chol (stepInputs c) kw (0, 1)).mean htri).2
    rw [← hZ.law k t, integral_map (hZ.measurable k t).aemeasurable hwm.aestronglyMeasurable] at h2
    exact h2
  have hval : ∀ ω, ∃ b : ℕ, (b = 1 ∨ b = 2) ∧ (b = 1 → w (Z (drawKey (stepInputs c) 0 0) 0 ω) ≠ w (Z (drawKey (stepInputs c) 0 0) 1 ω)) ∧
      (b = 2 → w (Z (drawKey (stepInputs c) 0 0) 0 ω) = w (Z (drawKey (stepInputs c) 0 0) 1 ω)) ∧
      expR ((r ω).logpdf [fin (1 / 2), fin (1 / 4)]) = Real.exp (-Real.log (1 / 2) + Real.log 2 - 3) *
        ((∑ j ∈ Finset.range b, (∑ t ∈ Finset.range 2, w (Z (drawKey (stepInputs c) 0 j) t ω)) / 2) / b) := by
    intro ω
    obtain ⟨b, hb, hs, hv⟩ := value_eq (inp := stepInputs c) (fun l => List.Perm.refl l) hc Sage.exTable_meaningful (by change (keys [("N", some (1 : ℚ))]).Nodup; decide +kernel) (by simp [stepInputs])
      (by norm_num [stepInputs]) (stepFile c) hS (exAt rfl) hH le_rfl (fun k t => Z k t ω) (stepLog c) (fun _ _ _ _ => rfl) (μ := 3) (rate := (stepInputs c).rate) rfl (hr ω)
    have hstop := hs ⟨0, by simp [stepEvents]⟩
    have hvar : varOfMean (weights (fun x => expR (population (stepInputs c) exValue x)) (0 : Fin 1 → ℝ) 1 (fitOf chol (stepInputs c) kw (0, 1)).mean (fitOf chol (stepInputs c) kw (0, 1)).tril
        ((List.range 1).map fun j => (List.range 2).map fun t => Z (drawKey (stepInputs c) 0 j) t ω).flatten) =
        (w (Z (drawKey (stepInputs c) 0 0) 0 ω) - w (Z (drawKey (stepInputs c) 0 0) 1 ω)) ^ 2 / 4 := by
      have : weights (fun x => expR (population (stepInputs c) exValue x)) (0 : Fin 1 → ℝ) 1 (fitOf chol (stepInputs c) kw (0, 1)).mean (fitOf chol (stepInputs c) kw (0, 1)).tril
        ((List.range 1).map fun j => (List.range 2).map fun t => Z (drawKey (stepInputs c) 0 j) t ω).flatten =
          [w (Z (drawKey (stepInputs c) 0 0) 0 ω), w (Z (drawKey (stepInputs c) 0 0) 1 ω)] := rfl
      rw [this]
      simp only [varOfMean, mean, List.map_cons, List.map_nil, List.sum_cons, List.sum_nil, List.length_cons, List.length_nil]
      push_cast
      ring
    obtain ⟨s1, s2, s3, s4⟩ := hstop
    refine ⟨b 0, ?_, ?_, ?_, ?_⟩
    · have e2 : (stepInputs c).nMaxSteps = 2 := rfl
      simp only [e2] at s2
      change b 0 ≤ 2 at s2
      change 1 ≤ b 0 at s1
      omega
    · intro h1 heq
      have h4 := s4 (by change b 0 < 2; omega)
      simp only at h4
      rw [h1] at h4
      change _ < varOfMean (weights (fun x => expR (population (stepInputs c) exValue x)) (0 : Fin 1 → ℝ) 1 (fitOf chol (stepInputs c) kw (0, 1)).mean (fitOf chol (stepInputs c) kw (0, 1)).tril
        ((List.range 1).map fun j => (List.range 2).map fun t => Z (drawKey (stepInputs c) 0 j) t ω).flatten) at h4
      rw [hvar, heq] at h4
      norm_num [stepInputs] at h4
    · intro h2
      have h3 := s3 1 le_rfl (by change 1 < b 0; omega)
      change varOfMean (weights (fun x => expR (population (stepInputs c) exValue x)) (0 : Fin 1 → ℝ) 1 (fitOf chol (stepInputs c) kw (0, 1)).mean (fitOf chol (stepInputs c) kw (0, 1)).tril
        ((List.range 1).map fun j => (List.range 2).map fun t => Z (drawKey (stepInputs c) 0 j) t ω).flatten) ≤ (1 / 4) ^ 2 at h3
      rw [hvar] at h3
      rcases hw01 (Z (drawKey (stepInputs c) 0 0) 0 ω) with ha | ha <;> rcases hw01 (Z (drawKey (stepInputs c) 0 0) 1 ω) with hb' | hb' <;> rw [ha, hb'] at h3 ⊢ <;> norm_num at h3
    · have hl : [fin (1 / 2), fin (1 / 4)] = ["a", "b"].map fun n => fin (exValue n) := by simp [exValue]
      rw [hl, hv]
      have hone : (List.finRange stepEvents.length).map (fun i => log (fin (estimate chol (stepInputs c) exValue (population (stepInputs c) exValue) stepEvents i (b i) 2 fun k t => Z k t ω))) =
          (List.finRange 1).map fun i => log (fin ((∑ j ∈ Finset.range (b 0), (∑ t ∈ Finset.range 2, w (Z (drawKey (stepInputs c) 0 j) t ω)) / 2) / b 0)) := by
        change [_] = [_]
        simp only [estimate, Nat.cast_ofNat]
        rfl
      rw [hone, expR_value]
      · simp [stepEvents, stepInputs]
      · intro i
        refine div_nonneg (Finset.sum_nonneg fun j _ => div_nonneg (Finset.sum_nonneg fun t _ => ?_) zero_le_two) (Nat.cast_nonneg _)
        rcases hw01 (Z (drawKey (stepInputs c) 0 j) t ω) with h | h <;> rw [h] <;> norm_num
  choose b hb h1 h2 hv using hval
  set est : Ω → ℝ := fun ω => (∑ j ∈ Finset.range (b ω), (∑ t ∈ Finset.range 2, w (Z (drawKey (stepInputs c) 0 j) t ω)) / 2) / b ω with hest
  have hkey : drawKey (stepInputs c) 0 0 ≠ drawKey (stepInputs c) 0 1 := fun h => absurd (Analytic.C11_keys _ _ _ _ _ h).2 (by decide)
  have hcomp : ∀ k t, Measurable fun ω => w (Z k t ω) := fun k t => hwm.comp (hZ.measurable k t)
  have hmean := adaptive_mean (P := P) (est := est) (p := tail c) (hcomp (drawKey (stepInputs c) 0 0) 0) (hcomp (drawKey (stepInputs c) 0 0) 1) (hcomp (drawKey (stepInputs c) 0 1) 0)
    (hcomp (drawKey (stepInputs c) 0 1) 1) (fun ω => hw01 _) (fun ω => hw01 _) (fun ω => hw01 _) (fun ω => hw01 _) (hwe _ _) (hwe _ _) (hwe _ _) (hwe _ _)
    (((hZ.indep _).indepFun (show (0 : ℕ) ≠ 1 by decide)).comp hwm hwm)
    ((hZ.keys.indepFun hkey).comp (φ := fun z : ℕ → Fin 1 → ℝ => (w (z 0), w (z 1))) (ψ := fun z : ℕ → Fin 1 → ℝ => (w (z 0), w (z 1)))
      ((hwm.comp (measurable_pi_apply 0)).prodMk (hwm.comp (measurable_pi_apply 1))) ((hwm.comp (measurable_pi_apply 0)).prodMk (hwm.comp (measurable_pi_apply 1))))
    (by
      intro ω
      simp only [hest]
      constructor
      · intro hne
        rcases hb ω with h | h
        · rw [h]; simp [Finset.sum_range_succ]
        · exact absurd (h2 ω h) hne
      · intro heq
        rcases hb ω with h | h
        · exact absurd heq (h1 ω h)
        · rw [h]; simp [Finset.sum_range_succ]; ring)
  have hfun : (fun ω => expR ((r ω).logpdf [fin (1 / 2), fin (1 / 4)])) = fun ω => Real.exp (-Real.log (1 / 2) + Real.log 2 - 3) * est ω := funext hv
  rw [hfun]
  refine ⟨hmean.1.const_mul _, ?_⟩
  rw [integral_const_mul, hmean.2]
  have hex : Real.exp (exactLogPosterior stepEvents 2 (-Real.log (1 / 2)) (population (stepInputs c) exValue) 3) = Real.exp (-Real.log (1 / 2) + Real.log 2 - 3) * tail c := by
    have : exactLogPosterior stepEvents 2 (-Real.log (1 / 2)) (population (stepInputs c) exValue) 3 = (-Real.log (1 / 2) + Real.log 2 - 3) + Real.log (tail c) := by
      have ht : (stepEvents.map fun e => Real.log (2 * ∫ x, expR (population (stepInputs c) exValue x) * gauss e.1 e.2 x)).sum = Real.log (2 * tail c) := by
        simp only [stepEvents, List.map_cons, List.map_nil, List.sum_cons, List.sum_nil, add_zero]
        rfl
      rw [exactLogPosterior, ht, Real.log_mul two_ne_zero hp0.ne']
      ring
    rw [this, Real.exp_add, Real.exp_log hp0]
  rw [hex]
  intro h
  have h := mul_left_cancel₀ (Real.exp_pos _).ne' h
  have h : tail c * (tail c - 1 / 2) * (tail c - 1) = 0 := by linear_combination h
  rcases mul_eq_zero.1 h with h | h
  · rcases mul_eq_zero.1 h with h | h
    · exact hp0.ne' h
    · exact hp (by linarith)
  · exact hp1.ne (by linarith)

/-! ## Examples -/

theorem indep_lift {ι Ω Ω' β : Type} [MeasurableSpace Ω] [MeasurableSpace Ω'] [MeasurableSpace β] {P : Measure Ω} {P' : Measure Ω'} {X : ι → Ω → β} (hm : ∀ i, Measurable (X i))
    (h : iIndepFun X P) {g : Ω' → Ω} (hg : MeasurePreserving g P' P) : iIndepFun (fun i ω => X i (g ω)) P' := by
  rw [iIndepFun_iff_measure_inter_preimage_eq_mul] at h ⊢
  intro S sets hs
  have e : ∀ s : Set Ω, MeasurableSet s → P' (g ⁻¹' s) = P s := fun s hs => hg.measure_preimage hs.nullMeasurableSet
  have h1 := h S hs
  rw [← e _ (Finset.measurableSet_biInter _ fun i hi => hm i (hs i hi))] at h1
  simp only [Set.preimage_iInter] at h1
  refine h1.trans (Finset.prod_congr rfl fun i hi => ?_)
  rw [← e _ (hm i (hs i hi))]
  rfl

theorem normals_lift {Ω Ω' : Type} [MeasurableSpace Ω] [MeasurableSpace Ω'] {P : Measure Ω} {P' : Measure Ω'} {Z : Key → ℕ → Ω → (Fin d → ℝ)} (h : Normals P Z) {g : Ω' → Ω}
    (hg : MeasurePreserving g P' P) : Normals P' fun k t ω => Z k t (g ω) where
  measurable k t := (h.measurable k t).comp hg.measurable
  law k t := by rw [← h.law k t, ← hg.map_eq, Measure.map_map (h.measurable k t) hg.measurable]; rfl
  indep k := indep_lift (h.measurable k) (h.indep k) hg
  keys := indep_lift (fun k => measurable_pi_lambda _ fun t => h.measurable k t) h.keys hg

theorem stepPosDef : ∀ e ∈ stepEvents, e.2.PosDef := by
  intro e he
  simp only [stepEvents, List.mem_singleton] at he
  subst he
  exact PosDef.one

/-- The conditions of `C92_consistent` and `C92_unbiased_partial` hold for an analysis of one event `N(0, 1)` and a population of rate one above zero, with at most two batches, and with one batch for the second;
the posterior is that of `P(x > 0)`.  So do those of `C92_adaptive_violated`. -/
example : ∃ (Ω : Type) (_ : MeasurableSpace Ω) (P : Measure Ω) (Z : Key → ℕ → Ω → (Fin 1 → ℝ)) (chol : Matrix (Fin 1) (Fin 1) ℝ → Matrix (Fin 1) (Fin 1) ℝ), IsCholesky chol ∧ Normals P Z ∧
    (∀ᵐ ω ∂P, ∃ r : ℕ → Analysis, ∃ v : ℕ → ℝ, (∀ i, run id chol (firstDraws Z i ω) { stepInputs 0 with nSamples := i, rate := fun _ => fin 3 } = .ok (r i)) ∧
      (∀ᶠ i in atTop, (r i).labels = ["a", "b"] ∧ (r i).logpdf (["a", "b"].map fun n => fin (exValue n)) = fin (v i)) ∧
      Tendsto v atTop (𝓝 (-Real.log (1 / 2) + Real.log (2 * tail 0) - 3))) ∧
    ∃ r : Ω → Analysis, (∀ ω, run id chol (firstDraws Z 2 ω) { ({ stepInputs 0 with nMaxSteps := 1 } : Inputs 1) with nSamples := 2, rate := fun _ => fin 3 } = .ok (r ω)) ∧
      ∫ ω, expR ((r ω).logpdf (["a", "b"].map fun n => fin (exValue n))) ∂P = Real.exp (-Real.log (1 / 2) + Real.log (2 * tail 0) - 3) := by
  obtain ⟨chol, hc⟩ := Analytic.exists_cholesky 1
  have hex : exactLogPosterior stepEvents 2 (-Real.log (1 / 2)) (population (stepInputs 0) exValue) 3 = -Real.log (1 / 2) + Real.log (2 * tail 0) - 3 := by
    simp only [exactLogPosterior, stepEvents, List.map_cons, List.map_nil, List.sum_cons, List.sum_nil, add_zero]
    rfl
  have hkeys : (keys [("N", some (1 : ℚ))]).Nodup := by decide +kernel
  refine ⟨_, _, normalSpace 1, _, chol, hc, normals_exist, ?_, ?_⟩
  · have h := C92_consistent (inp := stepInputs 0) (ord := id) (fun l => List.Perm.refl l) hc Sage.exTable_meaningful hkeys (by simp [stepInputs]) (by norm_num [stepInputs]) (stepFile 0) stepPosDef (exAt rfl)
      (stepProper 0) (fun _ _ => by simp [stepInputs]) normals_exist (fun i => i) tendsto_id (fun _ _ _ => fin 3) 3 (ae_of_all _ fun _ => ⟨fun _ => 3, by simp, tendsto_const_nhds⟩)
    filter_upwards [h] with ω h
    choose r hr using fun i : ℕ => runs (inp := { stepInputs 0 with nSamples := i, rate := fun _ => fin 3 }) rfl rfl (by simp [stepEvents]) (stepFile 0) chol (firstDraws (fun k t (ω : Key → ℕ → Fin 1 → ℝ) => ω k t) i ω)
    obtain ⟨v, h1, h2⟩ := h r hr
    exact ⟨r, v, hr, h1, hex ▸ h2⟩
  · choose r hr using fun ω => runs (inp := { ({ stepInputs 0 with nMaxSteps := 1 } : Inputs 1) with nSamples := 2, rate := fun _ => fin 3 }) rfl rfl (by simp [stepEvents]) (stepFile 0) chol
      (firstDraws (fun k t (ω : Key → ℕ → Fin 1 → ℝ) => ω k t) 2 ω)
    refine ⟨r, hr, ?_⟩
    rw [← hex]
    exact (C92_unbiased_partial (inp := { stepInputs 0 with nMaxSteps := 1 }) (ord := id) (fun l => List.Perm.refl l) hc Sage.exTable_meaningful hkeys rfl (by norm_num [stepInputs]) (stepFile 0) stepPosDef (exAt rfl)
      (stepProper 0) (fun _ _ => by simp [stepInputs]) normals_exist 2 le_rfl (fun _ => fin 3) 3 rfl r hr).2

/-- The conditions of `C92_consistent_injections` hold for it with injections `N(0, 1)` that are found with a probability below one that falls off with the distance from the origin. -/
example : ∃ (Ω : Type) (_ : MeasurableSpace Ω) (P : Measure Ω) (Z : Key → ℕ → Ω → (Fin 1 → ℝ)) (Y : ℕ → Ω → (Fin 1 → ℝ) × ℝ) (q pdet : (Fin 1 → ℝ) → ℝ), Normals P Z ∧ PoissonMean.Campaign P volume q Y ∧
    Measurable q ∧ (∀ x, 0 ≤ q x) ∧ Measurable pdet ∧ (∀ x, 0 ≤ pdet x) ∧ (∀ x, pdet x ≤ 1) ∧ (∀ x, expR (population (stepInputs 0) exValue x) * pdet x ≠ 0 → 0 < q x) ∧
    (Integrable fun x => expR (population (stepInputs 0) exValue x) * pdet x) ∧ ∀ (chol : Matrix (Fin 1) (Fin 1) ℝ → Matrix (Fin 1) (Fin 1) ℝ) (i : ℕ) (ω : Ω),
      ∃ r, run id chol (firstDraws Z i ω) { stepInputs 0 with nSamples := i, rate := injectionRate (stepInputs 0) pdet q Y i ω } = .ok r := by
  have hu : IsProbabilityMeasure PoissonMean.unit := ⟨by simp [PoissonMean.unit]⟩
  have hn := normals_exist (d := 1)
  have := hn.keys.isProbabilityMeasure
  obtain ⟨g1, g2, g3⟩ := gauss_one
  have hgm := measurable_gauss (0 : Fin 1 → ℝ) 1
  have hg : IsProbabilityMeasure (volume.withDensity fun x : Fin 1 → ℝ => ENNReal.ofReal (gauss 0 1 x)) :=
    ⟨by rw [withDensity_apply _ MeasurableSet.univ, Measure.restrict_univ, ← ofReal_integral_eq_lintegral_ofReal g1 (ae_of_all _ fun x => (g3 x).le), g2, ENNReal.ofReal_one]⟩
  let Q : Measure (ℕ → (Fin 1 → ℝ) × ℝ) := Measure.infinitePi fun _ => (volume.withDensity fun x : Fin 1 → ℝ => ENNReal.ofReal (gauss 0 1 x)).prod PoissonMean.unit
  have h1 : MeasurePreserving Prod.fst ((normalSpace 1).prod Q) (normalSpace 1) := measurePreserving_fst
  have h2 : MeasurePreserving Prod.snd ((normalSpace 1).prod Q) Q := measurePreserving_snd
  refine ⟨_, _, (normalSpace 1).prod Q, _, fun i ω => ω.2 i, gauss 0 1, fun x => min 1 (gauss 0 1 x), normals_lift hn h1,
    ⟨fun i => (measurable_pi_apply i).comp measurable_snd, fun i => ?_,
      indep_lift (X := fun (i : ℕ) (ω : ℕ → (Fin 1 → ℝ) × ℝ) => ω i) (fun i => measurable_pi_apply i) (iIndepFun_infinitePi (X := fun _ x => x) (fun _ => measurable_id)) h2⟩,
    hgm, fun x => (g3 x).le, measurable_const.min hgm, fun x => le_min zero_le_one (g3 x).le, fun x => min_le_left _ _, fun x _ => g3 x, ?_, ?_⟩
  · have : (fun ω : (Key → ℕ → Fin 1 → ℝ) × (ℕ → (Fin 1 → ℝ) × ℝ) => ω.2 i) = (fun f => f i) ∘ Prod.snd := rfl
    rw [this, ← Measure.map_map (measurable_pi_apply i) measurable_snd, h2.map_eq]
    exact Measure.infinitePi_map_eval _ i
  · refine g1.mono' ((stepProper 0).measurable.mul (measurable_const.min hgm)).aestronglyMeasurable (ae_of_all _ fun x => ?_)
    have h0 : expR (population (stepInputs 0) exValue x) = 0 ∨ expR (population (stepInputs 0) exValue x) = 1 := by
      simp only [population, stepInputs]
      split_ifs
      · right; simp
      · left; simp
    rw [Real.norm_of_nonneg]
    · rcases h0 with h | h <;> rw [h]
      · simpa using (g3 x).le
      · simp
    · rcases h0 with h | h <;> rw [h]
      · simp
      · simpa using (g3 x).le
  · intro chol i ω
    refine runs (evs := stepEvents) ?_ ?_ ?_ ?_ chol _
    · rfl
    · rfl
    · simp [stepEvents]
    · exact stepFile 0

end
end GW.Monk
