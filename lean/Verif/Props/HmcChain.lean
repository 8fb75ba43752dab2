import Verif.Props.Hmc
import Verif.Spec.HmcChain
import Verif.Lemmas.MonkLimit
import Mathlib.Probability.Independence.InfinitePi

/-!
# C37: a chain of HMC steps keeps the target distribution
-/

namespace GW.Hmc
open MeasureTheory ProbabilityTheory Matrix

noncomputable section

variable {n : Nat} {Ω : Type} [MeasurableSpace Ω]

/-! ## The acceptance decision is measurable -/

theorem accept_iff (mass : Matrix (Fin n) (Fin n) ℝ) (logpdf : Vec n → XR) (hlog : ∀ x, XR.IsLog (logpdf x)) (s s' : Vec n × Vec n) (u : ℝ) :
    XR.lt (XR.log (XR.fin u)) (logAcc mass (logpdf s.1) s.2 (logpdf s'.1) s'.2) ↔ 0 ≤ u ∧ u * weight mass logpdf s < weight mass logpdf s' := by
  simp only [weight_eq]
  unfold logAcc
  rcases lt_or_ge u 0 with hu | hu
  · have : XR.log (XR.fin u) = .nan := by simp [XR.log, hu.not_gt, hu.ne]
    rw [this]
    constructor
    · intro h; exact absurd h (by simp [XR.lt])
    · rintro ⟨h0, _⟩; exact absurd h0 (not_le.2 hu)
  have hl : XR.lt (XR.log (XR.fin u)) .pinf := by
    rcases hu.eq_or_lt with h0 | h0
    · rw [← h0]; simp [XR.log, XR.lt]
    · simp only [XR.log, if_pos h0, XR.lt]
  rcases (hlog s.1).cases with hp | ⟨a, hp⟩ <;> rcases (hlog s'.1).cases with hq | ⟨b, hq⟩ <;> rw [hp, hq]
  · have e : -XR.ninf + XR.fin (kinetic mass s.2) - (-XR.ninf + XR.fin (kinetic mass s'.2)) = XR.nan := rfl
    rw [e]
    simp [XR.expR, not_lt_nan]
  · have e : -XR.ninf + XR.fin (kinetic mass s.2) - (-(XR.fin b) + XR.fin (kinetic mass s'.2)) = XR.pinf := rfl
    rw [e]
    simp only [XR.expR, zero_mul, mul_zero]
    exact ⟨fun _ => ⟨hu, by positivity⟩, fun _ => hl⟩
  · have e : -(XR.fin a) + XR.fin (kinetic mass s.2) - (-XR.ninf + XR.fin (kinetic mass s'.2)) = XR.ninf := rfl
    rw [e]
    simp only [XR.expR, zero_mul, not_lt_ninf, false_iff, not_and, not_lt]
    exact fun _ => by positivity
  · have e : -(XR.fin a) + XR.fin (kinetic mass s.2) - (-(XR.fin b) + XR.fin (kinetic mass s'.2)) =
        XR.fin ((b - kinetic mass s'.2) - (a - kinetic mass s.2)) := by
      show XR.fin _ = XR.fin _
      congr 1; ring
    rw [e]
    simp only [XR.expR, ← Real.exp_add, ← sub_eq_add_neg]
    rcases hu.eq_or_lt with h0 | h0
    · rw [← h0, zero_mul]
      exact ⟨fun _ => ⟨le_rfl, Real.exp_pos _⟩, fun _ => by simp [XR.log, XR.lt]⟩
    · simp only [XR.log, if_pos h0, XR.lt]
      rw [Real.log_lt_iff_lt_exp h0, Real.exp_sub (b - _), lt_div_iff₀ (Real.exp_pos _)]
      exact ⟨fun h => ⟨hu, h⟩, fun h => h.2⟩

theorem measurable_kinetic (mass : Matrix (Fin n) (Fin n) ℝ) : Measurable (kinetic mass) := by
  have : Continuous (kinetic mass) := by unfold kinetic; fun_prop
  exact this.measurable

theorem measurable_weight (mass : Matrix (Fin n) (Fin n) ℝ) {logpdf : Vec n → XR} (hm : Measurable fun x => XR.expR (logpdf x)) : Measurable (weight mass logpdf) := by
  unfold weight
  exact (hm.comp measurable_fst).mul (Real.continuous_exp.measurable.comp ((measurable_kinetic mass).comp measurable_snd).neg)

/-- The new position as a function of the old one, the momentum and the uniform number. -/
def move (mass : Matrix (Fin n) (Fin n) ℝ) (ε : ℝ) (nLeapfrog : Nat) (gradU : Vec n → Vec n) (logpdf : Vec n → XR) (q : (Vec n × Vec n) × ℝ) : Vec n :=
  (kernel mass ε nLeapfrog gradU logpdf q.1.2 q.2 q.1.1 (logpdf q.1.1)).1

theorem measurable_move (mass : Matrix (Fin n) (Fin n) ℝ) (ε : ℝ) (nLeapfrog : Nat) (gradU : Vec n → Vec n) (hg : Measurable gradU)
    (logpdf : Vec n → XR) (hlog : ∀ x, XR.IsLog (logpdf x)) (hm : Measurable fun x => XR.expR (logpdf x)) : Measurable (move mass ε nLeapfrog gradU logpdf) := by
  classical
  have hΦ := (C37_volume_preserving mass ε nLeapfrog gradU hg).measurable
  have hw := measurable_weight mass hm
  have e : move mass ε nLeapfrog gradU logpdf = fun q => if 0 ≤ q.2 ∧ q.2 * weight mass logpdf q.1 < weight mass logpdf (leapfrogStep mass ε nLeapfrog gradU q.1) then
      (leapfrogStep mass ε nLeapfrog gradU q.1).1 else q.1.1 := by
    funext q
    simp only [← accept_iff mass logpdf hlog, move, kernel]
    split_ifs <;> rfl
  rw [e]
  refine Measurable.ite ?_ (measurable_fst.comp (hΦ.comp measurable_fst)) (measurable_fst.comp measurable_fst)
  exact (measurableSet_le measurable_const measurable_snd).inter
    (measurableSet_lt (measurable_snd.mul (hw.comp measurable_fst)) (hw.comp (hΦ.comp measurable_fst)))

/-! ## The momentum -/

theorem chol_det {L mass : Matrix (Fin n) (Fin n) ℝ} (hL : L * Lᵀ = mass) (hmass : mass.det ≠ 0) : L.det ≠ 0 := by
  rw [← hL, Matrix.det_mul] at hmass
  exact left_ne_zero_of_mul hmass

theorem kinetic_chol {L mass : Matrix (Fin n) (Fin n) ℝ} (hL : L * Lᵀ = mass) (hmass : mass.det ≠ 0) (z : Vec n) :
    kinetic mass (L.mulVec z) = 1 / 2 * ∑ i, z i ^ 2 := by
  have h0 := chol_det hL hmass
  rw [kinetic, ← hL, Analytic.quad, Matrix.mulVec_mulVec, Matrix.nonsing_inv_mul _ (Ne.isUnit h0), Matrix.one_mulVec]

theorem stdNormal_chol {L mass : Matrix (Fin n) (Fin n) ℝ} (hL : L * Lᵀ = mass) (hmass : mass.det ≠ 0) (z : Vec n) :
    stdNormal z = (Real.sqrt (2 * Real.pi) ^ n)⁻¹ * Real.exp (-kinetic mass (L.mulVec z)) := by
  rw [kinetic_chol hL hmass, stdNormal, Finset.prod_div_distrib, Finset.prod_const, Finset.card_univ, Fintype.card_fin, ← Real.exp_sum, ← Finset.mul_sum,
    div_eq_inv_mul, neg_mul]

/-- **C37 (the momentum).**  The momentum that a step draws has density proportional to `exp(-K)`. -/
theorem C37_momentum_law {P : Measure Ω} {Z : Ω → Vec n} (hZ : Measurable Z) (law : P.map Z = volume.withDensity fun z => ENNReal.ofReal (stdNormal z))
    (L mass : Matrix (Fin n) (Fin n) ℝ) (hL : L * Lᵀ = mass) (hmass : mass.det ≠ 0) :
    ∃ c : ENNReal, P.map (fun ω => L.mulVec (Z ω)) = volume.withDensity fun p => c * ENNReal.ofReal (Real.exp (-kinetic mass p)) := by
  have h0 := chol_det hL hmass
  have hmap := Real.map_matrix_volume_pi_eq_smul_volume_pi h0
  have hLm : Measurable fun z : Vec n => L.mulVec z := by simpa using Monk.measurable_affine 0 L
  have hk : Measurable fun p : Vec n => ENNReal.ofReal (Real.exp (-kinetic mass p)) :=
    (Real.continuous_exp.measurable.comp (measurable_kinetic mass).neg).ennreal_ofReal
  refine ⟨ENNReal.ofReal (Real.sqrt (2 * Real.pi) ^ n)⁻¹ * ENNReal.ofReal |L.det⁻¹|, ?_⟩
  have e : P.map (fun ω => L.mulVec (Z ω)) = (P.map Z).map fun z => L.mulVec z := by
    rw [Measure.map_map hLm hZ]; rfl
  rw [e, law]
  refine Measure.ext_of_lintegral _ fun f hf => ?_
  have hfL : Measurable fun z : Vec n => f (L.mulVec z) := hf.comp hLm
  rw [lintegral_map hf hLm, lintegral_withDensity_eq_lintegral_mul _ Monk.measurable_stdNormal.ennreal_ofReal hfL,
    lintegral_withDensity_eq_lintegral_mul _ (hk.const_mul _) hf]
  have e1 : ∀ z : Vec n, ((fun z : Vec n => ENNReal.ofReal (stdNormal z)) * (fun z : Vec n => f (L.mulVec z)) : Vec n → ENNReal) z =
      (fun p => ENNReal.ofReal (Real.sqrt (2 * Real.pi) ^ n)⁻¹ * (ENNReal.ofReal (Real.exp (-kinetic mass p)) * f p)) (Matrix.toLin' L z) := by
    intro z
    simp only [Pi.mul_apply, Matrix.toLin'_apply]
    rw [stdNormal_chol hL hmass, ENNReal.ofReal_mul (by positivity), mul_assoc]
  have hg : Measurable fun p => ENNReal.ofReal (Real.sqrt (2 * Real.pi) ^ n)⁻¹ * (ENNReal.ofReal (Real.exp (-kinetic mass p)) * f p) := (hk.mul hf).const_mul _
  have hL' : Measurable (Matrix.toLin' L) := hLm
  rw [lintegral_congr e1, ← lintegral_map hg hL', hmap, lintegral_smul_measure, smul_eq_mul, ← lintegral_const_mul _ hg]
  apply lintegral_congr
  intro p
  simp only [Pi.mul_apply]
  ring

/-! ## One step -/

/-- **C37 (one step).**  Let the position have the target distribution, the momentum have density proportional to `exp(-K)` and the number be uniform in `[0, 1)`, all
three independent.  Then the new position has the target distribution. -/
theorem C37_step_law {P : Measure Ω} [IsProbabilityMeasure P] (mass : Matrix (Fin n) (Fin n) ℝ) (ε : ℝ) (nLeapfrog : Nat) (gradU : Vec n → Vec n) (hg : Measurable gradU)
    (logpdf : Vec n → XR) (hlog : ∀ x, XR.IsLog (logpdf x)) (hm : Measurable fun x => XR.expR (logpdf x))
    {X M : Ω → Vec n} {U : Ω → ℝ} (hX : Measurable X) (hM : Measurable M) (hU : Measurable U) (tX : HasTarget P logpdf X)
    (tM : ∃ c : ENNReal, P.map M = volume.withDensity fun p => c * ENNReal.ofReal (Real.exp (-kinetic mass p)))
    (tU : P.map U = volume.restrict (Set.Ico 0 1)) (iXM : IndepFun X M P) (iXMU : IndepFun (fun ω => (X ω, M ω)) U P) :
    P.map (fun ω => (kernel mass ε nLeapfrog gradU logpdf (M ω) (U ω) (X ω) (logpdf (X ω))).1) = P.map X := by
  have hmove := measurable_move mass ε nLeapfrog gradU hg logpdf hlog hm
  obtain ⟨c, tX⟩ := tX
  obtain ⟨d, tM⟩ := tM
  have hk : Measurable fun p : Vec n => ENNReal.ofReal (Real.exp (-kinetic mass p)) :=
    (Real.continuous_exp.measurable.comp (measurable_kinetic mass).neg).ennreal_ofReal
  have hl : Measurable fun x : Vec n => ENNReal.ofReal (XR.expR (logpdf x)) := hm.ennreal_ofReal
  have j1 := (indepFun_iff_map_prod_eq_prod_map_map hX.aemeasurable hM.aemeasurable).1 iXM
  have j2 := (indepFun_iff_map_prod_eq_prod_map_map (hX.prodMk hM).aemeasurable hU.aemeasurable).1 iXMU
  have hw : ∀ s : Vec n × Vec n, (c * ENNReal.ofReal (XR.expR (logpdf s.1))) * (d * ENNReal.ofReal (Real.exp (-kinetic mass s.2))) =
      (c * d) * ENNReal.ofReal (XR.expR (logpdf s.1) * Real.exp (-kinetic mass s.2)) := by
    intro s
    rw [ENNReal.ofReal_mul (by cases logpdf s.1 <;> simp [XR.expR, Real.exp_nonneg])]
    ring
  have hws : Measurable fun s : Vec n × Vec n => ENNReal.ofReal (XR.expR (logpdf s.1) * Real.exp (-kinetic mass s.2)) := (measurable_weight mass hm).ennreal_ofReal
  -- the joint law of position and momentum
  have joint : P.map (fun ω => (X ω, M ω)) = (volume.prod volume).withDensity fun s : Vec n × Vec n =>
      (c * d) * ENNReal.ofReal (XR.expR (logpdf s.1) * Real.exp (-kinetic mass s.2)) := by
    rw [j1, tX, tM, prod_withDensity (hl.const_mul c) (hk.const_mul d)]
    congr 1
    funext s
    exact hw s
  have lift : ∀ g : Vec n × Vec n → ENNReal, Measurable g → ∫⁻ ω, g (X ω, M ω) ∂P =
      (c * d) * ∫⁻ s : Vec n × Vec n, ENNReal.ofReal (XR.expR (logpdf s.1) * Real.exp (-kinetic mass s.2)) * g s ∂(volume.prod volume) := by
    intro g hgm
    have hwg : Measurable fun s : Vec n × Vec n => ENNReal.ofReal (XR.expR (logpdf s.1) * Real.exp (-kinetic mass s.2)) * g s := hws.mul hgm
    rw [← lintegral_map (g := fun ω => (X ω, M ω)) hgm (hX.prodMk hM), joint, lintegral_withDensity_eq_lintegral_mul _ (hws.const_mul _) hgm, ← lintegral_const_mul _ hwg]
    apply lintegral_congr
    intro s
    simp only [Pi.mul_apply, mul_assoc]
  refine Measure.ext_of_lintegral _ fun f hf => ?_
  have hcomp : Measurable fun ω => (kernel mass ε nLeapfrog gradU logpdf (M ω) (U ω) (X ω) (logpdf (X ω))).1 := hmove.comp ((hX.prodMk hM).prodMk hU)
  rw [lintegral_map hf hcomp, lintegral_map hf hX]
  have hfm : Measurable fun q => f (move mass ε nLeapfrog gradU logpdf q) := hf.comp hmove
  have e1 : ∫⁻ ω, f (kernel mass ε nLeapfrog gradU logpdf (M ω) (U ω) (X ω) (logpdf (X ω))).1 ∂P =
      ∫⁻ ω, (fun s => ∫⁻ u in Set.Ico (0 : ℝ) 1, f (move mass ε nLeapfrog gradU logpdf (s, u))) (X ω, M ω) ∂P := by
    have : ∫⁻ ω, f (kernel mass ε nLeapfrog gradU logpdf (M ω) (U ω) (X ω) (logpdf (X ω))).1 ∂P =
        ∫⁻ q, f (move mass ε nLeapfrog gradU logpdf q) ∂(P.map fun ω => ((X ω, M ω), U ω)) := by
      rw [lintegral_map hfm ((hX.prodMk hM).prodMk hU)]; rfl
    rw [this, j2, tU, lintegral_prod _ hfm.aemeasurable, lintegral_map (hfm.lintegral_prod_right') (hX.prodMk hM)]
  rw [e1, lift _ (hfm.lintegral_prod_right')]
  have e2 : ∫⁻ ω, f (X ω) ∂P = ∫⁻ ω, (fun s : Vec n × Vec n => f s.1) (X ω, M ω) ∂P := rfl
  rw [e2, lift (fun s => f s.1) (hf.comp measurable_fst)]
  congr 1
  exact C37_kernel_leaves_target_invariant mass ε nLeapfrog gradU hg logpdf hlog hm f hf

/-! ## A chain -/

/-- `Z` is a measurable function of the members in `S` of the family `F`. -/
def From {ι α β : Type} [MeasurableSpace α] [MeasurableSpace β] (F : ι → Ω → β) (S : Finset ι) (Z : Ω → α) : Prop :=
  ∃ G : (S → β) → α, Measurable G ∧ Z = fun ω => G fun i => F i ω

section
omit [MeasurableSpace Ω]
variable {ι α α' β : Type} [MeasurableSpace α] [MeasurableSpace α'] [MeasurableSpace β] {F : ι → Ω → β} {S T : Finset ι} {Z : Ω → α} {W : Ω → α'}

theorem From.mono (h : From F S Z) (hST : S ⊆ T) : From F T Z := by
  obtain ⟨G, hG, rfl⟩ := h
  refine ⟨fun g => G fun i => g ⟨i, hST i.2⟩, hG.comp ?_, rfl⟩
  exact measurable_pi_lambda _ fun i => measurable_pi_apply _

theorem From.prod (h : From F S Z) (h' : From F S W) : From F S fun ω => (Z ω, W ω) := by
  obtain ⟨G, hG, rfl⟩ := h
  obtain ⟨G', hG', rfl⟩ := h'
  exact ⟨fun g => (G g, G' g), hG.prodMk hG', rfl⟩

theorem From.comp (h : From F S Z) {g : α → α'} (hg : Measurable g) : From F S fun ω => g (Z ω) := by
  obtain ⟨G, hG, rfl⟩ := h
  exact ⟨fun x => g (G x), hg.comp hG, rfl⟩

theorem From.eval {i : ι} (hi : i ∈ S) : From F S (F i) := ⟨fun g => g ⟨i, hi⟩, measurable_pi_apply _, rfl⟩

theorem From.indep [MeasurableSpace Ω] {P : Measure Ω} (h : From F S Z) (h' : From F T W) (hi : iIndepFun F P) (hF : ∀ i, Measurable (F i)) (hST : Disjoint S T) : IndepFun Z W P := by
  obtain ⟨G, hG, rfl⟩ := h
  obtain ⟨G', hG', rfl⟩ := h'
  exact (hi.indepFun_finset S T hST hF).comp hG hG'

theorem From.measurable [MeasurableSpace Ω] (h : From F S Z) (hF : ∀ i, Measurable (F i)) : Measurable Z := by
  obtain ⟨G, hG, rfl⟩ := h
  exact hG.comp (measurable_pi_lambda _ fun i => hF i)

end

variable {P : Measure Ω} {X : Ω → Vec n} {N : Key → Ω → Vec n} {U : Key → Ω → ℝ}

/-- The draws that a chain over these keys uses. -/
def used (keys : List Key) : Finset (Option Key) := insert none (keys.flatMap fun k => [some (Key.sub k 0), some (Key.sub k 1)]).toFinset

theorem mem_used {keys : List Key} {k : Key} {i : Nat} (h : some (Key.sub k i) ∈ used keys) : k ∈ keys := by
  simp only [used, Finset.mem_insert, reduceCtorEq, false_or, List.mem_toFinset, List.mem_flatMap, List.mem_cons, List.not_mem_nil, or_false, Option.some.injEq] at h
  obtain ⟨k', hk', h | h⟩ := h <;> · injection h with h _; rwa [h]

theorem Draws.measurable (h : Draws P X N U) (o : Option Key) : Measurable fun ω => o.elim (X ω, (0 : ℝ)) fun k => (N k ω, U k ω) := by
  cases o with
  | none => exact h.start.prodMk measurable_const
  | some k => exact (h.normal k).prodMk (h.uniform k)

theorem chain_carried (chol : Matrix (Fin n) (Fin n) ℝ → Matrix (Fin n) (Fin n) ℝ) (normal : Key → Vec n) (uniform : Key → ℝ) (mass : Matrix (Fin n) (Fin n) ℝ)
    (ε : ℝ) (nLeapfrog : Nat) (gradU : Vec n → Vec n) (logpdf : Vec n → XR) (keys : List Key) (s : Vec n × XR) (hs : s.2 = logpdf s.1) :
    (chain chol normal uniform mass ε nLeapfrog gradU logpdf keys s).2 = logpdf (chain chol normal uniform mass ε nLeapfrog gradU logpdf keys s).1 := by
  induction keys generalizing s with
  | nil => exact hs
  | cons k keys ih => exact ih _ (C37_carried_density mass ε nLeapfrog gradU logpdf _ _ _ _ hs)

/-- **C37 (a chain).**  Start at a position with the target distribution and run the kernel with any number of different keys.  Then the position has the target
distribution, and the carried log density is that of the position. -/
theorem C37_chain_law (h : Draws P X N U) (chol : Matrix (Fin n) (Fin n) ℝ → Matrix (Fin n) (Fin n) ℝ) (mass : Matrix (Fin n) (Fin n) ℝ)
    (hchol : chol mass * (chol mass)ᵀ = mass) (hmass : mass.det ≠ 0) (ε : ℝ) (nLeapfrog : Nat) (gradU : Vec n → Vec n) (hg : Measurable gradU)
    (logpdf : Vec n → XR) (hlog : ∀ x, XR.IsLog (logpdf x)) (hm : Measurable fun x => XR.expR (logpdf x)) (hX : HasTarget P logpdf X) (keys : List Key) (hkeys : keys.Nodup) :
    P.map (fun ω => (chain chol (fun k => N k ω) (fun k => U k ω) mass ε nLeapfrog gradU logpdf keys (X ω, logpdf (X ω))).1) = P.map X ∧
    ∀ ω, (chain chol (fun k => N k ω) (fun k => U k ω) mass ε nLeapfrog gradU logpdf keys (X ω, logpdf (X ω))).2 =
      logpdf (chain chol (fun k => N k ω) (fun k => U k ω) mass ε nLeapfrog gradU logpdf keys (X ω, logpdf (X ω))).1 := by
  refine ⟨?_, fun ω => chain_carried _ _ _ _ _ _ _ _ _ _ rfl⟩
  have : IsProbabilityMeasure P := h.indep.isProbabilityMeasure
  set F : Option Key → Ω → Vec n × ℝ := fun o ω => o.elim (X ω, (0 : ℝ)) fun k => (N k ω, U k ω) with hF
  suffices From F (used keys) (fun ω => (chain chol (fun k => N k ω) (fun k => U k ω) mass ε nLeapfrog gradU logpdf keys (X ω, logpdf (X ω))).1) ∧
    P.map (fun ω => (chain chol (fun k => N k ω) (fun k => U k ω) mass ε nLeapfrog gradU logpdf keys (X ω, logpdf (X ω))).1) = P.map X from this.2
  induction keys using List.reverseRecOn with
  | nil => exact ⟨(From.eval (F := F) (i := none) (by simp [used])).comp measurable_fst, rfl⟩
  | append_singleton ks k ih =>
    rw [List.nodup_append] at hkeys
    obtain ⟨hks, _, hdis⟩ := hkeys
    have hk : k ∉ ks := fun hk => hdis k hk k (by simp) rfl
    obtain ⟨ihF, ihL⟩ := ih hks
    set Y : Ω → Vec n := fun ω => (chain chol (fun k => N k ω) (fun k => U k ω) mass ε nLeapfrog gradU logpdf ks (X ω, logpdf (X ω))).1 with hY
    have hstep : (fun ω => (chain chol (fun k => N k ω) (fun k => U k ω) mass ε nLeapfrog gradU logpdf (ks ++ [k]) (X ω, logpdf (X ω))).1) =
        fun ω => (kernel mass ε nLeapfrog gradU logpdf ((chol mass).mulVec (N (.sub k 0) ω)) (U (.sub k 1) ω) (Y ω) (logpdf (Y ω))).1 := by
      funext ω
      have hc := chain_carried chol (fun k => N k ω) (fun k => U k ω) mass ε nLeapfrog gradU logpdf ks (X ω, logpdf (X ω)) rfl
      simp only [chain, List.foldl_append, List.foldl_cons, List.foldl_nil] at hc ⊢
      rw [step, hc]
      rfl
    have hLm : Measurable fun z : Vec n => (chol mass).mulVec z := by simpa using Monk.measurable_affine 0 (chol mass)
    have f0 : From F {some (Key.sub k 0)} (fun ω => (chol mass).mulVec (N (.sub k 0) ω)) :=
      (From.eval (F := F) (i := some (Key.sub k 0)) (by simp)).comp (hLm.comp measurable_fst)
    have f1 : From F {some (Key.sub k 1)} (U (.sub k 1)) := (From.eval (F := F) (i := some (Key.sub k 1)) (by simp)).comp measurable_snd
    have d0 : some (Key.sub k 0) ∉ used ks := fun h => hk (mem_used h)
    have d1 : some (Key.sub k 1) ∉ used ks := fun h => hk (mem_used h)
    have f01 := (ihF.mono (Finset.subset_union_left (s₂ := {some (Key.sub k 0)}))).prod (f0.mono Finset.subset_union_right)
    have hmF := h.measurable
    rw [hstep]
    constructor
    · have hsub : used ks ⊆ used (ks ++ [k]) := by
        intro o ho
        simp only [used, Finset.mem_insert, List.mem_toFinset, List.flatMap_append, List.mem_append] at ho ⊢
        exact ho.imp id Or.inl
      have h0 : some (Key.sub k 0) ∈ used (ks ++ [k]) := by simp [used]
      have h1 : some (Key.sub k 1) ∈ used (ks ++ [k]) := by simp [used]
      exact (((ihF.mono hsub).prod (f0.mono (by simpa using h0))).prod (f1.mono (by simpa using h1))).comp (measurable_move mass ε nLeapfrog gradU hg logpdf hlog hm)
    · have tY : HasTarget P logpdf Y := by
        obtain ⟨c, hc⟩ := hX
        exact ⟨c, ihL.trans hc⟩
      rw [← ihL]
      exact C37_step_law mass ε nLeapfrog gradU hg logpdf hlog hm (ihF.measurable hmF) (f0.measurable hmF) (h.uniform _) tY
        (C37_momentum_law (h.normal _) (h.normalLaw _) _ _ hchol hmass) (h.uniformLaw _)
        (ihF.indep f0 h.indep hmF (Finset.disjoint_singleton_right.2 d0))
        (f01.indep f1 h.indep hmF (Finset.disjoint_singleton_right.2 (by simp [d1])))

/-! ## The hypotheses can be met -/

/-- What the key `some k` gives, and the start at `none`. -/
def drawMeasure (μ : Measure (Vec n)) (o : Option Key) : Measure (Vec n × ℝ) :=
  o.elim (μ.prod (Measure.dirac 0)) fun _ => (volume.withDensity fun z : Vec n => ENNReal.ofReal (stdNormal z)).prod (volume.restrict (Set.Ico 0 1))

instance : IsProbabilityMeasure (volume.restrict (Set.Ico (0 : ℝ) 1)) := ⟨by simp⟩

instance (μ : Measure (Vec n)) [IsProbabilityMeasure μ] (o : Option Key) : IsProbabilityMeasure (drawMeasure μ o) := by
  cases o <;> · unfold drawMeasure; simp only [Option.elim]; infer_instance

/-- There is such randomness, for every distribution of the start. -/
theorem draws_exist (μ : Measure (Vec n)) [IsProbabilityMeasure μ] :
    Draws (Measure.infinitePi (drawMeasure μ)) (fun ω => (ω none).1) (fun k ω => (ω (some k)).1) (fun k ω => (ω (some k)).2) ∧
    (Measure.infinitePi (drawMeasure μ)).map (fun ω => (ω none).1) = μ := by
  have ev : ∀ (o : Option Key) {β : Type} [MeasurableSpace β] (g : Vec n × ℝ → β), Measurable g →
      (Measure.infinitePi (drawMeasure μ)).map (fun ω => g (ω o)) = (drawMeasure μ o).map g := by
    intro o β _ g hg
    rw [← Measure.infinitePi_map_eval (drawMeasure μ) o, Measure.map_map hg (measurable_pi_apply o)]
    rfl
  refine ⟨⟨?_, ?_, ?_, ?_, ?_, ?_⟩, ?_⟩
  · exact measurable_fst.comp (measurable_pi_apply _)
  · exact fun k => measurable_fst.comp (measurable_pi_apply _)
  · exact fun k => measurable_snd.comp (measurable_pi_apply _)
  · intro k
    rw [ev (some k) Prod.fst measurable_fst]
    simp only [drawMeasure, Option.elim, Measure.map_fst_prod, measure_univ, one_smul]
  · intro k
    rw [ev (some k) Prod.snd measurable_snd]
    simp only [drawMeasure, Option.elim, Measure.map_snd_prod, measure_univ, one_smul]
  · have := iIndepFun_infinitePi (P := drawMeasure μ) (X := fun (o : Option Key) (x : Vec n × ℝ) => o.elim (x.1, (0 : ℝ)) fun _ => x) (fun o => by
      cases o with
      | none => exact measurable_fst.prodMk measurable_const
      | some k => exact measurable_id)
    convert this using 2 with o
    cases o <;> rfl
  · rw [ev none Prod.fst measurable_fst]
    simp only [drawMeasure, Option.elim, Measure.map_fst_prod, measure_univ, one_smul]

/-- Three steps with a correlated mass matrix, from a standard normal start. -/
example (ε : ℝ) (nLeapfrog : Nat) :
    let L : Matrix (Fin 2) (Fin 2) ℝ := !![2, 0; 1, 3]
    let logpdf : Vec 2 → XR := fun x => XR.fin (-(1 / 2) * (x 0 ^ 2 + x 1 ^ 2))
    ∃ (Ω : Type) (_ : MeasurableSpace Ω) (P : Measure Ω) (X : Ω → Vec 2) (N : Key → Ω → Vec 2) (U : Key → Ω → ℝ),
      Draws P X N U ∧ HasTarget P logpdf X ∧
      P.map (fun ω => (chain (fun _ => L) (fun k => N k ω) (fun k => U k ω) !![4, 2; 2, 10] ε nLeapfrog (fun x => x) logpdf
        [.seed 1, .seed 2, .sub (.seed 1) 0] (X ω, logpdf (X ω))).1) = P.map X := by
  intro L logpdf
  obtain ⟨h, hl⟩ := draws_exist (volume.withDensity fun z : Vec 2 => ENNReal.ofReal (stdNormal z))
  have ht : HasTarget (Measure.infinitePi (drawMeasure (volume.withDensity fun z : Vec 2 => ENNReal.ofReal (stdNormal z)))) logpdf (fun ω : Option Key → Vec 2 × ℝ => (ω none).1) := by
    refine ⟨ENNReal.ofReal (1 / (2 * Real.pi)), hl.trans ?_⟩
    congr 1
    funext z
    rw [← ENNReal.ofReal_mul (by positivity)]
    congr 1
    simp only [stdNormal, Fin.prod_univ_two, logpdf, XR.expR, mul_add, Real.exp_add]
    have : Real.sqrt (2 * Real.pi) * Real.sqrt (2 * Real.pi) = 2 * Real.pi := Real.mul_self_sqrt (by positivity)
    rw [div_mul_div_comm, this]
    ring
  refine ⟨_, _, _, _, _, _, h, ht, ?_⟩
  refine (C37_chain_law h (fun _ => L) !![4, 2; 2, 10] ?_ ?_ ε nLeapfrog (fun x => x) measurable_id logpdf (fun x => ⟨by simp [logpdf], by simp [logpdf]⟩) ?_ ht _ (by decide)).1
  · ext i j; fin_cases i <;> fin_cases j <;> simp [L, Matrix.mul_apply, Fin.sum_univ_two] <;> norm_num
  · rw [Matrix.det_fin_two_of]; norm_num
  · simp only [logpdf, XR.expR]
    fun_prop

end

end GW.Hmc
