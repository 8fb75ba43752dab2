import Verif.Spec.Hmc
import Verif.Lemmas.XR
import Mathlib.MeasureTheory.Constructions.Pi
import Mathlib.MeasureTheory.Measure.Lebesgue.Basic
import Mathlib.Dynamics.Ergodic.MeasurePreserving
import Mathlib.Tactic.Module
import Mathlib.LinearAlgebra.Matrix.DotProduct
import Mathlib.MeasureTheory.Measure.Prod
import Mathlib.Analysis.Calculus.Deriv.Pow
import Mathlib.Analysis.Calculus.Deriv.Mul
import Mathlib.Analysis.Calculus.Deriv.Add
import Mathlib.MeasureTheory.Measure.Haar.Unique
import Mathlib.MeasureTheory.Measure.Haar.OfBasis
import Mathlib.MeasureTheory.Function.SpecialFunctions.Basic

/-!
# C37: the HMC kernel
-/

namespace GW.Hmc
open MeasureTheory

variable {n : Nat}

/-! ## Kinetic energy -/

theorem velocity_neg (mass : Matrix (Fin n) (Fin n) ℝ) (p : Vec n) : velocity mass (-p) = -velocity mass p := by
  unfold velocity
  rw [Matrix.mulVec_neg, Matrix.mulVec_neg, ← neg_add, smul_neg]

theorem weight_eq (mass : Matrix (Fin n) (Fin n) ℝ) (logpdf : Vec n → XR) (s : Vec n × Vec n) :
    weight mass logpdf s = XR.expR (logpdf s.1) * Real.exp (-kinetic mass s.2) := rfl

theorem kinetic_neg (mass : Matrix (Fin n) (Fin n) ℝ) (p : Vec n) : kinetic mass (-p) = kinetic mass p := by
  unfold kinetic
  rw [Matrix.mulVec_neg, neg_dotProduct_neg]

/-- `velocity` is the gradient of `kinetic`: the directional derivative along `q` is `velocity · q`. -/
theorem hasDerivAt_kinetic (mass : Matrix (Fin n) (Fin n) ℝ) (p q : Vec n) :
    HasDerivAt (fun t : ℝ => kinetic mass (p + t • q)) (velocity mass p ⬝ᵥ q) 0 := by
  have h : (fun t : ℝ => kinetic mass (p + t • q)) =
      fun t => kinetic mass p + t * (velocity mass p ⬝ᵥ q) + t ^ 2 * kinetic mass q := by
    funext t
    unfold kinetic velocity
    have e : (mass⁻¹.transpose.mulVec p) ⬝ᵥ q = p ⬝ᵥ (mass⁻¹.mulVec q) := by
      rw [Matrix.mulVec_transpose, Matrix.dotProduct_mulVec]
    simp only [smul_dotProduct, add_dotProduct, e, Matrix.mulVec_add, Matrix.mulVec_smul, dotProduct_add, dotProduct_smul,
      dotProduct_comm q (mass⁻¹.mulVec p)]
    simp only [smul_eq_mul]
    ring
  rw [h]
  have h1 : HasDerivAt (fun t : ℝ => kinetic mass p + t * (velocity mass p ⬝ᵥ q)) (velocity mass p ⬝ᵥ q) 0 := by
    simpa using ((hasDerivAt_id (0 : ℝ)).mul_const (velocity mass p ⬝ᵥ q)).const_add (kinetic mass p)
  have h2 : HasDerivAt (fun t : ℝ => t ^ 2 * kinetic mass q) 0 0 := by
    simpa using (hasDerivAt_pow 2 (0 : ℝ)).mul_const (kinetic mass q)
  have h3 := h1.add h2
  rw [add_zero] at h3
  exact h3

/-! ## The integrator -/

theorem coefs_eq (k : Nat) : coefs k = (0, 1 / 2) :: (List.replicate k (1, 1) ++ [(1, 1 / 2)]) := by
  unfold coefs
  simp only [List.replicate_succ, List.set_cons_zero, List.length_cons, List.length_replicate, Nat.add_sub_cancel,
    List.set_cons_succ]
  congr 1
  induction k with
  | zero => rfl
  | succ k ih => rw [List.replicate_succ, List.set_cons_succ, ih]; rfl

theorem loop_eq (mass : Matrix (Fin n) (Fin n) ℝ) (ε : ℝ) (gradU : Vec n → Vec n) (k : Nat) (s : Vec n × Vec n) :
    (List.replicate k ((1, 1) : ℝ × ℝ)).foldl (leapfrogKernel mass ε gradU) (leapfrogKernel mass ε gradU s (0, 1 / 2)) =
      leapfrogKernel mass ε gradU ((oneStep (velocity mass) gradU ε)^[k] s) (0, 1 / 2) := by
  induction k generalizing s with
  | zero => rfl
  | succ k ih =>
    rw [List.replicate_succ, List.foldl_cons, Function.iterate_succ_apply, ← ih]
    congr 1
    simp only [leapfrogKernel, oneStep, mul_zero, zero_smul, add_zero, mul_one]
    refine Prod.ext ?_ ?_
    · simp only [mul_one_div]
    · simp only [mul_one_div]
      module

/-- **C37 (what the integrator computes).**  For every `n_leapfrog`, `leapfrog_step` is the composition of `n_leapfrog + 1` standard
leapfrog steps. -/
theorem C37_integrator_is_succ_steps (mass : Matrix (Fin n) (Fin n) ℝ) (ε : ℝ) (nLeapfrog : Nat) (gradU : Vec n → Vec n) (s : Vec n × Vec n) :
    leapfrogStep mass ε nLeapfrog gradU s = (oneStep (velocity mass) gradU ε)^[nLeapfrog + 1] s := by
  unfold leapfrogStep
  rw [coefs_eq, List.foldl_cons, List.foldl_append, loop_eq, Function.iterate_succ_apply']
  simp only [List.foldl_cons, List.foldl_nil, leapfrogKernel, oneStep, mul_zero, zero_smul, add_zero, mul_one, mul_one_div]

/-- **C37 (number of steps, violated).**  The kernel configured with `n_leapfrog = 1` does not perform one leapfrog step. -/
theorem C37_configured_step_count_violated :
    ∃ (mass : Matrix (Fin 1) (Fin 1) ℝ) (ε : ℝ) (gradU : Vec 1 → Vec 1) (s : Vec 1 × Vec 1),
      leapfrogStep mass ε 1 gradU s ≠ (oneStep (velocity mass) gradU ε)^[1] s := by
  refine ⟨1, 1, fun _ => 0, (0, fun _ => 1), ?_⟩
  rw [C37_integrator_is_succ_steps]
  intro h
  have := congrFun (congrArg Prod.fst h) 0
  simp [oneStep, velocity] at this

theorem oneStep_reverse (v gradU : Vec n → Vec n) (hv : ∀ p, v (-p) = -v p) (ε : ℝ) (s : Vec n × Vec n) :
    flip (oneStep v gradU ε (flip (oneStep v gradU ε s))) = s := by
  obtain ⟨x, p⟩ := s
  simp only [oneStep, flip]
  set p1 := p - (ε / 2) • gradU x with hp1
  set x1 := x + ε • v p1 with hx1
  have e1 : -(p1 - (ε / 2) • gradU x1) - (ε / 2) • gradU x1 = -p1 := by module
  rw [e1, hv]
  have e2 : x1 + ε • -v p1 = x := by rw [hx1]; module
  rw [e2]
  refine Prod.ext rfl ?_
  simp only
  rw [hp1]; module

/-- **C37 (reversible).**  Running the integrator, flipping the momentum, running it again and flipping again gives back the start:
for every gradient function, mass matrix, step size and number of steps. -/
theorem C37_reversible (mass : Matrix (Fin n) (Fin n) ℝ) (ε : ℝ) (nLeapfrog : Nat) (gradU : Vec n → Vec n) (s : Vec n × Vec n) :
    flip (leapfrogStep mass ε nLeapfrog gradU (flip (leapfrogStep mass ε nLeapfrog gradU s))) = s := by
  rw [C37_integrator_is_succ_steps, C37_integrator_is_succ_steps]
  generalize nLeapfrog + 1 = k
  set f := oneStep (velocity mass) gradU ε with hf
  have h1 : ∀ s, flip (f (flip (f s))) = s := oneStep_reverse _ _ (velocity_neg mass) ε
  have hff : ∀ s : Vec n × Vec n, flip (flip s) = s := by intro s; simp [flip]
  induction k generalizing s with
  | zero => exact hff s
  | succ k ih =>
    rw [Function.iterate_succ_apply, Function.iterate_succ_apply']
    have := h1 (f^[k] s)
    have e : f (flip (f (f^[k] s))) = flip (f^[k] s) := by rw [← hff (f (flip (f (f^[k] s)))), this]
    rw [e]
    exact ih s

/-! ## Volume -/

theorem measurePreserving_kick (c : ℝ) (g : Vec n → Vec n) (hg : Measurable g) :
    MeasurePreserving (fun s : Vec n × Vec n => (s.1, s.2 - c • g s.1)) (volume.prod volume) (volume.prod volume) := by
  refine MeasurePreserving.skew_product (μa := volume) (μb := volume) (μc := volume) (μd := volume)
    (f := fun x => x) (g := fun x p => p - c • g x) (MeasurePreserving.id _) ?_ ?_
  · exact measurable_snd.sub ((hg.comp measurable_fst).const_smul c)
  · filter_upwards with x
    exact (measurePreserving_sub_right volume (c • g x)).map_eq

theorem measurePreserving_drift (c : ℝ) (v : Vec n → Vec n) (hv : Measurable v) :
    MeasurePreserving (fun s : Vec n × Vec n => (s.1 + c • v s.2, s.2)) (volume.prod volume) (volume.prod volume) := by
  have h := measurePreserving_kick (-c) v hv
  have := (Measure.measurePreserving_swap (μ := (volume : Measure (Vec n))) (ν := (volume : Measure (Vec n)))).comp
    (h.comp (Measure.measurePreserving_swap (μ := (volume : Measure (Vec n))) (ν := (volume : Measure (Vec n)))))
  convert this using 1
  funext s
  simp [sub_neg_eq_add, neg_smul]

theorem measurable_velocity (mass : Matrix (Fin n) (Fin n) ℝ) : Measurable (velocity mass) := by
  have : Continuous (velocity mass) := by
    unfold velocity
    fun_prop
  exact this.measurable

/-- **C37 (volume preserving).**  The integrator preserves Lebesgue measure on phase space, for every measurable gradient function. -/
theorem C37_volume_preserving (mass : Matrix (Fin n) (Fin n) ℝ) (ε : ℝ) (nLeapfrog : Nat) (gradU : Vec n → Vec n) (hg : Measurable gradU) :
    MeasurePreserving (leapfrogStep mass ε nLeapfrog gradU) (volume.prod volume) (volume.prod volume) := by
  have h1 : MeasurePreserving (oneStep (velocity mass) gradU ε) (volume.prod volume) (volume.prod volume) := by
    have := (measurePreserving_kick (ε / 2) gradU hg).comp
      ((measurePreserving_drift ε (velocity mass) (measurable_velocity mass)).comp (measurePreserving_kick (ε / 2) gradU hg))
    exact this
  have : leapfrogStep mass ε nLeapfrog gradU = (oneStep (velocity mass) gradU ε)^[nLeapfrog + 1] := by
    funext s; exact C37_integrator_is_succ_steps mass ε nLeapfrog gradU s
  rw [this]
  exact h1.iterate _

/-! ## Acceptance -/

/-- The probability, over the uniform number in `[0, 1)`, that a proposal with this `log_acc` is accepted. -/
noncomputable def accProb (logAcc : XR) : ENNReal := volume {u : ℝ | u ∈ Set.Ico 0 1 ∧ XR.lt (XR.log (XR.fin u)) logAcc}

theorem accSet_fin (a : ℝ) : {u : ℝ | u ∈ Set.Ico 0 1 ∧ XR.lt (XR.log (XR.fin u)) (.fin a)} = Set.Ico 0 (min 1 (Real.exp a)) := by
    ext u
    simp only [Set.mem_ofPred_eq, Set.mem_Ico, lt_min_iff]
    constructor
    · rintro ⟨⟨h0, h1⟩, h⟩
      refine ⟨h0, h1, ?_⟩
      rcases h0.eq_or_lt with h0 | h0
      · rw [← h0]; exact Real.exp_pos a
      · simp only [XR.log, if_pos h0, XR.lt] at h
        exact (Real.log_lt_iff_lt_exp h0).1 h
    · rintro ⟨h0, h1, h⟩
      refine ⟨⟨h0, h1⟩, ?_⟩
      rcases h0.eq_or_lt with h0 | h0
      · rw [← h0]; simp [XR.log, XR.lt]
      · simp only [XR.log, if_pos h0, XR.lt]
        exact (Real.log_lt_iff_lt_exp h0).2 h

theorem accSet_pinf : {u : ℝ | u ∈ Set.Ico 0 1 ∧ XR.lt (XR.log (XR.fin u)) .pinf} = Set.Ico 0 1 := by
    ext u
    simp only [Set.mem_ofPred_eq, and_iff_left_iff_imp, Set.mem_Ico]
    rintro ⟨h0, _⟩
    rcases h0.eq_or_lt with h0 | h0
    · rw [← h0]; simp [XR.log, XR.lt]
    · simp only [XR.log, if_pos h0, XR.lt]

theorem accProb_fin (a : ℝ) : accProb (.fin a) = ENNReal.ofReal (min 1 (Real.exp a)) := by
  rw [accProb, accSet_fin, Real.volume_Ico, sub_zero]

theorem accProb_pinf : accProb .pinf = 1 := by
  rw [accProb, accSet_pinf, Real.volume_Ico]; simp

theorem not_lt_ninf (x : XR) : ¬ XR.lt x .ninf := by cases x <;> simp [XR.lt]
theorem not_lt_nan (x : XR) : ¬ XR.lt x .nan := by cases x <;> simp [XR.lt]

theorem accProb_ninf : accProb .ninf = 0 := by simp [accProb, not_lt_ninf]
theorem accProb_nan : accProb .nan = 0 := by simp [accProb, not_lt_nan]

/-- **C37 (detailed balance).**  For proper log densities (finite or `-inf`) the probability of accepting a proposal, times the density
`exp(-H)` of the start, is the smaller of the two densities.  In particular it is symmetric in start and proposal. -/
theorem C37_detailed_balance (mass : Matrix (Fin n) (Fin n) ℝ) (logpdf : Vec n → XR) (hlog : ∀ x, XR.IsLog (logpdf x))
    (s s' : Vec n × Vec n) :
    ENNReal.ofReal (weight mass logpdf s) * accProb (logAcc mass (logpdf s.1) s.2 (logpdf s'.1) s'.2) =
      ENNReal.ofReal (min (weight mass logpdf s) (weight mass logpdf s')) := by
  simp only [weight_eq]
  unfold logAcc
  have h := hlog s.1
  have h' := hlog s'.1
  cases hp : logpdf s.1 <;> cases hq : logpdf s'.1 <;>
    first
      | (rw [hp] at h; exact absurd rfl h.1)
      | (rw [hp] at h; exact absurd rfl h.2)
      | (rw [hq] at h'; exact absurd rfl h'.1)
      | (rw [hq] at h'; exact absurd rfl h'.2)
      | skip
  · rename_i a b
    have e : -(XR.fin a) + XR.fin (kinetic mass s.2) - (-(XR.fin b) + XR.fin (kinetic mass s'.2)) =
        XR.fin ((b - kinetic mass s'.2) - (a - kinetic mass s.2)) := by
      show XR.fin _ = XR.fin _
      congr 1; ring
    rw [e, accProb_fin, ← ENNReal.ofReal_mul (by simp only [XR.expR]; positivity)]
    congr 1
    simp only [XR.expR]
    rw [← Real.exp_add, ← Real.exp_add, ← sub_eq_add_neg, ← sub_eq_add_neg, Real.exp_sub (b - _),
      mul_min_of_nonneg _ _ (Real.exp_pos _).le, mul_one, mul_div_cancel₀]
    exact (Real.exp_pos _).ne'
  · have e : -(XR.fin ‹ℝ›) + XR.fin (kinetic mass s.2) - (-XR.ninf + XR.fin (kinetic mass s'.2)) = XR.ninf := rfl
    rw [e, accProb_ninf]
    simp only [XR.expR, zero_mul, mul_zero]
    rw [min_eq_right (by positivity)]; simp
  · have e : -XR.ninf + XR.fin (kinetic mass s.2) - (-(XR.fin ‹ℝ›) + XR.fin (kinetic mass s'.2)) = XR.pinf := rfl
    simp only [XR.expR, zero_mul]
    rw [min_eq_left (by positivity)]; simp
  · simp [XR.expR]

/-- **C37 (impossible points).**  A proposal whose log density is `-inf` or NaN is never accepted, whatever the momentum, the uniform
number and the carried log density. -/
theorem C37_impossible_never_accepted (mass : Matrix (Fin n) (Fin n) ℝ) (ε : ℝ) (nLeapfrog : Nat) (gradU : Vec n → Vec n)
    (logpdf : Vec n → XR) (momentum : Vec n) (u : ℝ) (position : Vec n) (logProb : XR)
    (hbad : logpdf (leapfrogStep mass ε nLeapfrog gradU (position, momentum)).1 = .ninf ∨
      logpdf (leapfrogStep mass ε nLeapfrog gradU (position, momentum)).1 = .nan) :
    kernel mass ε nLeapfrog gradU logpdf momentum u position logProb = (position, logProb, false) := by
  unfold kernel
  simp only
  rw [if_neg]
  unfold logAcc
  rcases hbad with hb | hb <;> rw [hb] <;> cases logProb <;>
    first | exact not_lt_ninf _ | exact not_lt_nan _

/-- **C37 (carried density).**  If the carried log density is that of the carried position before a step, it is so after the step,
whether or not the proposal is accepted. -/
theorem C37_carried_density (mass : Matrix (Fin n) (Fin n) ℝ) (ε : ℝ) (nLeapfrog : Nat) (gradU : Vec n → Vec n)
    (logpdf : Vec n → XR) (momentum : Vec n) (u : ℝ) (position : Vec n) (logProb : XR) (h : logProb = logpdf position) :
    (kernel mass ε nLeapfrog gradU logpdf momentum u position logProb).2.1 =
      logpdf (kernel mass ε nLeapfrog gradU logpdf momentum u position logProb).1 := by
  unfold kernel
  simp only
  split_ifs
  · simp only
    generalize logpdf (leapfrogStep mass ε nLeapfrog gradU (position, momentum)).1 = y
    cases y <;> first | rfl | (show XR.fin _ = XR.fin _; rw [neg_neg])
  · exact h

/-- The position is either the proposal or the old one, and the flag tells which. -/
theorem C37_moves_iff_accepted (mass : Matrix (Fin n) (Fin n) ℝ) (ε : ℝ) (nLeapfrog : Nat) (gradU : Vec n → Vec n)
    (logpdf : Vec n → XR) (momentum : Vec n) (u : ℝ) (position : Vec n) (logProb : XR) :
    let r := kernel mass ε nLeapfrog gradU logpdf momentum u position logProb
    (r.2.2 = true → r.1 = (leapfrogStep mass ε nLeapfrog gradU (position, momentum)).1) ∧
    (r.2.2 = false → r.1 = position ∧ r.2.1 = logProb) := by
  simp only [kernel]
  split_ifs <;> simp

/-- **C37 (the target is invariant).**  Draw the position with density proportional to the target, the momentum with density
proportional to `exp(-K)`, and the uniform number in `[0, 1)`, and apply the kernel: the expectation of every non-negative measurable
function of the new position equals its expectation at the old one.  (All unnormalised; for every measurable target and gradient
function, mass matrix, step size and number of steps.) -/
theorem C37_target_invariant (mass : Matrix (Fin n) (Fin n) ℝ) (ε : ℝ) (nLeapfrog : Nat) (gradU : Vec n → Vec n) (hg : Measurable gradU)
    (logpdf : Vec n → XR) (hlog : ∀ x, XR.IsLog (logpdf x)) (hm : Measurable fun x => XR.expR (logpdf x))
    (f : Vec n → ENNReal) (hf : Measurable f) :
    let w : Vec n × Vec n → ENNReal := fun s => ENNReal.ofReal (weight mass logpdf s)
    let Φ := leapfrogStep mass ε nLeapfrog gradU
    let acc : Vec n × Vec n → ENNReal := fun s => accProb (logAcc mass (logpdf s.1) s.2 (logpdf (Φ s).1) (Φ s).2)
    ∫⁻ s, w s * (acc s * f (Φ s).1 + (1 - acc s) * f s.1) ∂(volume.prod volume) = ∫⁻ s, w s * f s.1 ∂(volume.prod volume) := by
  intro w Φ acc
  have hΦ : MeasurePreserving Φ (volume.prod volume) (volume.prod volume) := C37_volume_preserving mass ε nLeapfrog gradU hg
  have hkin : Measurable (kinetic mass) := by
    have : Continuous (kinetic mass) := by unfold kinetic; fun_prop
    exact this.measurable
  have hw : Measurable fun s => weight mass logpdf s := by
    simp only [weight_eq]
    exact (hm.comp measurable_fst).mul (Real.continuous_exp.measurable.comp (hkin.comp measurable_snd).neg)
  have hflip : MeasurePreserving (flip : Vec n × Vec n → Vec n × Vec n) (volume.prod volume) (volume.prod volume) :=
    (MeasurePreserving.id (volume : Measure (Vec n))).prod (Measure.measurePreserving_neg (volume : Measure (Vec n)))
  let Ψ : Vec n × Vec n → Vec n × Vec n := fun s => flip (Φ s)
  have hΨ : MeasurePreserving Ψ (volume.prod volume) (volume.prod volume) := hflip.comp hΦ
  have hΨΨ : ∀ s, Ψ (Ψ s) = s := C37_reversible mass ε nLeapfrog gradU
  have hwflip : ∀ s, weight mass logpdf (flip s) = weight mass logpdf s := by
    intro s; simp only [weight_eq]; unfold flip; simp only [kinetic_neg]
  let m : Vec n × Vec n → ENNReal := fun s => ENNReal.ofReal (min (weight mass logpdf s) (weight mass logpdf (Ψ s)))
  have hacc : ∀ s, w s * acc s = m s := by
    intro s
    have := C37_detailed_balance mass logpdf hlog s (Φ s)
    simp only [w, acc, m, Ψ, hwflip]
    exact this
  have hmΨ : ∀ s, m (Ψ s) = m s := by
    intro s; simp only [m, hΨΨ, min_comm]
  have hmm : Measurable m := (hw.min (hw.comp hΨ.measurable)).ennreal_ofReal
  have hacc1 : ∀ s, acc s ≤ 1 := by
    intro s
    calc acc s ≤ volume (Set.Ico (0 : ℝ) 1) := measure_mono fun u hu => hu.1
      _ = 1 := by rw [Real.volume_Ico]; simp
  -- moving by `Φ` and by `Ψ` is the same for a function of the position
  have hmove : ∫⁻ s, m s * f (Φ s).1 ∂(volume.prod volume) = ∫⁻ s, m s * f s.1 ∂(volume.prod volume) := by
    have h1 : ∀ s, m s * f (Φ s).1 = (fun s => m s * f s.1) (Ψ s) := by
      intro s; simp only [hmΨ]; rfl
    rw [lintegral_congr h1]
    exact hΨ.lintegral_comp (hmm.mul (hf.comp measurable_fst))
  have hsub : ∀ s, w s * (acc s * f (Φ s).1 + (1 - acc s) * f s.1) = m s * f (Φ s).1 + (w s - m s) * f s.1 := by
    intro s
    rw [mul_add, ← mul_assoc, hacc, ← mul_assoc, ENNReal.mul_sub (fun _ _ => ENNReal.ofReal_ne_top), mul_one, hacc]
  have hle : ∀ s, m s ≤ w s := fun s => ENNReal.ofReal_le_ofReal (min_le_left _ _)
  have hm1 : Measurable fun s => m s * f (Φ s).1 := hmm.mul (hf.comp (measurable_fst.comp hΦ.measurable))
  have hm2 : Measurable fun s => m s * f s.1 := hmm.mul (hf.comp measurable_fst)
  rw [lintegral_congr hsub, lintegral_add_left hm1, hmove, ← lintegral_add_left hm2]
  apply lintegral_congr
  intro s
  rw [← add_mul, add_tsub_cancel_of_le (hle s)]

theorem measurableSet_accept (logAcc : XR) : MeasurableSet {u : ℝ | u ∈ Set.Ico 0 1 ∧ XR.lt (XR.log (XR.fin u)) logAcc} := by
  cases logAcc with
  | fin a => rw [accSet_fin]; exact measurableSet_Ico
  | pinf => rw [accSet_pinf]; exact measurableSet_Ico
  | ninf => simp [not_lt_ninf]
  | nan => simp [not_lt_nan]

/-- **C37 (the target is invariant under the kernel as coded).**  The same with the kernel applied to a momentum and a uniform number: the
carried log density being that of the position, averaging `f` of the new position over position, momentum and uniform number gives the
average of `f` at the old position. -/
theorem C37_kernel_leaves_target_invariant (mass : Matrix (Fin n) (Fin n) ℝ) (ε : ℝ) (nLeapfrog : Nat) (gradU : Vec n → Vec n)
    (hg : Measurable gradU) (logpdf : Vec n → XR) (hlog : ∀ x, XR.IsLog (logpdf x)) (hm : Measurable fun x => XR.expR (logpdf x))
    (f : Vec n → ENNReal) (hf : Measurable f) :
    ∫⁻ s : Vec n × Vec n, ENNReal.ofReal (weight mass logpdf s) *
        (∫⁻ u in Set.Ico (0 : ℝ) 1, f (kernel mass ε nLeapfrog gradU logpdf s.2 u s.1 (logpdf s.1)).1) ∂(volume.prod volume) =
      ∫⁻ s : Vec n × Vec n, ENNReal.ofReal (weight mass logpdf s) * f s.1 ∂(volume.prod volume) := by
  have h := C37_target_invariant mass ε nLeapfrog gradU hg logpdf hlog hm f hf
  simp only at h
  rw [← h]
  apply lintegral_congr
  intro s
  congr 1
  set L := logAcc mass (logpdf s.1) s.2 (logpdf (leapfrogStep mass ε nLeapfrog gradU s).1) (leapfrogStep mass ε nLeapfrog gradU s).2
    with hL
  set A := {u : ℝ | u ∈ Set.Ico 0 1 ∧ XR.lt (XR.log (XR.fin u)) L} with hA
  have hAm : MeasurableSet A := measurableSet_accept L
  rw [← lintegral_inter_add_sdiff (fun u => f (kernel mass ε nLeapfrog gradU logpdf s.2 u s.1 (logpdf s.1)).1) (Set.Ico (0 : ℝ) 1) hAm]
  have hsub : A ⊆ Set.Ico 0 1 := fun u hu => hu.1
  rw [Set.inter_eq_self_of_subset_right hsub]
  congr 1
  · rw [setLIntegral_congr_fun (g := fun _ => f (leapfrogStep mass ε nLeapfrog gradU s).1) hAm (by
      intro u hu
      have := hu.2
      simp only [kernel]
      rw [if_pos (by exact this)]), setLIntegral_const, mul_comm]
    rfl
  · rw [setLIntegral_congr_fun (g := fun _ => f s.1) (measurableSet_Ico.diff hAm) (by
      intro u hu
      have : ¬ XR.lt (XR.log (XR.fin u)) L := fun hc => hu.2 ⟨hu.1, hc⟩
      simp only [kernel]
      rw [if_neg (by exact this)]), setLIntegral_const, mul_comm]
    congr 1
    have hfin : volume A ≠ ⊤ := by
      refine ne_top_of_le_ne_top ?_ (measure_mono hsub)
      rw [Real.volume_Ico]; exact ENNReal.ofReal_ne_top
    rw [measure_sdiff hsub hAm.nullMeasurableSet hfin, Real.volume_Ico]
    simp only [sub_zero, ENNReal.ofReal_one]
    rfl

/-- A standard normal target in one dimension meets the hypotheses. -/
example : (∀ x : Vec 1, XR.IsLog (XR.fin (-(x 0) ^ 2 / 2))) ∧ Measurable (fun x : Vec 1 => XR.expR (XR.fin (-(x 0) ^ 2 / 2))) ∧
    Measurable (fun x : Vec 1 => x) := by
  refine ⟨fun x => ⟨by simp, by simp⟩, ?_, measurable_id⟩
  simp only [XR.expR]
  fun_prop

/-- A proposal outside the support of a box prior. -/
example : kernel (n := 1) 1 1 1 (fun _ => 0) (fun x => open Classical in if x 0 ≤ 1 then XR.fin 0 else XR.ninf) (fun _ => 1) (1 / 2)
    (fun _ => 0) (XR.fin 0) = (fun _ => 0, XR.fin 0, false) := by
  apply C37_impossible_never_accepted
  left
  rw [C37_integrator_is_succ_steps]
  rw [if_neg]
  simp [oneStep, velocity]
  norm_num

end GW.Hmc
