import Verif.Model.MixtureSampling
import Verif.Props.Mixture
import Mathlib.MeasureTheory.Constructions.Pi
import Mathlib.MeasureTheory.Measure.Lebesgue.Basic
import Mathlib.Probability.Moments.Variance

/-! # C65: what a scaled mixture samples, and its mean and variance -/

namespace GW.Mixture
open GW MeasureTheory ProbabilityTheory

variable {n : ℕ} {α : Type}

noncomputable section

/-! ## Specification -/

/-- The share of component `i` in the total rate. -/
def share (l : Fin (n + 1) → ℝ) (i : Fin (n + 1)) : ℝ := Real.exp (l i) / ∑ j, Real.exp (l j)

/-- The normalised mixture. -/
def law [MeasurableSpace α] (l : Fin (n + 1) → ℝ) (P : Fin (n + 1) → Measure α) : Measure α := ∑ i, ENNReal.ofReal (share l i) • P i

/-- A uniform number on `[0, 1)`. -/
def uniform : Measure ℝ := volume.restrict (Set.Ico 0 1)

/-! ## Helpers -/

theorem total_pos (l : Fin (n + 1) → ℝ) : 0 < ∑ j, Real.exp (l j) := Finset.sum_pos (fun _ _ => Real.exp_pos _) ⟨0, Finset.mem_univ _⟩

theorem share_pos (l : Fin (n + 1) → ℝ) (i : Fin (n + 1)) : 0 < share l i := div_pos (Real.exp_pos _) (total_pos l)

theorem share_sum (l : Fin (n + 1) → ℝ) : ∑ i, share l i = 1 := by
  unfold share
  rw [← Finset.sum_div, div_self (total_pos l).ne']

theorem softmax_eq (l : Fin (n + 1) → ℝ) : softmax l = share l := by
  funext i
  simp only [softmax, share, Real.exp_sub]
  rw [← Finset.sum_div, div_div_div_cancel_right₀ (Real.exp_pos _).ne']

/-- Partial sums. -/
def S (p : Fin (n + 1) → ℝ) (k : ℕ) : ℝ := ∑ j with j.val < k, p j

theorem cumsum_eq (p : Fin (n + 1) → ℝ) (k : Fin (n + 1)) : cumsum p k = S p (k.val + 1) := by
  unfold cumsum S
  congr 1
  ext j
  simp only [Finset.mem_filter, Finset.mem_univ, true_and, Fin.le_def, Nat.lt_succ_iff]

theorem S_zero (p : Fin (n + 1) → ℝ) : S p 0 = 0 := by simp [S]

theorem S_succ (p : Fin (n + 1) → ℝ) (k : Fin (n + 1)) : S p (k.val + 1) = S p k.val + p k := by
  unfold S
  have : (Finset.univ.filter fun j : Fin (n + 1) => j.val < k.val + 1) = insert k (Finset.univ.filter fun j : Fin (n + 1) => j.val < k.val) := by
    ext j
    simp only [Finset.mem_filter, Finset.mem_univ, true_and, Finset.mem_insert, Fin.ext_iff]
    omega
  rw [this, Finset.sum_insert (by simp), add_comm]

theorem S_top (p : Fin (n + 1) → ℝ) : S p (n + 1) = ∑ j, p j := by
  unfold S
  congr 1
  ext j
  have := j.isLt
  simp
  omega

theorem S_mono {p : Fin (n + 1) → ℝ} (hp : ∀ i, 0 < p i) : Monotone (S p) := by
  intro a b hab
  unfold S
  refine Finset.sum_le_sum_of_subset_of_nonneg ?_ fun i _ _ => (hp i).le
  intro j
  simp only [Finset.mem_filter, Finset.mem_univ, true_and]
  omega

/-- The index is `i` exactly if the uniform number lies between two consecutive partial sums. -/
theorem categorical_iff {p : Fin (n + 1) → ℝ} (hp : ∀ i, 0 < p i) {u : ℝ} (h0 : 0 < u) (i : Fin (n + 1)) :
    categorical p u = i.val ↔ S p i.val < u ∧ u ≤ S p (i.val + 1) := by
  have key : ∀ m : ℕ, m ≤ n + 1 → S p m < u → m ≤ categorical p u := by
    intro m hm hu
    have hcard : (Finset.univ.filter fun k : Fin (n + 1) => k.val < m).card = m := by
      rw [Fin.card_filter_val_lt]
      omega
    rw [← hcard]
    refine Finset.card_le_card ?_
    intro k
    simp only [Finset.mem_filter, Finset.mem_univ, true_and]
    intro hk
    rw [cumsum_eq]
    exact lt_of_le_of_lt (S_mono hp (by omega)) hu
  have key2 : ∀ m : ℕ, m ≤ n + 1 → u ≤ S p (m + 1) → categorical p u ≤ m := by
    intro m hm hu
    have hcard : (Finset.univ.filter fun k : Fin (n + 1) => k.val < m).card = m := by
      rw [Fin.card_filter_val_lt]
      omega
    rw [← hcard]
    refine Finset.card_le_card ?_
    intro k
    simp only [Finset.mem_filter, Finset.mem_univ, true_and]
    intro hk
    by_contra hkm
    rw [cumsum_eq] at hk
    have := S_mono hp (show m + 1 ≤ k.val + 1 by omega)
    linarith
  constructor
  · intro h
    constructor
    · by_contra hu
      rw [not_lt] at hu
      rcases Nat.eq_zero_or_pos i.val with hi | hi
      · rw [hi, S_zero] at hu
        linarith
      · obtain ⟨m, hm⟩ : ∃ m, i.val = m + 1 := ⟨i.val - 1, by omega⟩
        rw [hm] at hu
        have := key2 m (by omega) hu
        omega
    · by_contra hu
      rw [not_le] at hu
      have := key (i.val + 1) (by omega) hu
      omega
  · rintro ⟨h1, h2⟩
    exact le_antisymm (key2 i.val (by omega) h2) (key i.val (by omega) h1)

theorem categorical_lt {p : Fin (n + 1) → ℝ} (hs : ∑ i, p i = 1) {u : ℝ} (h1 : u ≤ 1) : categorical p u < n + 1 := by
  unfold categorical
  calc (Finset.univ.filter fun k => cumsum p k < u).card < (Finset.univ : Finset (Fin (n + 1))).card := by
        refine Finset.card_lt_card ⟨Finset.subset_univ _, fun h => ?_⟩
        have := h (Finset.mem_univ (Fin.last n))
        simp only [Finset.mem_filter, Finset.mem_univ, true_and] at this
        rw [cumsum_eq, Fin.val_last, S_top, hs] at this
        linarith
    _ = n + 1 := by simp

theorem uniform_index {p : Fin (n + 1) → ℝ} (hp : ∀ i, 0 < p i) (hs : ∑ i, p i = 1) (i : Fin (n + 1)) :
    uniform {u | categorical p u = i.val} = ENNReal.ofReal (p i) := by
  have hae : uniform = volume.restrict (Set.Ioc 0 1) := by
    unfold uniform
    exact Measure.restrict_congr_set (Ico_ae_eq_Ioc)
  have hset : {u | categorical p u = i.val} ∩ Set.Ioc 0 1 = Set.Ioc (S p i.val) (S p (i.val + 1)) := by
    have hlo : 0 ≤ S p i.val := by rw [← S_zero p]; exact S_mono hp (Nat.zero_le _)
    have hhi : S p (i.val + 1) ≤ 1 := by rw [← hs, ← S_top]; exact S_mono hp (by omega)
    ext u
    constructor
    · rintro ⟨h1, h2, h3⟩
      exact (categorical_iff hp h2 i).1 h1
    · rintro ⟨h1, h2⟩
      have h0 : 0 < u := lt_of_le_of_lt hlo h1
      exact ⟨(categorical_iff hp h0 i).2 ⟨h1, h2⟩, h0, h2.trans hhi⟩
  rw [hae, Measure.restrict_apply₀' measurableSet_Ioc.nullMeasurableSet, hset, Real.volume_Ioc, S_succ]
  simp

theorem measurable_categorical (p : Fin (n + 1) → ℝ) : Measurable (categorical p) := by
  classical
  have : categorical p = fun u => ∑ k, if cumsum p k < u then 1 else 0 := by
    funext u
    simp only [categorical, Finset.card_filter]
  rw [this]
  refine Finset.measurable_sum _ fun k _ => ?_
  exact Measurable.ite measurableSet_Ioi measurable_const measurable_const

/-! ## Theorems -/

/-- **C65.**  The index returned with a sample is the index of a component, and the sample is that component's. -/
theorem C65_index (l : Fin (n + 1) → ℝ) (xs : Fin (n + 1) → α) (u : ℝ) (h1 : u < 1) :
    ∃ i : Fin (n + 1), sampleWithIntermediates l xs u = (some (xs i), i.val) ∧ sample l xs u = some (xs i) := by
  have h := categorical_lt (p := softmax l) (by rw [softmax_eq, share_sum]) h1.le
  exact ⟨⟨_, h⟩, by simp [sampleWithIntermediates, h], by simp [sample, sampleWithIntermediates, h]⟩

/-- **C65.**  Component `i` is selected with probability `exp(log_scale_i) / Σ exp(log_scale_j)`. -/
theorem C65_index_law (l : Fin (n + 1) → ℝ) (xs : Fin (n + 1) → α) (i : Fin (n + 1)) :
    uniform {u | (sampleWithIntermediates l xs u).2 = i.val} = ENNReal.ofReal (Real.exp (l i) / ∑ j, Real.exp (l j)) := by
  have := uniform_index (p := share l) (share_pos l) (share_sum l) i
  simpa only [sampleWithIntermediates, softmax_eq, share] using this

/-- **C65.**  If component `i` is sampled from `P i`, independently of the other components and of the index, then `sample` draws from the normalised mixture: the
probability of any set is the sum of the components' probabilities, weighted with their shares of the total rate. -/
theorem C65_sample_law [MeasurableSpace α] (l : Fin (n + 1) → ℝ) (P : Fin (n + 1) → Measure α) [∀ i, IsProbabilityMeasure (P i)] (A : Set α) (hA : MeasurableSet A) :
    ((Measure.pi P).prod uniform) {w | ∃ x ∈ A, sample l w.1 w.2 = some x} =
      ∑ i, ENNReal.ofReal (Real.exp (l i) / ∑ j, Real.exp (l j)) * P i A := by
  have hsf : SFinite uniform := by unfold uniform; infer_instance
  have hp : ∀ i, 0 < softmax l i := fun i => by rw [softmax_eq]; exact share_pos l i
  have hs : ∑ i, softmax l i = 1 := by rw [softmax_eq]; exact share_sum l
  have hset : {w : (Fin (n + 1) → α) × ℝ | ∃ x ∈ A, sample l w.1 w.2 = some x} =
      ⋃ i : Fin (n + 1), ((fun xs : Fin (n + 1) → α => xs i) ⁻¹' A) ×ˢ {u | categorical (softmax l) u = i.val} := by
    ext ⟨xs, u⟩
    simp only [Set.mem_ofPred_eq, Set.mem_iUnion, Set.mem_prod, Set.mem_preimage, sample, sampleWithIntermediates]
    constructor
    · rintro ⟨x, hx, h⟩
      split_ifs at h with hlt
      simp only [Option.some.injEq] at h
      exact ⟨⟨_, hlt⟩, by rw [h]; exact hx, rfl⟩
    · rintro ⟨i, hi, hu⟩
      refine ⟨xs i, hi, ?_⟩
      have hlt : categorical (softmax l) u < n + 1 := by rw [hu]; exact i.isLt
      rw [dif_pos hlt]
      congr 2
      exact Fin.ext hu
  rw [hset, measure_iUnion]
  · rw [tsum_fintype]
    refine Finset.sum_congr rfl fun i _ => ?_
    rw [Measure.prod_prod, uniform_index hp hs i, softmax_eq, mul_comm, share]
    congr 1
    exact (measurePreserving_eval P i).measure_preimage hA.nullMeasurableSet
  · intro i j hij
    refine Set.disjoint_left.2 ?_
    rintro ⟨xs, u⟩ ⟨_, h1⟩ ⟨_, h2⟩
    simp only [Set.mem_ofPred_eq] at h1 h2
    exact hij (Fin.ext (h1.symm.trans h2))
  · intro i
    exact ((measurable_pi_apply i) hA).prod ((measurable_categorical _) (measurableSet_singleton _))

open Classical in
/-- **C65.**  `sample` and `log_prob` agree: if the components' samplers follow their log densities (with the mask the mixture puts on them), the law `sample` draws from has the
density `exp(log_prob) / Σ exp(log_scale_j)`. -/
theorem C65_sample_density [MeasurableSpace α] (ν : Measure α) (l : Fin (n + 1) → ℝ) (C : Fin (n + 1) → Comp α) (supp : Option (α → Bool)) (m : Mix α)
    (hm : mkMix ((List.ofFn l).map XR.fin) (List.ofFn C) supp = .ok m) (hok : ∀ i x, ((C i).logProb x).IsLog)
    (hmeas : ∀ i, Measurable fun x => if Excluded supp (C i) x then (0 : ℝ) else ((C i).logProb x).expR) (P : Fin (n + 1) → Measure α)
    [∀ i, IsProbabilityMeasure (P i)] (hP : ∀ i, P i = ν.withDensity fun x => ENNReal.ofReal (if Excluded supp (C i) x then 0 else ((C i).logProb x).expR))
    (A : Set α) (hA : MeasurableSet A) :
    ((Measure.pi P).prod uniform) {w | ∃ x ∈ A, sample l w.1 w.2 = some x} =
      ∫⁻ x in A, ENNReal.ofReal ((m.logProb x).expR / ∑ j, Real.exp (l j)) ∂ν := by
  rw [C65_sample_law l P A hA]
  have hd : ∀ x, (m.logProb x).expR = ∑ i, Real.exp (l i) * if Excluded supp (C i) x then 0 else ((C i).logProb x).expR := by
    intro x
    obtain ⟨h1, h2, h3, h4, h5⟩ := C05_logProb_is_log_of_scaled_sum (List.ofFn l) (List.ofFn C) supp m hm x (by
      intro d hd
      obtain ⟨i, rfl⟩ := (List.mem_ofFn' _ _).1 hd
      exact hok i x)
    have hS : (List.zipWith (fun (l : ℝ) (d : Comp α) => if Excluded supp d x then 0 else Real.exp l * (d.logProb x).expR) (List.ofFn l) (List.ofFn C)).sum =
        ∑ i, Real.exp (l i) * if Excluded supp (C i) x then 0 else ((C i).logProb x).expR := by
      rw [← List.sum_ofFn]
      congr 1
      refine List.ext_getElem (by simp) fun k h1 h2 => ?_
      simp only [List.getElem_zipWith, List.getElem_ofFn, mul_ite, mul_zero]
    rw [← hS]
    rcases h4.eq_or_lt with h0 | h0
    · rw [h2.2 (h3.1 h0.symm), ← h0]
      rfl
    · rw [h1 h0, XR.expR_fin, Real.exp_log h0]
  have hT := total_pos l
  have e : ∀ x, ENNReal.ofReal ((m.logProb x).expR / ∑ j, Real.exp (l j)) =
      ∑ i, ENNReal.ofReal (Real.exp (l i) / ∑ j, Real.exp (l j)) * ENNReal.ofReal (if Excluded supp (C i) x then 0 else ((C i).logProb x).expR) := by
    intro x
    have hnn : ∀ i, 0 ≤ if Excluded supp (C i) x then (0 : ℝ) else ((C i).logProb x).expR := by
      intro i
      split_ifs
      · exact le_rfl
      · exact XR.expR_nonneg _
    rw [hd x, Finset.sum_div, ENNReal.ofReal_sum_of_nonneg fun i _ => div_nonneg (mul_nonneg (Real.exp_pos _).le (hnn i)) hT.le]
    refine Finset.sum_congr rfl fun i _ => ?_
    rw [← ENNReal.ofReal_mul (div_nonneg (Real.exp_pos _).le hT.le)]
    congr 1
    ring
  simp_rw [e]
  have hme : ∀ i, Measurable fun x => ENNReal.ofReal (if Excluded supp (C i) x then 0 else ((C i).logProb x).expR) := fun i => ENNReal.measurable_ofReal.comp (hmeas i)
  rw [lintegral_finsetSum _ fun i _ => (hme i).const_mul _]
  refine Finset.sum_congr rfl fun i _ => ?_
  rw [lintegral_const_mul _ (hme i), hP i, withDensity_apply _ hA]

theorem law_prob (l : Fin (n + 1) → ℝ) (P : Fin (n + 1) → Measure ℝ) [∀ i, IsProbabilityMeasure (P i)] : IsProbabilityMeasure (law l P) := by
  constructor
  simp only [law, Measure.coe_finsetSum, Finset.sum_apply, Measure.smul_apply, measure_univ, smul_eq_mul, mul_one]
  rw [← ENNReal.ofReal_sum_of_nonneg fun i _ => (share_pos l i).le, share_sum, ENNReal.ofReal_one]

theorem law_integral (l : Fin (n + 1) → ℝ) (P : Fin (n + 1) → Measure ℝ) (f : ℝ → ℝ) (hf : ∀ i, Integrable f (P i)) :
    Integrable f (law l P) ∧ ∫ x, f x ∂(law l P) = ∑ i, share l i * ∫ x, f x ∂(P i) := by
  have hi : ∀ i, Integrable f (ENNReal.ofReal (share l i) • P i) := fun i => (hf i).smul_measure ENNReal.ofReal_ne_top
  refine ⟨integrable_finsetSum_measure.2 fun i _ => hi i, ?_⟩
  unfold law
  rw [integral_finsetSum_measure fun i _ => hi i]
  refine Finset.sum_congr rfl fun i _ => ?_
  rw [integral_smul_measure, ENNReal.toReal_ofReal (share_pos l i).le, smul_eq_mul]

/-- **C65.**  `mean` is the mean of the law `sample` draws from times the total rate `Σ exp(log_scale_j)`. -/
theorem C65_mean (l : Fin (n + 1) → ℝ) (P : Fin (n + 1) → Measure ℝ) (hf : ∀ i, Integrable (fun x => x) (P i)) :
    mean l (fun i => ∫ x, x ∂(P i)) = (∑ j, Real.exp (l j)) * ∫ x, x ∂(law l P) := by
  rw [(law_integral l P _ hf).2, Finset.mul_sum]
  refine Finset.sum_congr rfl fun i _ => ?_
  rw [share, ← mul_assoc, mul_div_cancel₀ _ (total_pos l).ne']

/-- **C65.**  If the scales sum to one, `mean` and `variance` are the mean and the variance of the law `sample` draws from. -/
theorem C65_mean_variance (l : Fin (n + 1) → ℝ) (h1 : ∑ j, Real.exp (l j) = 1) (P : Fin (n + 1) → Measure ℝ) [∀ i, IsProbabilityMeasure (P i)]
    (hf : ∀ i, MemLp (fun x => x) 2 (P i)) :
    mean l (fun i => ∫ x, x ∂(P i)) = ∫ x, x ∂(law l P) ∧
    variance l (fun i => ∫ x, x ∂(P i)) (fun i => Var[fun x => x; P i]) = Var[fun x => x; law l P] := by
  have hint : ∀ i, Integrable (fun x => x) (P i) := fun i => (hf i).integrable (by norm_num)
  have hm : mean l (fun i => ∫ x, x ∂(P i)) = ∫ x, x ∂(law l P) := by rw [C65_mean l P hint, h1, one_mul]
  refine ⟨hm, ?_⟩
  have hpr := law_prob l P
  have hsh : ∀ i, share l i = Real.exp (l i) := fun i => by rw [share, h1, div_one]
  set M := ∫ x, x ∂(law l P) with hM
  rw [variance_eq_integral aemeasurable_id']
  have hsq : ∀ i, Integrable (fun x => (x - M) ^ 2) (P i) := fun i => ((hf i).sub (memLp_const M)).integrable_sq
  rw [← hM, (law_integral l P _ hsq).2]
  simp only [variance, hm]
  rw [← Finset.sum_add_distrib]
  refine Finset.sum_congr rfl fun i _ => ?_
  rw [hsh i, ← mul_add]
  congr 1
  rw [variance_eq_integral aemeasurable_id']
  set μ := ∫ x, x ∂(P i) with hμ
  have e : ∀ x : ℝ, (x - M) ^ 2 = (x - μ) ^ 2 + ((2 * (μ - M)) * (x - μ) + (μ - M) ^ 2) := fun x => by ring
  have i1 : Integrable (fun x => (x - μ) ^ 2) (P i) := ((hf i).sub (memLp_const μ)).integrable_sq
  have i2 : Integrable (fun x => x - μ) (P i) := (hint i).sub (integrable_const μ)
  have i3 : Integrable (fun x => (2 * (μ - M)) * (x - μ) + (μ - M) ^ 2) (P i) := (i2.const_mul _).add (integrable_const _)
  rw [show (fun x : ℝ => (x - M) ^ 2) = fun x => (x - μ) ^ 2 + ((2 * (μ - M)) * (x - μ) + (μ - M) ^ 2) from funext e,
    integral_add i1 i3, integral_add (i2.const_mul _) (integrable_const _), integral_const_mul,
    integral_sub (hint i) (integrable_const μ)]
  simp [← hμ]

/-- **C65 (violated).**  For scales that are rates `mean` and `variance` are not those of the samples: with the one log scale `log 2` and the point mass at `1` every sample is `1`, but
`mean` is `2` and `variance` is `2`. -/
theorem C65_mean_variance_violated :
    let l : Fin 1 → ℝ := fun _ => Real.log 2
    let P : Fin 1 → Measure ℝ := fun _ => Measure.dirac 1
    law l P = Measure.dirac 1 ∧
    mean l (fun i => ∫ x, x ∂(P i)) = 2 ∧ ∫ x, x ∂(law l P) = 1 ∧
    variance l (fun i => ∫ x, x ∂(P i)) (fun i => Var[fun x => x; P i]) = 2 ∧ Var[fun x => x; law l P] = 0 := by
  intro l P
  have hl : law l P = Measure.dirac 1 := by
    simp [law, share, P]
  have hv : Var[fun x : ℝ => x; Measure.dirac (1 : ℝ)] = 0 := variance_dirac _
  refine ⟨hl, ?_, ?_, ?_, ?_⟩
  · simp [mean, l, P, Real.exp_log]
  · rw [hl]; simp
  · simp only [variance, mean, P, hv, l, Real.exp_log two_pos]
    simp
    norm_num
  · rw [hl]; exact hv

/-! ## The hypotheses are met -/

/-- Two log scales whose scales sum to one, with different components. -/
example : ∑ j : Fin 2, Real.exp ((![Real.log (1 / 4), Real.log (3 / 4)] : Fin 2 → ℝ) j) = 1 ∧
    ∀ i : Fin 2, MemLp (fun x : ℝ => x) 2 ((![Measure.dirac 1, Measure.dirac 5] : Fin 2 → Measure ℝ) i) := by
  constructor
  · rw [Fin.sum_univ_two]
    simp only [Matrix.cons_val_zero, Matrix.cons_val_one]
    rw [Real.exp_log (by norm_num), Real.exp_log (by norm_num)]
    norm_num
  · intro i
    fin_cases i
    · exact (memLp_congr_ae (ae_eq_dirac _)).2 (memLp_const _)
    · exact (memLp_congr_ae (ae_eq_dirac _)).2 (memLp_const _)

/-- Two uniform components on `[0, 1]` with different rates meet the hypotheses of `C65_sample_density`. -/
example : ∃ (C : Fin 2 → Comp ℝ) (m : Mix ℝ), mkMix ((List.ofFn (![0, 1] : Fin 2 → ℝ)).map XR.fin) (List.ofFn C) none = .ok m ∧
    (∀ i x, ((C i).logProb x).IsLog) ∧ ∀ i, IsProbabilityMeasure (volume.restrict (Set.Icc (0 : ℝ) 1)) ∧
      volume.restrict (Set.Icc (0 : ℝ) 1) = (volume.restrict (Set.Icc (0 : ℝ) 1)).withDensity fun x =>
        ENNReal.ofReal (@ite ℝ (Excluded none (C i) x) (Classical.dec _) 0 ((C i).logProb x).expR) := by
  refine ⟨fun _ => ⟨fun _ => XR.fin 0, fun _ => true, "interval", [], true, fun _ => XR.fin 0⟩, _, rfl, fun i x => XR.isLog_fin 0, fun i => ⟨⟨by simp⟩, ?_⟩⟩
  have : ∀ x : ℝ, ¬ Excluded none (⟨fun _ => XR.fin 0, fun _ => true, "interval", [], true, fun _ => XR.fin 0⟩ : Comp ℝ) x := fun x h => by
    rcases h with h | h
    · cases h
    · simp at h
  simp [this]

end

end GW.Mixture
