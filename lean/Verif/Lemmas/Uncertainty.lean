import Verif.Lemmas.Normal
import Mathlib.Topology.Algebra.Order.LiminfLimsup

/-! # The error of a sum of logarithms of averages, in units of its estimated standard deviation -/

namespace GW.Normal
open MeasureTheory ProbabilityTheory Filter Topology

noncomputable section

variable {Ω : Type} [MeasurableSpace Ω] {P : Measure Ω} [IsProbabilityMeasure P] {K : ℕ}

/-- Independent draws of something with a finite variance. -/
structure Iid (P : Measure Ω) (W : ℕ → Ω → ℝ) : Prop where
  measurable : ∀ j, Measurable (W j)
  square : MemLp (W 0) 2 P
  indep : iIndepFun W P
  ident : ∀ j, IdentDistrib (W j) (W 0) P P

theorem Iid.integrable {W : ℕ → Ω → ℝ} (h : Iid P W) : Integrable (W 0) P := h.square.integrable one_le_two

omit [IsProbabilityMeasure P] in
theorem measurable_average {W : ℕ → Ω → ℝ} (h : ∀ j, Measurable (W j)) (n : ℕ) : Measurable (average W n) :=
  (Finset.measurable_sum _ fun j _ => h j).div_const _

/-- The estimated variance of the logarithm of the average of `n`. -/
def logVariance (W : ℕ → Ω → ℝ) (n : ℕ) (ω : Ω) : ℝ :=
  (∑ j ∈ Finset.range n, W j ω ^ 2) / (∑ j ∈ Finset.range n, W j ω) ^ 2 - 1 / n

/-- The estimated variance of `T` times the average of `n`. -/
def rateVariance (T : ℝ) (W : ℕ → Ω → ℝ) (n : ℕ) (ω : Ω) : ℝ :=
  T ^ 2 / (n : ℝ) ^ 2 * ((∑ j ∈ Finset.range n, W j ω ^ 2) - (∑ j ∈ Finset.range n, W j ω) ^ 2 / n)

theorem measurable_logVariance {W : ℕ → Ω → ℝ} (h : ∀ j, Measurable (W j)) (n : ℕ) : Measurable (logVariance W n) := by
  unfold logVariance
  fun_prop

theorem measurable_rateVariance {T : ℝ} {W : ℕ → Ω → ℝ} (h : ∀ j, Measurable (W j)) (n : ℕ) : Measurable (rateVariance T W n) := by
  unfold rateVariance
  fun_prop

/-- The averages of the squares. -/
theorem Iid.squares {W : ℕ → Ω → ℝ} (h : Iid P W) :
    ∀ᵐ ω ∂P, Tendsto (fun n => average (fun j ω => W j ω ^ 2) n ω) atTop (𝓝 (Var[W 0; P] + (∫ ω, W 0 ω ∂P) ^ 2)) := by
  have h1 : ∫ ω, W 0 ω ^ 2 ∂P = Var[W 0; P] + (∫ ω, W 0 ω ∂P) ^ 2 := by
    have := variance_eq_sub h.square
    rw [this]
    simp
  rw [← h1]
  exact average_limit (W := fun j ω => W j ω ^ 2) h.square.integrable_sq (h.indep.comp (fun _ x => x ^ 2) fun _ => by fun_prop)
    fun j => (h.ident j).comp (u := fun x => x ^ 2) (by fun_prop)

/-- `n` times the estimated variance of the logarithm of an average converges to the relative variance. -/
theorem Iid.logVariance_limit {W : ℕ → Ω → ℝ} (h : Iid P W) (hμ : 0 < ∫ ω, W 0 ω ∂P) :
    ∀ᵐ ω ∂P, Tendsto (fun n : ℕ => n * logVariance W n ω) atTop (𝓝 (Var[W 0; P] / (∫ ω, W 0 ω ∂P) ^ 2)) := by
  filter_upwards [h.squares, average_limit h.integrable h.indep h.ident] with ω h2 h1
  have h3 := (h2.div (h1.pow 2) (pow_ne_zero 2 hμ.ne')).sub_const 1
  have e : (Var[W 0; P] + (∫ ω, W 0 ω ∂P) ^ 2) / (∫ ω, W 0 ω ∂P) ^ 2 - 1 = Var[W 0; P] / (∫ ω, W 0 ω ∂P) ^ 2 := by
    field_simp; ring
  rw [e] at h3
  refine h3.congr' ?_
  filter_upwards [eventually_ge_atTop 1] with n hn
  have hn0 : (n : ℝ) ≠ 0 := by exact_mod_cast (by omega : n ≠ 0)
  simp only [average, logVariance, Pi.div_apply]
  by_cases hs : ∑ j ∈ Finset.range n, W j ω = 0
  · rw [hs]; simp [hn0]
  · field_simp

/-- `n` times the estimated variance of the rate converges to the variance of one term. -/
theorem Iid.rateVariance_limit {W : ℕ → Ω → ℝ} (h : Iid P W) (T : ℝ) :
    ∀ᵐ ω ∂P, Tendsto (fun n : ℕ => n * rateVariance T W n ω) atTop (𝓝 (T ^ 2 * Var[W 0; P])) := by
  filter_upwards [h.squares, average_limit h.integrable h.indep h.ident] with ω h2 h1
  have h3 := (h2.sub (h1.pow 2)).const_mul (T ^ 2)
  rw [add_sub_cancel_right] at h3
  refine h3.congr' ?_
  filter_upwards [eventually_ge_atTop 1] with n hn
  have hn0 : (n : ℝ) ≠ 0 := by exact_mod_cast (by omega : n ≠ 0)
  simp only [average, rateVariance]
  field_simp

/-- If every term of a sum is asymptotically the given one, so is the sum. -/
theorem ratio_sum {ι : Type} [Fintype ι] {a b : ι → ℕ → ℝ} (hb : ∀ i n, 0 < b i n) (h : ∀ i, Tendsto (fun n => a i n / b i n) atTop (𝓝 1)) (hι : Nonempty ι) :
    Tendsto (fun n => (∑ i, a i n) / ∑ i, b i n) atTop (𝓝 1) := by
  have hpos : ∀ n, 0 < ∑ i, b i n := fun n => Finset.sum_pos (fun i _ => hb i n) Finset.univ_nonempty
  have key : ∀ n, (∑ i, a i n) / ∑ i, b i n = 1 + ∑ i, b i n / (∑ i, b i n) * (a i n / b i n - 1) := by
    intro n
    have h0 := (hpos n).ne'
    have : ∀ i, b i n / (∑ i, b i n) * (a i n / b i n - 1) = (a i n - b i n) / ∑ i, b i n := fun i => by
      have := (hb i n).ne'
      field_simp
    simp only [this]
    rw [← Finset.sum_div, Finset.sum_sub_distrib]
    field_simp
    ring
  simp only [key]
  suffices hs : Tendsto (fun n => 1 + ∑ i, b i n / (∑ i, b i n) * (a i n / b i n - 1)) atTop (𝓝 (1 + ∑ _i : ι, (0 : ℝ))) by simpa using hs
  refine Tendsto.const_add _ (tendsto_finsetSum _ fun i _ => ?_)
  have h0 : Tendsto (fun n => a i n / b i n - 1) atTop (𝓝 0) := by simpa using (h i).sub_const 1
  refine squeeze_zero_norm (a := fun n => ‖a i n / b i n - 1‖) (fun n => ?_) (by simpa using h0.norm)
  rw [norm_mul]
  refine mul_le_of_le_one_left (norm_nonneg (a i n / b i n - 1)) ?_
  rw [Real.norm_of_nonneg (div_nonneg (hb i n).le (hpos n).le), div_le_one (hpos n)]
  exact Finset.single_le_sum (f := fun i => b i n) (fun i _ => (hb i n).le) (Finset.mem_univ i)

/-! ## Several averages of logarithms and a rate -/

/-- The draws behind an estimate: `W i j` for the events, `U j` for the rate. -/
structure Draws (P : Measure Ω) (W : Fin K → ℕ → Ω → ℝ) (U : ℕ → Ω → ℝ) : Prop where
  event : ∀ i, Iid P (W i)
  rate : Iid P U
  events : iIndepFun (fun i ω j => W i j ω) P
  both : IndepFun (fun ω i j => W i j ω) (fun ω j => U j ω) P
  mean_pos : ∀ i, 0 < ∫ ω, W i 0 ω ∂P
  event_var : ∀ i, 0 < Var[W i 0; P]
  rate_var : 0 < Var[U 0; P]

variable {W : Fin K → ℕ → Ω → ℝ} {U : ℕ → Ω → ℝ}

/-- The error of the estimate. -/
def error (P : Measure Ω) (T : ℝ) (W : Fin K → ℕ → Ω → ℝ) (U : ℕ → Ω → ℝ) (m : Fin K → ℕ) (N : ℕ) (ω : Ω) : ℝ :=
  (∑ i, (Real.log (T * average (W i) (m i) ω) - Real.log (T * ∫ ω, W i 0 ω ∂P))) - (T * average U N ω - T * ∫ ω, U 0 ω ∂P)

/-- The estimated variance. -/
def estimated (T : ℝ) (W : Fin K → ℕ → Ω → ℝ) (U : ℕ → Ω → ℝ) (m : Fin K → ℕ) (N : ℕ) (ω : Ω) : ℝ :=
  (∑ i, logVariance (W i) (m i) ω) + rateVariance T U N ω

/-- The leading term of the variance. -/
def leading (P : Measure Ω) (T : ℝ) (W : Fin K → ℕ → Ω → ℝ) (U : ℕ → Ω → ℝ) (m : Fin K → ℕ) (N : ℕ) : ℝ :=
  (∑ i, Var[W i 0; P] / (∫ ω, W i 0 ω ∂P) ^ 2 / m i) + T ^ 2 * Var[U 0; P] / N

/-- The estimated variance is asymptotically the leading term of the variance. -/
theorem estimated_limit (h : Draws P W U) {T : ℝ} (hT : 0 < T) (m : Fin K → ℕ → ℕ) (hmt : ∀ i, Tendsto (m i) atTop atTop) (hm1 : ∀ i n, 1 ≤ m i n)
    (N : ℕ → ℕ) (hNt : Tendsto N atTop atTop) (hN1 : ∀ n, 1 ≤ N n) :
    ∀ᵐ ω ∂P, Tendsto (fun n => estimated T W U (fun i => m i n) (N n) ω / leading P T W U (fun i => m i n) (N n)) atTop (𝓝 1) := by
  have hc : ∀ i, 0 < Var[W i 0; P] / (∫ ω, W i 0 ω ∂P) ^ 2 := fun i => div_pos (h.event_var i) (pow_pos (h.mean_pos i) 2)
  have hc0 : 0 < T ^ 2 * Var[U 0; P] := mul_pos (pow_pos hT 2) h.rate_var
  have hm0 : ∀ i n, (0 : ℝ) < m i n := fun i n => by exact_mod_cast hm1 i n
  have hN0 : ∀ n, (0 : ℝ) < N n := fun n => by exact_mod_cast hN1 n
  have hev : ∀ᵐ ω ∂P, ∀ i, Tendsto (fun n : ℕ => n * logVariance (W i) n ω) atTop (𝓝 (Var[W i 0; P] / (∫ ω, W i 0 ω ∂P) ^ 2)) :=
    ae_all_iff.2 fun i => (h.event i).logVariance_limit (h.mean_pos i)
  filter_upwards [hev, h.rate.rateVariance_limit T] with ω h1 h2
  have := ratio_sum (ι := Option (Fin K)) (a := fun o n => match o with | some i => logVariance (W i) (m i n) ω | none => rateVariance T U (N n) ω)
    (b := fun o n => match o with | some i => Var[W i 0; P] / (∫ ω, W i 0 ω ∂P) ^ 2 / m i n | none => T ^ 2 * Var[U 0; P] / N n)
    (by
      rintro (_ | i) n
      · exact div_pos hc0 (hN0 n)
      · exact div_pos (hc i) (hm0 i n))
    (by
      rintro (_ | i)
      · have := (h2.comp hNt).div_const (T ^ 2 * Var[U 0; P])
        rw [div_self hc0.ne'] at this
        refine this.congr fun n => ?_
        have := (hN0 n).ne'
        simp only [Function.comp]
        field_simp
      · have := ((h1 i).comp (hmt i)).div_const (Var[W i 0; P] / (∫ ω, W i 0 ω ∂P) ^ 2)
        rw [div_self (hc i).ne'] at this
        refine this.congr fun n => ?_
        have h3 := (hm0 i n).ne'
        have h4 := (hc i).ne'
        simp only [Function.comp]
        generalize Var[W i 0; P] / (∫ ω, W i 0 ω ∂P) ^ 2 = c at h4
        field_simp)
    ⟨none⟩
  refine this.congr fun n => ?_
  rw [Fintype.sum_option, Fintype.sum_option]
  simp only [estimated, leading]
  rw [add_comm, add_comm (T ^ 2 * Var[U 0; P] / (N n : ℝ))]

/-- Along sequences of sample sizes that grow in proportion. -/
theorem student_proportional (h : Draws P W U) {T : ℝ} (hT : 0 < T) (m : Fin K → ℕ → ℕ) (hmt : ∀ i, Tendsto (m i) atTop atTop) (hm1 : ∀ i n, 1 ≤ m i n)
    (N : ℕ → ℕ) (hNt : Tendsto N atTop atTop) (hN1 : ∀ n, 1 ≤ N n) (r : ℕ → ℝ) (hr : ∀ n, 0 < r n) (ρ : Option (Fin K) → ℝ) (hρ : 0 < ∑ o, ρ o)
    (hρi : ∀ i, Tendsto (fun n => r n / m i n) atTop (𝓝 (ρ (some i)))) (hρ0 : Tendsto (fun n => r n / N n) atTop (𝓝 (ρ none))) :
    ToNormal P (fun n ω => error P T W U (fun i => m i n) (N n) ω / √(estimated T W U (fun i => m i n) (N n) ω)) 1 := by
  have hm0 : ∀ i n, (0 : ℝ) < m i n := fun i n => by exact_mod_cast hm1 i n
  have hN0 : ∀ n, (0 : ℝ) < N n := fun n => by exact_mod_cast hN1 n
  have hρs : ∀ i, 0 ≤ ρ (some i) := fun i => ge_of_tendsto' (hρi i) fun n => div_nonneg (hr n).le (hm0 i n).le
  have hρn : 0 ≤ ρ none := ge_of_tendsto' hρ0 fun n => div_nonneg (hr n).le (hN0 n).le
  have hc : ∀ i, 0 < Var[W i 0; P] / (∫ ω, W i 0 ω ∂P) ^ 2 := fun i => div_pos (h.event_var i) (pow_pos (h.mean_pos i) 2)
  have hc0 : 0 < T ^ 2 * Var[U 0; P] := mul_pos (pow_pos hT 2) h.rate_var
  -- one event
  have hA : ∀ i, ToNormal P (fun n ω => √(r n) * (Real.log (T * average (W i) (m i n) ω) - Real.log (T * ∫ ω, W i 0 ω ∂P)))
      (ρ (some i) * (Var[W i 0; P] / (∫ ω, W i 0 ω ∂P) ^ 2)).toNNReal := by
    intro i
    have h1 := average_normal (h.event i).square (h.event i).indep (h.event i).ident (hm1 i) (hmt i) (fun n => (hr n).le) (hρi i)
    have h2 : ∀ᵐ ω ∂P, Tendsto (fun n => average (W i) (m i n) ω) atTop (𝓝 (∫ ω, W i 0 ω ∂P)) := by
      filter_upwards [average_limit (h.event i).integrable (h.event i).indep (h.event i).ident] with ω hω
      exact hω.comp (hmt i)
    refine delta (A := fun n => average (W i) (m i n)) (f := fun a => Real.log (T * a)) (f' := (∫ ω, W i 0 ω ∂P)⁻¹)
      (fun n => measurable_average (h.event i).measurable _) (by fun_prop) h2 h1 ?_ ?_
    · have := (h.mean_pos i).ne'
      have hd : HasDerivAt (fun a => T * a) T (∫ ω, W i 0 ω ∂P) := by simpa using (hasDerivAt_id (∫ ω, W i 0 ω ∂P)).const_mul T
      have := hd.log (mul_ne_zero hT.ne' this)
      convert! this using 1
      field_simp
    · rw [Real.coe_toNNReal _ (mul_nonneg (hρs i) (hc i).le), Real.coe_toNNReal _ (mul_nonneg (hρs i) (h.event_var i).le)]
      have := (h.mean_pos i).ne'
      field_simp
  have hB : ToNormal P (fun n ω => √(r n) * (-(T * average U (N n) ω) - -(T * ∫ ω, U 0 ω ∂P))) (ρ none * (T ^ 2 * Var[U 0; P])).toNNReal := by
    have h1 := average_normal h.rate.square h.rate.indep h.rate.ident hN1 hNt (fun n => (hr n).le) hρ0
    have h2 : ∀ᵐ ω ∂P, Tendsto (fun n => average U (N n) ω) atTop (𝓝 (∫ ω, U 0 ω ∂P)) := by
      filter_upwards [average_limit h.rate.integrable h.rate.indep h.rate.ident] with ω hω
      exact hω.comp hNt
    refine delta (A := fun n => average U (N n)) (f := fun a => -(T * a)) (f' := -T)
      (fun n => measurable_average h.rate.measurable _) (by fun_prop) h2 h1 ?_ ?_
    · simpa using ((hasDerivAt_id (∫ ω, U 0 ω ∂P)).const_mul T).fun_neg
    · rw [Real.coe_toNNReal _ (mul_nonneg hρn hc0.le), Real.coe_toNNReal _ (mul_nonneg hρn h.rate_var.le)]
      ring
  have hmA : ∀ i n, Measurable fun w : ℕ → ℝ => √(r n) * (Real.log (T * ((∑ j ∈ Finset.range (m i n), w j) / m i n)) - Real.log (T * ∫ ω, W i 0 ω ∂P)) := by
    intro i n
    fun_prop
  have hS := sum hA fun n => h.events.comp (fun i (w : ℕ → ℝ) => √(r n) * (Real.log (T * ((∑ j ∈ Finset.range (m i n), w j) / m i n)) - Real.log (T * ∫ ω, W i 0 ω ∂P)))
    fun i => hmA i n
  have hAll := add hS hB fun n => h.both.comp (φ := fun w : Fin K → ℕ → ℝ => ∑ i, √(r n) * (Real.log (T * ((∑ j ∈ Finset.range (m i n), w i j) / m i n)) - Real.log (T * ∫ ω, W i 0 ω ∂P)))
    (ψ := fun u : ℕ → ℝ => √(r n) * (-(T * ((∑ j ∈ Finset.range (N n), u j) / N n)) - -(T * ∫ ω, U 0 ω ∂P)))
    (Finset.measurable_sum _ fun i _ => (hmA i n).comp (measurable_pi_apply i)) (by fun_prop)
  set v : NNReal := (∑ i, (ρ (some i) * (Var[W i 0; P] / (∫ ω, W i 0 ω ∂P) ^ 2)).toNNReal) + (ρ none * (T ^ 2 * Var[U 0; P])).toNNReal with hv
  have hvr : (v : ℝ) = (∑ i, ρ (some i) * (Var[W i 0; P] / (∫ ω, W i 0 ω ∂P) ^ 2)) + ρ none * (T ^ 2 * Var[U 0; P]) := by
    rw [hv]
    push_cast
    rw [Real.coe_toNNReal _ (mul_nonneg hρn hc0.le)]
    congr 1
    exact Finset.sum_congr rfl fun i _ => Real.coe_toNNReal _ (mul_nonneg (hρs i) (hc i).le)
  have hv0 : v ≠ 0 := by
    intro h0
    have hz : (v : ℝ) = 0 := by rw [h0]; rfl
    rw [hvr] at hz
    have hz1 : 0 ≤ ∑ i, ρ (some i) * (Var[W i 0; P] / (∫ ω, W i 0 ω ∂P) ^ 2) := Finset.sum_nonneg fun i _ => mul_nonneg (hρs i) (hc i).le
    have hz2 : 0 ≤ ρ none * (T ^ 2 * Var[U 0; P]) := mul_nonneg hρn hc0.le
    have e1 : ∑ i, ρ (some i) * (Var[W i 0; P] / (∫ ω, W i 0 ω ∂P) ^ 2) = 0 := by linarith
    have e2 : ρ none * (T ^ 2 * Var[U 0; P]) = 0 := by linarith
    have e3 : ρ none = 0 := by
      rcases mul_eq_zero.1 e2 with e | e
      · exact e
      · exact absurd e hc0.ne'
    have e4 : ∀ i, ρ (some i) = 0 := by
      intro i
      have := (Finset.sum_eq_zero_iff_of_nonneg (fun i _ => mul_nonneg (hρs i) (hc i).le)).1 e1 i (Finset.mem_univ i)
      rcases mul_eq_zero.1 this with e | e
      · exact e
      · exact absurd e (hc i).ne'
    rw [Fintype.sum_option, e3] at hρ
    simp [e4] at hρ
  refine studentize (r := r) hv0 hr (fun n => ?_) (v := v) ?_ ?_
  · unfold estimated
    exact (Finset.measurable_sum _ fun i _ => measurable_logVariance (h.event i).measurable _).add (measurable_rateVariance h.rate.measurable _)
  · refine congr_ae hAll fun n => Eventually.of_forall fun ω => ?_
    simp only [error]
    rw [← Finset.mul_sum, ← mul_add]
    congr 1
    ring
  · have hev : ∀ᵐ ω ∂P, ∀ i, Tendsto (fun n : ℕ => n * logVariance (W i) n ω) atTop (𝓝 (Var[W i 0; P] / (∫ ω, W i 0 ω ∂P) ^ 2)) :=
      ae_all_iff.2 fun i => (h.event i).logVariance_limit (h.mean_pos i)
    filter_upwards [hev, h.rate.rateVariance_limit T] with ω h1 h2
    have h3 := (tendsto_finsetSum Finset.univ fun i _ => (hρi i).mul ((h1 i).comp (hmt i))).add (hρ0.mul (h2.comp hNt))
    rw [← hvr] at h3
    refine h3.congr fun n => ?_
    simp only [Function.comp, estimated, mul_add, Finset.mul_sum]
    congr 1
    · refine Finset.sum_congr rfl fun i _ => ?_
      have := (hm0 i n).ne'
      field_simp
    · have := (hN0 n).ne'
      field_simp

/-- The error, in units of the estimated standard deviation, is asymptotically standard normal, however the sample sizes grow. -/
theorem student (h : Draws P W U) {T : ℝ} (hT : 0 < T) (m : Fin K → ℕ → ℕ) (hmt : ∀ i, Tendsto (m i) atTop atTop) (hm1 : ∀ i n, 1 ≤ m i n)
    (N : ℕ → ℕ) (hNt : Tendsto N atTop atTop) (hN1 : ∀ n, 1 ≤ N n) :
    ToNormal P (fun n ω => error P T W U (fun i => m i n) (N n) ω / √(estimated T W U (fun i => m i n) (N n) ω)) 1 := by
  have hm0 : ∀ i n, (0 : ℝ) < m i n := fun i n => by exact_mod_cast hm1 i n
  have hN0 : ∀ n, (0 : ℝ) < N n := fun n => by exact_mod_cast hN1 n
  refine of_subseq (fun n => ?_) fun ns hns => ?_
  · have h1 : ∀ i, Measurable (average (W i) (m i n)) := fun i => measurable_average (h.event i).measurable _
    have h2 : Measurable (average U (N n)) := measurable_average h.rate.measurable _
    have h3 : Measurable fun ω => error P T W U (fun i => m i n) (N n) ω := by
      unfold error
      exact (Finset.measurable_sum _ fun i _ => (Real.measurable_log.comp ((h1 i).const_mul T)).sub_const _).sub ((h2.const_mul T).sub_const _)
    have h4 : Measurable fun ω => estimated T W U (fun i => m i n) (N n) ω := by
      unfold estimated
      exact (Finset.measurable_sum _ fun i _ => measurable_logVariance (h.event i).measurable _).add (measurable_rateVariance h.rate.measurable _)
    exact (h3.div (Real.continuous_sqrt.measurable.comp h4)).aemeasurable
  · set r : ℕ → ℝ := fun n => ((∑ i, (m i n : ℝ)⁻¹) + (N n : ℝ)⁻¹)⁻¹ with hr
    have hsum0 : ∀ n, 0 < (∑ i, (m i n : ℝ)⁻¹) + (N n : ℝ)⁻¹ := fun n =>
      add_pos_of_nonneg_of_pos (Finset.sum_nonneg fun i _ => (inv_pos.2 (hm0 i n)).le) (inv_pos.2 (hN0 n))
    have hr0 : ∀ n, 0 < r n := fun n => inv_pos.2 (hsum0 n)
    set x : ℕ → Option (Fin K) → ℝ := fun n o => match o with | some i => r n / m i n | none => r n / N n with hx
    have hx1 : ∀ n, ∑ o, x n o = 1 := by
      intro n
      rw [Fintype.sum_option]
      simp only [hx, div_eq_mul_inv, ← Finset.mul_sum, ← mul_add]
      rw [add_comm, hr]
      exact inv_mul_cancel₀ (hsum0 n).ne'
    have hx0 : ∀ n o, 0 ≤ x n o := by
      rintro n (_ | i)
      · exact div_nonneg (hr0 n).le (hN0 n).le
      · exact div_nonneg (hr0 n).le (hm0 i n).le
    have hmem : ∀ n, x (ns n) ∈ Set.pi Set.univ fun _ : Option (Fin K) => Set.Icc (0 : ℝ) 1 := by
      intro n o _
      refine ⟨hx0 _ o, ?_⟩
      rw [← hx1 (ns n)]
      exact Finset.single_le_sum (f := fun o => x (ns n) o) (fun o _ => hx0 _ o) (Finset.mem_univ o)
    obtain ⟨ρ, -, ms, hms, hρ⟩ := (isCompact_univ_pi fun _ : Option (Fin K) => isCompact_Icc (a := (0 : ℝ)) (b := 1)).tendsto_subseq hmem
    have hρo := fun o => (tendsto_pi_nhds.1 hρ) o
    have hsub : Tendsto (fun n => ns (ms n)) atTop atTop := hns.comp hms.tendsto_atTop
    refine ⟨ms, student_proportional h hT (fun i n => m i (ns (ms n))) (fun i => (hmt i).comp hsub) (fun i n => hm1 i _) (fun n => N (ns (ms n)))
      (hNt.comp hsub) (fun n => hN1 _) (fun n => r (ns (ms n))) (fun n => hr0 _) ρ ?_ (fun i => hρo (some i)) (hρo none)⟩
    have : Tendsto (fun n => ∑ o, x (ns (ms n)) o) atTop (𝓝 (∑ o, ρ o)) := tendsto_finsetSum _ fun o _ => hρo o
    simp only [hx1] at this
    rw [← tendsto_nhds_unique tendsto_const_nhds this]
    exact one_pos

end
end GW.Normal
