import Verif.Model.Spin
import Verif.Spec.Spin
import Verif.Props.Numeric

/-! Facts about the spin distributions. -/

namespace GW.Spin
open GW XR GW.Num GW.Mass MeasureTheory ProbabilityTheory
open scoped Classical

/-! ## One-dimensional components -/

/-- What a masked one-dimensional component contributes at a real point. -/
noncomputable def masked1 (d : Dist1) (x : ℝ) : XR := select (d.support (fin x)) (d.logProb (fin x)) ninf

/-- The masked component is the log of the density `p`, which vanishes outside the support and is one or the log density of a real inside. -/
structure Has (d : Dist1) (p : ℝ → ℝ) : Prop where
  inside : ∀ x, d.support (fin x) = true → 0 < p x ∧ d.logProb (fin x) = fin (Real.log (p x))
  outside : ∀ x, d.support (fin x) = false → p x = 0
  integral : ∫ x, p x = 1

theorem Has.nonneg {d : Dist1} {p : ℝ → ℝ} (h : Has d p) (x : ℝ) : 0 ≤ p x := by
  cases hs : d.support (fin x) with
  | true => exact (h.inside x hs).1.le
  | false => exact (h.outside x hs).ge

@[simp] theorem interval_fin {a b x : ℝ} : interval a b (fin x) = true ↔ a ≤ x ∧ x ≤ b := by simp [interval]

theorem validated_of_true (v : Bool) (lp : XR) : validated v true lp = lp := by cases v <;> simp [validated]

theorem integral_uniform {low high : ℝ} (h : low < high) : ∫ x, uniformDensity low high x = 1 := by
  have e : (fun x => uniformDensity low high x) = (Set.Icc low high).indicator fun _ => 1 / (high - low) := by
    funext x
    by_cases hx : x ∈ Set.Icc low high
    · rw [Set.indicator_of_mem hx, uniformDensity, if_pos (Set.mem_Icc.1 hx)]
    · rw [Set.indicator_of_notMem hx, uniformDensity, if_neg (fun h => hx (Set.mem_Icc.2 h))]
  rw [e, integral_indicator measurableSet_Icc, setIntegral_const]
  have : high - low ≠ 0 := by linarith
  simp [measureReal_def, h.le]
  field_simp

theorem has_uniform {low high : ℝ} (h : low < high) (v : Bool) : Has (uniform low high v) (uniformDensity low high) where
  inside x hx := by
    have hx' : low ≤ x ∧ x ≤ high := by simpa [uniform] using hx
    have hp : (0 : ℝ) < high - low := by linarith
    constructor
    · rw [uniformDensity, if_pos hx']; positivity
    · rw [uniformDensity, if_pos hx']
      simp only [uniform] at hx ⊢
      rw [hx, validated_of_true, log_fin_pos hp, neg_fin, one_div, Real.log_inv]
  outside x hx := by
    have : ¬ (low ≤ x ∧ x ≤ high) := by
      intro h'
      rw [← interval_fin] at h'
      simp [uniform, h'] at hx
    rw [uniformDensity, if_neg this]
  integral := integral_uniform h

/-! ## Truncated normal -/

theorem normalDensity_pos {loc s : ℝ} (hs : 0 < s) (x : ℝ) : 0 < normalDensity loc s x :=
  gaussianPDFReal_pos _ _ _ (by simp only [ne_eq, Real.toNNReal_eq_zero, not_le]; positivity)

theorem integrable_normalDensity (loc s : ℝ) : Integrable (normalDensity loc s) := integrable_gaussianPDFReal loc _

theorem log_normalDensity {loc s : ℝ} (hs : 0 < s) (x : ℝ) :
    Real.log (normalDensity loc s x) = -1 / 2 * ((x - loc) / s * ((x - loc) / s)) - Real.log (Real.sqrt (2 * Real.pi) * s) := by
  have hpi := Real.pi_pos
  rw [normalDensity, gaussianPDFReal, Real.coe_toNNReal _ (sq_nonneg s), Real.log_mul (by positivity) (Real.exp_pos _).ne', Real.log_exp, Real.log_inv,
    Real.sqrt_mul (by positivity), Real.sqrt_sq hs.le]
  field_simp
  ring

theorem normalLogProb_fin {loc s : ℝ} (hs : 0 < s) (x : ℝ) : normalLogProb loc s (fin x) = fin (Real.log (normalDensity loc s x)) := by
  have hpi := Real.pi_pos
  rw [log_normalDensity hs]
  simp only [normalLogProb, mul_fin_fin, sub_fin_fin, div_fin_of_ne _ hs.ne', square_fin]
  rw [log_fin_pos (by positivity), sub_fin_fin]

/-- Optional bounds as floats. -/
def loX : Option ℝ → XR
  | some a => fin a
  | none => ninf
def hiX : Option ℝ → XR
  | some a => fin a
  | none => pinf

theorem measurableSet_bounds (low high : Option ℝ) : MeasurableSet (bounds low high) := by
  cases low <;> cases high <;> simp [bounds]

theorem bounds_ae (low high : Option ℝ) : (bounds low high : Set ℝ) =ᵐ[volume] (between (loX low) (hiX high) : Set ℝ) := by
  cases low with
  | none =>
    cases high with
    | none =>
      have : between ninf pinf = Set.univ := by ext; simp [between, le]
      simp [bounds, loX, hiX, this]
    | some b =>
      have : between ninf (fin b) = Set.Iic b := by ext; simp [between, le]
      simp only [bounds, loX, hiX, this]
      exact Iio_ae_eq_Iic
  | some a =>
    cases high with
    | none =>
      have : between (fin a) pinf = Set.Ici a := by ext; simp [between, le]
      simp only [bounds, loX, hiX, this]
      exact Ioi_ae_eq_Ici
    | some b =>
      have : between (fin a) (fin b) = Set.Icc a b := by ext; simp [between, le]
      simp only [bounds, loX, hiX, this]
      exact Filter.EventuallyEq.rfl

theorem mass_eq {loc s : ℝ} (hs : 0 < s) {low high : Option ℝ} (h : lt (loX low) (hiX high)) :
    ∫ y in bounds low high, normalDensity loc s y = PhiX ((hiX high - fin loc) / fin s) - PhiX ((loX low - fin loc) / fin s) := by
  rw [setIntegral_congr_set (bounds_ae low high)]
  exact gauss_between hs h

theorem mass_pos {loc s : ℝ} (hs : 0 < s) {low high : Option ℝ} (h : lt (loX low) (hiX high)) : 0 < ∫ y in bounds low high, normalDensity loc s y := by
  rw [mass_eq hs h]
  exact sub_pos.2 (PhiX_lt (std_lt hs h))

theorem normalCdf_eq {loc s : ℝ} (hs : 0 < s) (x : ℝ) : normalCdf loc s x = fin (PhiX (fin ((x - loc) / s))) := by
  rw [normalCdf, sub_fin_fin, div_fin_of_ne _ hs.ne', ndtr_eq (by simp)]

theorem PhiX_pinf : PhiX pinf = 1 := by simp [PhiX]
theorem PhiX_ninf : PhiX ninf = 0 := by simp [PhiX]

theorem tnLogMass_eq {loc s : ℝ} (hs : 0 < s) {low high : Option ℝ} (h : lt (loX low) (hiX high)) :
    tnLogMass loc s low high = fin (Real.log (∫ y in bounds low high, normalDensity loc s y)) := by
  have hp := mass_pos (loc := loc) hs h
  rw [mass_eq hs h] at hp ⊢
  have pd : (pinf : XR) / fin s = pinf := by show XR.div _ _ = _; simp [XR.div, hs.le]
  have nd : (ninf : XR) / fin s = ninf := by show XR.div _ _ = _; simp [XR.div, hs.le]
  have hneg : ∀ x : ℝ, PhiX (fin ((loc - -1 * (loc - x) - loc) / s)) = 1 - PhiX (fin ((x - loc) / s)) := fun x => by
    rw [← PhiX_neg (by simp), neg_fin]
    congr 2
    ring
  have hid : ∀ x : ℝ, loc - (loc - x) = x := fun x => by ring
  cases low with
  | none =>
    cases high with
    | none => simp [loX, hiX, pd, nd, PhiX_pinf, PhiX_ninf, tnLogMass]
    | some b =>
      simp only [loX, hiX, ninf_sub_fin, nd, PhiX_ninf, sub_zero, sub_fin_fin, div_fin_of_ne _ hs.ne'] at hp ⊢
      simp only [tnLogMass]
      rw [normalCdf_eq hs, log_fin_pos hp]
  | some a =>
    cases high with
    | none =>
      simp only [loX, hiX, pinf_sub_fin, pd, PhiX_pinf, sub_fin_fin, div_fin_of_ne _ hs.ne'] at hp ⊢
      simp only [tnLogMass]
      rw [normalCdf_eq hs]
      by_cases hl : a ≤ loc
      · simp only [if_pos hl, sub_fin_fin, mul_fin_fin, one_mul, hid]
        rw [log_fin_pos hp]
      · simp only [if_neg hl, sub_fin_fin, mul_fin_fin]
        rw [hneg, show (-1 : ℝ) * (0 - (1 - PhiX (fin ((a - loc) / s)))) = 1 - PhiX (fin ((a - loc) / s)) by ring, log_fin_pos hp]
    | some b =>
      simp only [loX, hiX, sub_fin_fin, div_fin_of_ne _ hs.ne'] at hp ⊢
      simp only [tnLogMass]
      rw [normalCdf_eq hs, normalCdf_eq hs]
      by_cases hl : a ≤ loc
      · simp only [if_pos hl, sub_fin_fin, mul_fin_fin, one_mul, hid]
        rw [log_fin_pos hp]
      · simp only [if_neg hl, sub_fin_fin, mul_fin_fin]
        rw [hneg, hneg, show ∀ p q : ℝ, (-1 : ℝ) * (1 - p - (1 - q)) = p - q from fun p q => by ring, log_fin_pos hp]

theorem tnSupport_fin {low high : Option ℝ} {x : ℝ} : tnSupport low high (fin x) = true ↔ x ∈ bounds low high := by
  cases low <;> cases high <;> simp [tnSupport, bounds]

theorem integral_restricted {loc s : ℝ} {S : Set ℝ} (hS : MeasurableSet S) (hp : 0 < ∫ y in S, normalDensity loc s y) :
    ∫ x, restrictedNormal loc s S x = 1 := by
  have e : (fun x => restrictedNormal loc s S x) = S.indicator fun x => normalDensity loc s x / ∫ y in S, normalDensity loc s y := by
    funext x
    by_cases hx : x ∈ S
    · rw [Set.indicator_of_mem hx, restrictedNormal, if_pos hx]
    · rw [Set.indicator_of_notMem hx, restrictedNormal, if_neg hx]
  rw [e, integral_indicator hS, integral_div, div_self hp.ne']

theorem has_truncatedNormal {loc s : ℝ} (hs : 0 < s) {low high : Option ℝ} (h : lt (loX low) (hiX high)) (v : Bool) :
    Has (truncatedNormal loc s low high v) (restrictedNormal loc s (bounds low high)) where
  inside x hx := by
    have hx' : x ∈ bounds low high := tnSupport_fin.1 hx
    have hm := mass_pos (loc := loc) hs h
    have hn := normalDensity_pos (loc := loc) hs x
    refine ⟨by rw [restrictedNormal, if_pos hx']; positivity, ?_⟩
    rw [restrictedNormal, if_pos hx', Real.log_div hn.ne' hm.ne']
    simp only [truncatedNormal] at hx ⊢
    rw [hx, validated_of_true, normalLogProb_fin hs, tnLogMass_eq hs h, sub_fin_fin]
  outside x hx := by
    have : x ∉ bounds low high := by
      rw [← tnSupport_fin]
      simpa [truncatedNormal] using hx
    rw [restrictedNormal, if_neg this]
  integral := integral_restricted (measurableSet_bounds _ _) (mass_pos hs h)

/-! ## Event components -/

/-- An event component with density `p`. -/
structure HasN {n : Nat} (c : Comp n) (p : (Fin n → ℝ) → ℝ) : Prop where
  inside : ∀ x, c.support (fun i => fin (x i)) = true → 0 < p x ∧ c.logProb (fun i => fin (x i)) = fin (Real.log (p x))
  outside : ∀ x, c.support (fun i => fin (x i)) = false → p x = 0 ∧ (c.validate = true → c.logProb (fun i => fin (x i)) = ninf)
  integral : ∫ x, p x = 1

theorem sum_ofFn_fin {n : Nat} (f : Fin n → ℝ) : sum (List.ofFn fun i => fin (f i)) = fin (∑ i, f i) := by
  have : (List.ofFn fun i => fin (f i)) = (List.ofFn f).map fin := by rw [List.map_ofFn]; rfl
  rw [this, sum_map_fin, List.sum_ofFn]

theorem all_ofFn {n : Nat} (f : Fin n → Bool) : (List.ofFn f).all id = true ↔ ∀ i, f i = true := by
  simp [List.all_eq_true, List.mem_ofFn]

theorem has_independent {n : Nat} {d : Fin n → Dist1} {p : Fin n → ℝ → ℝ} (h : ∀ i, Has (d i) (p i)) (v : Bool) :
    HasN (independent d v) fun x => ∏ i, p i (x i) where
  inside x hx := by
    have hx' : ∀ i, (d i).support (fin (x i)) = true := (all_ofFn _).1 hx
    have hpos : ∀ i, 0 < p i (x i) := fun i => ((h i).inside _ (hx' i)).1
    refine ⟨Finset.prod_pos fun i _ => hpos i, ?_⟩
    simp only [independent] at hx ⊢
    rw [hx, validated_of_true, Real.log_prod (fun i _ => (hpos i).ne'), ← sum_ofFn_fin]
    congr 2
    funext i
    exact ((h i).inside _ (hx' i)).2
  outside x hx := by
    have hx' : ¬ ∀ i, (d i).support (fin (x i)) = true := by
      rw [← all_ofFn]
      simp only [independent] at hx
      rw [hx]; simp
    push Not at hx'
    obtain ⟨i, hi⟩ := hx'
    refine ⟨Finset.prod_eq_zero (Finset.mem_univ i) ((h i).outside _ (by simpa using hi)), fun hv => ?_⟩
    simp only [independent] at hx hv ⊢
    rw [hx, hv]
    simp [validated]
  integral := by
    rw [integral_fintype_prod_volume_eq_prod]
    exact Finset.prod_eq_one fun i _ => (h i).integral

theorem masked_log {n : Nat} {c : Comp n} {p : (Fin n → ℝ) → ℝ} (h : HasN c p) (x : Fin n → ℝ) :
    0 ≤ p x ∧ masked c (fun i => fin (x i)) = log (fin (p x)) := by
  cases hs : c.support (fun i => fin (x i)) with
  | true =>
    obtain ⟨h1, h2⟩ := h.inside x hs
    refine ⟨h1.le, ?_⟩
    rw [masked, hs, h2, select_true, log_fin_pos h1]
    simp
  | false =>
    obtain ⟨h1, h2⟩ := h.outside x hs
    refine ⟨h1.ge, ?_⟩
    rw [masked, hs, h1, log_fin_zero, select_false]
    split_ifs with hv
    · exact h2 hv
    · rfl

theorem log_add_log {a b : ℝ} (ha : 0 ≤ a) (hb : 0 ≤ b) : log (fin a) + log (fin b) = log (fin (a * b)) := by
  rcases ha.eq_or_lt with rfl | ha
  · rcases hb.eq_or_lt with rfl | hb
    · simp
    · simp [log_fin_pos hb]
  · rcases hb.eq_or_lt with rfl | hb
    · simp [log_fin_pos ha]
    · rw [log_fin_pos ha, log_fin_pos hb, log_fin_pos (mul_pos ha hb), add_fin_fin, Real.log_mul ha.ne' hb.ne']

theorem expR_log {a : ℝ} (ha : 0 ≤ a) : expR (log (fin a)) = a := by
  rcases ha.eq_or_lt with rfl | ha
  · simp
  · rw [log_fin_pos ha, expR_fin, Real.exp_log ha]

theorem log_sub_zero {a : ℝ} (ha : 0 ≤ a) : log (fin a) - fin 0 = log (fin a) := by
  rcases (isLog_log_sum ha).cases with h | ⟨b, h⟩ <;> rw [h]
  · rfl
  · simp

theorem mixture_log {n : Nat} {zeta : ℝ} (h0 : 0 ≤ zeta) (h1 : zeta ≤ 1) {c1 c2 : Comp n} {p1 p2 : (Fin n → ℝ) → ℝ} (H1 : HasN c1 p1) (H2 : HasN c2 p2)
    {support : (Fin n → XR) → Bool} (hs : ∀ x : Fin n → ℝ, support (fun i => fin (x i)) = (c1.support (fun i => fin (x i)) || c2.support fun i => fin (x i)))
    (v : Bool) (x : Fin n → ℝ) :
    mixture zeta c1 c2 support v (fun i => fin (x i)) = log (fin ((1 - zeta) * p1 x + zeta * p2 x)) := by
  obtain ⟨n1, e1⟩ := masked_log H1 x
  obtain ⟨n2, e2⟩ := masked_log H2 x
  have hz : 0 ≤ 1 - zeta := by linarith
  have hlse : logsumexp [log (fin (1 - zeta)), log (fin zeta)] = fin 0 := by
    rw [logsumexp_eq _ (by simp [isLog_log_sum h0, isLog_log_sum hz])]
    simp only [List.map_cons, List.map_nil, List.sum_cons, List.sum_nil, expR_log h0, expR_log hz]
    simp
  have hlog : ∀ a : ℝ, (if (log (fin a)).isNegInf then ninf else log (fin a)) = log (fin a) := fun a => by
    split_ifs with h
    · rw [(isNegInf_iff _).1 h]
    · rfl
  have key : logsumexp ((List.zipWith (· + ·) (logSoftmax [log (fin (1 - zeta)), log (fin zeta)]) [masked c1 fun i => fin (x i), masked c2 fun i => fin (x i)]).map
      fun t => if t.isNegInf then ninf else t) = log (fin ((1 - zeta) * p1 x + zeta * p2 x)) := by
    simp only [logSoftmax, hlse, List.map_cons, List.map_nil, log_sub_zero h0, log_sub_zero hz, e1, e2, List.zipWith_cons_cons, List.zipWith_nil_left,
      log_add_log hz n1, log_add_log h0 n2, hlog]
    rw [logsumexp_eq _ (by simp [isLog_log_sum (mul_nonneg hz n1), isLog_log_sum (mul_nonneg h0 n2)])]
    simp only [List.map_cons, List.map_nil, List.sum_cons, List.sum_nil, expR_log (mul_nonneg hz n1), expR_log (mul_nonneg h0 n2), add_zero]
  simp only [mixture]
  rw [key, hs]
  cases hv : (c1.support (fun i => fin (x i)) || c2.support fun i => fin (x i)) with
  | true => exact validated_of_true _ _
  | false =>
    rw [Bool.or_eq_false_iff] at hv
    rw [(H1.outside x hv.1).1, (H2.outside x hv.2).1]
    cases v <;> simp [validated]

theorem integral_mix {n : Nat} (zeta : ℝ) {p1 p2 : (Fin n → ℝ) → ℝ} (h1 : ∫ x, p1 x = 1) (h2 : ∫ x, p2 x = 1) :
    ∫ x, ((1 - zeta) * p1 x + zeta * p2 x) = 1 := by
  have i1 : Integrable p1 := by
    by_contra h
    rw [integral_undef h] at h1
    norm_num at h1
  have i2 : Integrable p2 := by
    by_contra h
    rw [integral_undef h] at h2
    norm_num at h2
  rw [integral_add (i1.const_mul _) (i2.const_mul _), integral_const_mul, integral_const_mul, h1, h2]
  ring

/-! ## The skew normal -/

theorem logGaussMass_fin {a b : ℝ} (h : a < b) : logGaussMass (fin a) (fin b) = fin (Real.log (PhiX (fin b) - PhiX (fin a))) := by
  have hlt : PhiX (fin a) < PhiX (fin b) := PhiX_lt h
  have hexp : ∀ p : ℝ, 0 ≤ p → exp (log (fin p)) = fin p := fun p hp => by
    rcases hp.eq_or_lt with rfl | hp
    · simp
    · rw [log_fin_pos hp, exp_fin, Real.exp_log hp]
  unfold logGaussMass
  split_ifs with c1 c2
  · rw [logDiff, logNdtr, logNdtr, ndtr_eq (by simp), ndtr_eq (by simp), hexp _ (PhiX_nonneg _), hexp _ (PhiX_nonneg _), sub_fin_fin, log_fin_pos (by linarith)]
  · rw [logDiff, logNdtr, logNdtr, ndtr_eq (by simp), ndtr_eq (by simp), hexp _ (PhiX_nonneg _), hexp _ (PhiX_nonneg _), sub_fin_fin,
      PhiX_neg (by simp), PhiX_neg (by simp), log_fin_pos (by linarith)]
    congr 2
    ring
  · rw [ndtr_eq (by simp), ndtr_eq (by simp), PhiX_neg (by simp), neg_fin, sub_fin_fin, log1p_fin (by linarith)]
    congr 2
    ring

/-- The value of `exp(truncnorm.logcdf)` where the standardised argument is zero. -/
noncomputable def cdfAtZero (a b : ℝ) : ℝ :=
  if b ≤ 0 then 1 else if 0 ≤ a then 0 else (PhiX (fin 0) - PhiX (fin a)) / (PhiX (fin b) - PhiX (fin a))

theorem exp_truncnormLogcdf {loc s a b : ℝ} (hs : 0 < s) (h : a < b) :
    exp (truncnormLogcdf (fin loc) (fin a) (fin b) (fin loc) (fin s)) = fin (cdfAtZero a b) := by
  have hlt : PhiX (fin a) < PhiX (fin b) := PhiX_lt h
  simp only [truncnormLogcdf, sub_fin_fin, sub_self, div_fin_of_ne _ hs.ne', zero_div, cdfAtZero]
  rw [show decide (le (fin b) (fin a)) = false by simp [h], select_false]
  by_cases hb : b ≤ 0
  · rw [if_pos hb, show decide (le (fin b) (fin 0)) = true by simp [hb], select_true]
    simp
  rw [if_neg hb, show decide (le (fin b) (fin 0)) = false by simpa using hb, select_false]
  by_cases ha : 0 ≤ a
  · rw [if_pos ha, show decide (le (fin 0) (fin a)) = true by simp [ha], select_true]
    simp
  rw [if_neg ha, show decide (le (fin 0) (fin a)) = false by simpa using ha, select_false]
  push Not at ha hb
  have l1 : PhiX (fin a) < PhiX (fin 0) := PhiX_lt ha
  have l2 : PhiX (fin 0) < PhiX (fin b) := PhiX_lt hb
  rw [logGaussMass_fin ha, logGaussMass_fin hb, logGaussMass_fin h, sub_fin_fin, sub_fin_fin, exp_fin, Real.exp_sub, Real.exp_log (by linarith),
    Real.exp_log (by linarith), show decide (lt (fin a) (fin 0)) = true by simp [ha], select_true]
  have hd : 0 < PhiX (fin b) - PhiX (fin a) := by linarith
  have key : 1 + -((PhiX (fin b) - PhiX (fin 0)) / (PhiX (fin b) - PhiX (fin a))) = (PhiX (fin 0) - PhiX (fin a)) / (PhiX (fin b) - PhiX (fin a)) := by
    field_simp
    ring
  have hq : 0 < (PhiX (fin 0) - PhiX (fin a)) / (PhiX (fin b) - PhiX (fin a)) := div_pos (by linarith) hd
  cases decide (lt (fin (-1 / 10)) (fin (Real.log (PhiX (fin 0) - PhiX (fin a)) - Real.log (PhiX (fin b) - PhiX (fin a))))) with
  | true =>
    rw [select_true, neg_fin, log1p_fin (by rw [key]; exact hq), key, exp_fin, Real.exp_log hq]
  | false =>
    rw [select_false, exp_fin, Real.exp_sub, Real.exp_log (by linarith), Real.exp_log hd]

theorem cdfAtZero_neg {a b : ℝ} (h : a < b) : cdfAtZero (-b) (-a) = 1 - cdfAtZero a b := by
  have hlt : PhiX (fin a) < PhiX (fin b) := PhiX_lt h
  have e : ∀ x : ℝ, PhiX (fin (-x)) = 1 - PhiX (fin x) := fun x => by rw [← neg_fin, PhiX_neg (by simp)]
  have e0 : PhiX (fin 0) = 1 - PhiX (fin 0) := by
    have := e 0
    rwa [neg_zero] at this
  unfold cdfAtZero
  by_cases h1 : b ≤ 0
  · rw [if_neg (by linarith : ¬ -a ≤ 0), if_pos (by linarith : 0 ≤ -b), if_pos h1]; simp
  · by_cases h2 : 0 ≤ a
    · rw [if_pos (by linarith : -a ≤ 0), if_neg h1, if_pos h2]; simp
    · rw [if_neg (by linarith : ¬ -a ≤ 0), if_neg (by linarith : ¬ 0 ≤ -b), if_neg h1, if_neg h2, e, e]
      have hd : PhiX (fin b) - PhiX (fin a) ≠ 0 := by linarith
      have hd' : 1 - PhiX (fin a) - (1 - PhiX (fin b)) ≠ 0 := by intro h; apply hd; linarith
      rw [eq_sub_iff_add_eq, show 1 - PhiX (fin a) - (1 - PhiX (fin b)) = PhiX (fin b) - PhiX (fin a) by ring, ← add_div, div_eq_one_iff_eq hd]
      linarith

theorem lt_icc : lt (loX (some (-1 : ℝ))) (hiX (some (1 : ℝ))) := by simp [loX, hiX]

theorem integrable_restricted (loc s : ℝ) : Integrable (restrictedNormal loc s (Set.Icc (-1) 1)) := by
  have e : restrictedNormal loc s (Set.Icc (-1) 1) =
      (Set.Icc (-1) 1 : Set ℝ).indicator fun x => normalDensity loc s x / ∫ y in Set.Icc (-1) 1, normalDensity loc s y := by
    funext x
    by_cases hx : x ∈ Set.Icc (-1 : ℝ) 1
    · rw [Set.indicator_of_mem hx, restrictedNormal, if_pos hx]
    · rw [Set.indicator_of_notMem hx, restrictedNormal, if_neg hx]
  rw [e]
  exact ((integrable_normalDensity loc s).div_const _).indicator measurableSet_Icc

/-- The part of the restricted normal below its location is the truncated distribution function there. -/
theorem integral_below {loc s : ℝ} (hs : 0 < s) :
    ∫ y in Set.Iic loc, restrictedNormal loc s (Set.Icc (-1) 1) y = cdfAtZero (-(1 + loc) / s) ((1 - loc) / s) := by
  have h1 := mass_eq (loc := loc) hs lt_icc
  have hp := mass_pos (loc := loc) hs lt_icc
  have htot := integral_restricted (loc := loc) (s := s) (measurableSet_Icc (a := (-1 : ℝ)) (b := 1)) hp
  simp only [bounds, loX, hiX, sub_fin_fin, div_fin_of_ne _ hs.ne'] at h1 hp
  unfold cdfAtZero
  by_cases hb : (1 - loc) / s ≤ 0
  · rw [if_pos hb]
    have hl : 1 ≤ loc := by
      rw [div_le_iff₀ hs] at hb; linarith
    refine Eq.trans ?_ htot
    rw [← integral_indicator measurableSet_Iic]
    congr 1
    funext x
    by_cases hx : x ∈ Set.Iic loc
    · rw [Set.indicator_of_mem hx]
    · rw [Set.indicator_of_notMem hx, restrictedNormal, if_neg]
      intro h
      exact hx (h.2.trans hl)
  rw [if_neg hb]
  have hl : loc < 1 := by
    by_contra h
    apply hb
    rw [div_le_iff₀ hs]; linarith
  by_cases ha : 0 ≤ -(1 + loc) / s
  · rw [if_pos ha]
    have hl2 : loc ≤ -1 := by
      rw [le_div_iff₀ hs] at ha; linarith
    have : ∀ᵐ y ∂(volume.restrict (Set.Iic loc)), restrictedNormal loc s (Set.Icc (-1) 1) y = 0 := by
      rw [ae_restrict_iff' measurableSet_Iic]
      have hne : ∀ᵐ y : ℝ, y ≠ -1 := by simp [ae_iff]
      filter_upwards [hne] with y hy hyl
      rw [restrictedNormal, if_neg]
      intro h
      exact hy (le_antisymm (le_trans hyl hl2) h.1)
    rw [integral_congr_ae this]
    simp
  rw [if_neg ha]
  have hl2 : -1 < loc := by
    by_contra h
    apply ha
    rw [le_div_iff₀ hs]; linarith
  have e : ∫ y in Set.Iic loc, restrictedNormal loc s (Set.Icc (-1) 1) y =
      ∫ y in Set.Icc (-1) loc, normalDensity loc s y / ∫ z in Set.Icc (-1) 1, normalDensity loc s z := by
    rw [← integral_indicator measurableSet_Iic, ← integral_indicator measurableSet_Icc]
    congr 1
    funext x
    by_cases hx : x ∈ Set.Icc (-1 : ℝ) loc
    · rw [Set.indicator_of_mem hx, Set.indicator_of_mem (show x ∈ Set.Iic loc from hx.2), restrictedNormal, if_pos ⟨hx.1, hx.2.trans hl.le⟩]
    · rw [Set.indicator_of_notMem hx]
      by_cases hx2 : x ∈ Set.Iic loc
      · rw [Set.indicator_of_mem hx2, restrictedNormal, if_neg]
        intro h
        exact hx ⟨h.1, hx2⟩
      · rw [Set.indicator_of_notMem hx2]
  have h2 := mass_eq (loc := loc) (low := some (-1)) (high := some loc) hs (by simpa [loX, hiX] using hl2)
  simp only [bounds, loX, hiX, sub_fin_fin, div_fin_of_ne _ hs.ne', sub_self, zero_div] at h2
  rw [e, integral_div, h2, h1, show (-1 - loc) / s = -(1 + loc) / s by ring]

end GW.Spin
