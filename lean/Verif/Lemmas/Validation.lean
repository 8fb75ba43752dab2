import Verif.Props.Smoothed
import Verif.Props.MultiSpin

/-! The mass models with argument validation on and off. -/

namespace GW
open GW XR GW.Num

theorem XR.eq_of_log {x y : XR} (hx : IsLog x) (hy : IsLog y) (h : expR x = expR y) : x = y := by
  rcases hx.cases with rfl | ⟨a, rfl⟩ <;> rcases hy.cases with rfl | ⟨b, rfl⟩
  · rfl
  · exact absurd h (Real.exp_pos b).ne
  · exact absurd h (Real.exp_pos a).ne'
  · simp only [expR_fin, Real.exp_eq_exp] at h
    rw [h]

namespace Mass
open GW.PowerLaw GW.Constraints
open scoped Classical

theorem zqTable_congr' {f g : XR → XR → XR} {ms qs : List XR} (h : ∀ m ∈ ms, ∀ q ∈ qs, f m q = g m q) : zqTable f ms qs = zqTable g ms qs := by
  unfold zqTable
  apply List.map_congr_left
  intro m hm
  have : (qs.map fun q => exp (f m q)) = qs.map fun q => exp (g m q) := List.map_congr_left fun q hq => by rw [h m hm q hq]
  rw [this]

theorem zqTable_congr {f g : XR → XR → XR} {lo hi : ℝ} (h : lo ≤ hi) (hfg : ∀ m q : ℝ, lo ≤ m → m ≤ hi → 0 < q → q ≤ 1 → f (fin m) (fin q) = g (fin m) (fin q)) :
    zqTable f (linspace lo hi 1000) (linspace 0.005 1 500) = zqTable g (linspace lo hi 1000) (linspace 0.005 1 500) := by
  apply zqTable_congr'
  intro m hm q hq
  rw [linspace_eq] at hm hq
  obtain ⟨m', hm', rfl⟩ := List.mem_map.1 hm
  obtain ⟨m1, m2⟩ := linR_mem_Icc h (by norm_num) hm'
  obtain ⟨q', hq', rfl⟩ := List.mem_map.1 hq
  obtain ⟨q1, q2⟩ := linR_mem_Icc (by norm_num) (by norm_num) hq'
  exact hfg m' q' m1 m2 (by linarith) q2

theorem TwoComponent.qUnnorm_validate (d : TwoComponent) (h0 : 0 < d.mmin) (hd : 0 < d.delta) (v : Bool) {m q : ℝ} (h1 : d.mmin ≤ m) (h2 : m ≤ d.mmax) (hq : 0 < q) (hq1 : q ≤ 1) :
    ({ d with validate := v } : TwoComponent).qUnnorm (fin m) (fin q) = d.qUnnorm (fin m) (fin q) := by
  have key : ∀ b : Bool, ({ d with validate := b } : TwoComponent).qUnnorm (fin m) (fin q) =
      fin d.beta * log (fin q) + logPlanck ((fin m * fin q - fin d.mmin) / fin (safeWidth d.delta)) := by
    intro b
    have hq' := qpart (beta := d.beta) (lo := d.mmin) (m := m) hd hq
    simp only [TwoComponent.qUnnorm, decide_eq_false (not_le.2 hd), select_false, validated]
    cases b with
    | false => rfl
    | true =>
      cases hs : (TwoComponent.support { d with validate := true } (fin m) (fin q)) with
      | true => rfl
      | false =>
        rw [if_pos rfl, select_false]
        refine XR.eq_of_log isLog_ninf hq'.1 ?_
        rw [hq'.2, planck_zero hd (light_of_not h0 h1 h2 hq1 hs)]
        simp
  rw [key v, ← key d.validate]

/-- On its support the log density of the power law plus peak does not depend on argument validation. -/
theorem TwoComponent.logProb_validate (d : TwoComponent) (h0 : 0 < d.mmin) (hd : 0 < d.delta) (hmax : d.mmin < d.mmax) (v : Bool) {m q : XR} (hs : d.support m q = true) :
    ({ d with validate := v } : TwoComponent).logProb m q = d.logProb m q := by
  have hz : ({ d with validate := v } : TwoComponent).zq = d.zq := zqTable_congr hmax.le fun m q a b c e => d.qUnnorm_validate h0 hd v a b c e
  have hs' : ({ d with validate := v } : TwoComponent).support m q = true := hs
  have hq : ({ d with validate := v } : TwoComponent).qUnnorm m q = d.qUnnorm m q := by
    simp only [TwoComponent.qUnnorm, validated, hs, hs', select_true, ite_self]
  simp only [TwoComponent.logProb, validated, hs, hs', select_true, ite_self, hz, hq]
  rfl

theorem TwoPeak.qUnnorm_validate {d : TwoPeak} (h : d.Proper) (v : Bool) {m q : ℝ} (h1 : d.m2min ≤ m) (h2 : m ≤ d.mmax) (hq1 : q ≤ 1) :
    ({ d with validate := v } : TwoPeak).qUnnorm (fin m) (fin q) = d.qUnnorm (fin m) (fin q) := by
  have key : ∀ b : Bool, ({ d with validate := b } : TwoPeak).qUnnorm (fin m) (fin q) = ({ d with validate := false } : TwoPeak).qUnnorm (fin m) (fin q) := by
    intro b
    cases b with
    | false => rfl
    | true =>
      cases hs : (TwoPeak.support { d with validate := true } (fin m) (fin q)) with
      | true =>
        have hs' : (TwoPeak.support { d with validate := false } (fin m) (fin q)) = true := hs
        simp only [TwoPeak.qUnnorm, validated, hs, hs', select_true, ite_self]
      | false =>
        have hle := light_of_not h.m2 h1 h2 hq1 hs
        have hm : 0 < m := h.m2.trans_le h1
        have hlt : m * q < d.m2min := by
          refine lt_of_le_of_ne hle fun e => ?_
          have : (TwoPeak.support { d with validate := true } (fin m) (fin q)) = true := by
            rw [TwoPeak.support, accepts_iff, C19_ratio_iff]
            exact ⟨h.m2, h1, h2, (div_le_iff₀ hm).2 (by linarith), hq1⟩
          rw [this] at hs
          exact absurd hs (by simp)
        have e : decide (lt (fin m * fin q) (fin d.m2min)) = true := by
          rw [mul_fin_fin]
          simpa using hlt
        simp only [TwoPeak.qUnnorm, validated, hs, select_false, if_true, Bool.false_eq_true, if_false, e, Bool.or_true, select_true]
  rw [key v, ← key d.validate]

/-- On its support the log density of the broken power law with two peaks does not depend on argument validation. -/
theorem TwoPeak.logProb_validate {d : TwoPeak} (h : d.Proper) (v : Bool) {m q : XR} (hs : d.support m q = true) :
    ({ d with validate := v } : TwoPeak).logProb m q = d.logProb m q := by
  have hz : ({ d with validate := v } : TwoPeak).zq = d.zq := zqTable_congr h.m2max.le fun m q a b _ e => TwoPeak.qUnnorm_validate h v a b e
  have hs' : ({ d with validate := v } : TwoPeak).support m q = true := hs
  have hq : ({ d with validate := v } : TwoPeak).qUnnorm m q = d.qUnnorm m q := by
    simp only [TwoPeak.qUnnorm, validated, hs, hs', select_true, ite_self]
  simp only [TwoPeak.logProb, validated, hs, hs', select_true, ite_self, hz, hq]
  rfl

theorem AndRest.logZq_fin (d : AndRest) (Z : ℝ) (h : d.Proper Z) (m : ℝ) : ∃ w, logZq (interp (fin m) d.m1s d.zq (fin 0) (fin 0)) = fin w := by
  by_cases h1 : m < d.m1min
  · exact ⟨0, by rw [AndRest.m1s, interp_left (by norm_num) h.max (show lt (fin m) (fin d.m1min) from h1), logZq_zero]⟩
  · by_cases h2 : d.m1max < m
    · exact ⟨0, by rw [AndRest.m1s, interp_right (by norm_num) (show lt (fin d.m1max) (fin m) from h2), logZq_zero]⟩
    · push Not at h1 h2
      by_cases hd2 : 0 < d.delta2
      · obtain ⟨v, -, -, c⟩ := logZq_interp (lq := d.qUnnorm) (R := d.ratio) h.max (fun m _ b q hq hq1 => by
          have := d.q_spec h.m2 hd2 (m := m) hq.le hq1
          rwa [if_pos b] at this) h1 h2 (fin 0) (fin 0)
        exact ⟨_, c⟩
      · have eq : ∀ m q, d.qUnnorm m q = ninf := by
          intro m q
          simp only [AndRest.qUnnorm, decide_eq_true (not_lt.1 hd2), Bool.true_or, select_true]
        obtain ⟨v, -, -, c⟩ := logZq_interp (lq := d.qUnnorm) (R := fun _ _ => 0) h.max (fun m _ _ q _ _ => by rw [eq]; exact ⟨isLog_ninf, rfl⟩) h1 h2 (fin 0) (fin 0)
        exact ⟨_, c⟩

/-- The mass-ratio part is never NaN or `+inf`, and is `-inf` for a ratio outside the unit interval. -/
theorem AndRest.q_log (d : AndRest) (h2 : 0 < d.m2min) (m q : ℝ) :
    IsLog (d.qUnnorm (fin m) (fin q)) ∧ (¬ (0 ≤ q ∧ q ≤ 1) → d.qUnnorm (fin m) (fin q) = ninf) := by
  by_cases hd2 : 0 < d.delta2
  swap
  · have : d.qUnnorm (fin m) (fin q) = ninf := by simp only [AndRest.qUnnorm, decide_eq_true (not_lt.1 hd2), Bool.true_or, select_true]
    rw [this]
    exact ⟨isLog_ninf, fun _ => rfl⟩
  by_cases hq : 0 ≤ q ∧ q ≤ 1
  · exact ⟨(d.q_spec h2 hd2 hq.1 hq.2).1, fun hn => absurd hq hn⟩
  · have : d.qUnnorm (fin m) (fin q) = ninf := by
      have key : m * q < d.m2min ∨ m < m * q := by
        by_contra hc
        push Not at hc hq
        obtain ⟨c1, c2⟩ := hc
        rcases lt_or_ge q 0 with h | h
        · have : m < 0 := by
            by_contra hm
            push Not at hm
            nlinarith
          linarith
        · have h1 := hq h
          have : 0 < m := by
            by_contra hm
            push Not at hm
            nlinarith
          nlinarith
      rcases key with k | k
      · have : decide (lt (fin m * fin q) (fin d.m2min)) = true := by
          rw [mul_fin_fin]
          simpa using k
        simp only [AndRest.qUnnorm, this, Bool.or_true, Bool.true_or, select_true]
      · have : decide (lt (fin m) (fin m * fin q)) = true := by
          rw [mul_fin_fin]
          simpa using k
        simp only [AndRest.qUnnorm, this, Bool.or_true, Bool.true_or, select_true]
    rw [this]
    exact ⟨isLog_ninf, fun _ => rfl⟩

end Mass

/-- On its support the log density of the mass and spin model does not depend on argument validation. -/
theorem MultiSpin.Model.logProb_validate (d : MultiSpin.Model) (v : Bool) {m q a1 a2 t1 t2 : XR} (hs : d.support m q a1 a2 t1 t2 = true) :
    ({ d with mass := { d.mass with validate := v } } : MultiSpin.Model).logProb m q a1 a2 t1 t2 = d.logProb m q a1 a2 t1 t2 := by
  have hs' : ({ d with mass := { d.mass with validate := v } } : MultiSpin.Model).support m q a1 a2 t1 t2 = true := hs
  simp only [MultiSpin.Model.logProb, Mass.validated, hs, hs', select_true, ite_self]
  rfl

end GW
