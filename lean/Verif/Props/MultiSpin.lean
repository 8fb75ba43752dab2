import Verif.Lemmas.MultiSpin

/-!
# C62: masses and spins per component

`BrokenPowerlawTwoPeakMultiSpinMultiTilt` must be the `BrokenPowerlawTwoPeak` mass model whose four parts carry their own spin distributions.
-/

namespace GW.MultiSpin
open GW XR GW.PowerLaw GW.Constraints GW.Num GW.Mass ProbabilityTheory MeasureTheory
open GW.MultiSpin.Spec
open scoped Classical

/-- The spin density of one component. -/
noncomputable def Spins.density (s : Spins) (a1 a2 t1 t2 : ℝ) : ℝ :=
  cutNormal s.a1.loc s.a1.scale s.a1.low s.a1.high a1 * cutNormal s.a2.loc s.a2.scale s.a2.low s.a2.high a2 *
    tilts s.zeta s.tilt1Loc s.tilt1Scale s.tilt2Loc s.tilt2Scale t1 t2

/-- What the spin parameters of one component must satisfy. -/
structure Spins.Proper (s : Spins) : Prop where
  a1s : 0 < s.a1.scale
  a1 : s.a1.low < s.a1.high
  a2s : 0 < s.a2.scale
  a2 : s.a2.low < s.a2.high
  z0 : 0 ≤ s.zeta
  z1 : s.zeta ≤ 1
  t1 : 0 < s.tilt1Scale
  t2 : 0 < s.tilt2Scale

/-- The spins of the four mass parts. -/
def Model.spins (d : Model) : Fin 4 → Spins := ![d.bpl1, d.bpl2, d.n1, d.n2]

/-- The parameters are in range and arguments are validated. -/
structure Model.Proper (d : Model) : Prop where
  mass : d.mass.Proper
  spins : ∀ k, (d.spins k).Proper
  validate : d.mass.validate = true

/-- The spin density of a binary of primary mass `m`: each part of the mass spectrum with its share of the mass density at `m`. -/
noncomputable def Model.spinDensity (d : Model) (m a1 a2 t1 t2 : ℝ) : ℝ := ∑ k, massPart d.mass m k / d.mass.mixture m * (d.spins k).density a1 a2 t1 t2

theorem inside_iff {lo hi x : ℝ} : Model.inside lo hi (fin x) = true ↔ lo ≤ x ∧ x ≤ hi := by simp [Model.inside]

theorem inside_fin {lo hi : ℝ} {x : XR} (h : Model.inside lo hi x = true) : ∃ y : ℝ, x = fin y := by
  simp only [Model.inside, Bool.and_eq_true, decide_eq_true_eq] at h
  cases x with
  | fin a => exact ⟨a, rfl⟩
  | nan => exact absurd h.1 id
  | pinf => exact absurd h.2 id
  | ninf => exact absurd h.1 id

theorem tilt_spec {s : Spins} (h : s.Proper) {t1 t2 : ℝ} (h1 : -1 ≤ t1 ∧ t1 ≤ 1) (h2 : -1 ≤ t2 ∧ t2 ≤ 1) :
    IsLog (logaddexp (log (fin s.zeta) + truncnormLogpdf (fin t1) s.tilt1Loc s.tilt1Scale (fin (-1)) (fin 1) + truncnormLogpdf (fin t2) s.tilt2Loc s.tilt2Scale (fin (-1)) (fin 1))
      (log1p (-(fin s.zeta)) + log (fin 0.25))) ∧
    expR (logaddexp (log (fin s.zeta) + truncnormLogpdf (fin t1) s.tilt1Loc s.tilt1Scale (fin (-1)) (fin 1) + truncnormLogpdf (fin t2) s.tilt2Loc s.tilt2Scale (fin (-1)) (fin 1))
      (log1p (-(fin s.zeta)) + log (fin 0.25))) = tilts s.zeta s.tilt1Loc s.tilt1Scale s.tilt2Loc s.tilt2Scale t1 t2 := by
  have a := cut_spec (loc := s.tilt1Loc) (lo := -1) (hi := 1) h.t1 (by norm_num) t1
  have b := cut_spec (loc := s.tilt2Loc) (lo := -1) (hi := 1) h.t2 (by norm_num) t2
  have l := log_spec h.z0
  have u := log1p_spec h.z1
  have q := log_spec (x := 0.25) (by norm_num)
  have p1 : 0 < cutNormal s.tilt1Loc s.tilt1Scale (-1) 1 t1 := by
    rw [cutNormal, if_pos h1]
    exact (truncGauss_spec h.t1 h1.1 h1.2 (by norm_num)).2
  have p2 : 0 < cutNormal s.tilt2Loc s.tilt2Scale (-1) 1 t2 := by
    rw [cutNormal, if_pos h2]
    exact (truncGauss_spec h.t2 h2.1 h2.2 (by norm_num)).2
  have e1 : expR (log (fin s.zeta) + truncnormLogpdf (fin t1) s.tilt1Loc s.tilt1Scale (fin (-1)) (fin 1) + truncnormLogpdf (fin t2) s.tilt2Loc s.tilt2Scale (fin (-1)) (fin 1))
      + expR (log1p (-(fin s.zeta)) + log (fin 0.25)) = tilts s.zeta s.tilt1Loc s.tilt1Scale s.tilt2Loc s.tilt2Scale t1 t2 := by
    rw [expR_add (l.1.add a.1) b.1, expR_add l.1 a.1, expR_add u.1 q.1, l.2, a.2, b.2, u.2, q.2, tilts, if_pos ⟨h1, h2⟩]
    norm_num
    ring
  have pos : 0 < tilts s.zeta s.tilt1Loc s.tilt1Scale s.tilt2Loc s.tilt2Scale t1 t2 := by
    rw [tilts, if_pos ⟨h1, h2⟩]
    rcases h.z0.eq_or_lt with z | z
    · rw [← z]
      norm_num
    · have : 0 ≤ 1 - s.zeta := by linarith [h.z1]
      positivity
  rw [logaddexp_log ((l.1.add a.1).add b.1) (u.1.add q.1) (by rw [e1]; exact pos), e1]
  exact ⟨isLog_fin _, by rw [expR_fin, Real.exp_log pos]⟩

/-- The log density on the support. -/
theorem on_support {d : Model} (h : d.Proper) {m q a1 a2 t1 t2 : ℝ} (hs : (Leaf.massRatioSandwich d.mass.m2min d.mass.mmax).check [fin m, fin q] = .ok true)
    (h1 : -1 ≤ t1 ∧ t1 ≤ 1) (h2 : -1 ≤ t2 ∧ t2 ≤ 1) {lp : XR}
    (hlp : lp = logsumexpWhere ((List.zipWith (· + ·) (List.zipWith (· + ·) (List.zipWith (· + ·) (d.m1Components (fin m)) (d.a1Components (fin a1))) (d.a2Components (fin a2))) (d.tiltComponents (fin t1) (fin t2))).map fun c => (c, !c.isNegInf))) :
    IsLog (lp + (d.qUnnorm (fin m) (fin q) - logZq (interp (fin m) d.m1s d.zq (fin 1) (fin 1))) - d.logZ) ∧
    expR (lp + (d.qUnnorm (fin m) (fin q) - logZq (interp (fin m) d.m1s d.zq (fin 1) (fin 1))) - d.logZ) = expR (d.mass.logProb (fin m) (fin q)) * d.spinDensity m a1 a2 t1 t2 := by
  obtain ⟨hm2, g1, g2, g3, g4⟩ := (C19_ratio_iff _ _ _ _).1 hs
  have hm0 : 0 < m := h.mass.m2.trans_le g1
  have hq : 0 < q := lt_of_lt_of_le (by positivity) g3
  have hsup : d.mass.support (fin m) (fin q) = true := (accepts_iff _ _).2 hs
  obtain ⟨c, ec, hl, hlow, hx⟩ := m1Components_spec h.mass g2
  have A : ∀ k, _ := fun k => cut_spec (loc := (d.spins k).a1.loc) (h.spins k).a1s (h.spins k).a1 a1
  have B : ∀ k, _ := fun k => cut_spec (loc := (d.spins k).a2.loc) (h.spins k).a2s (h.spins k).a2 a2
  have T : ∀ k, _ := fun k => tilt_spec (h.spins k) h1 h2
  set W : Fin 4 → XR := fun k => c k + truncnormLogpdf (fin a1) (d.spins k).a1.loc (d.spins k).a1.scale (fin (d.spins k).a1.low) (fin (d.spins k).a1.high) +
    truncnormLogpdf (fin a2) (d.spins k).a2.loc (d.spins k).a2.scale (fin (d.spins k).a2.low) (fin (d.spins k).a2.high) +
    logaddexp (log (fin (d.spins k).zeta) + truncnormLogpdf (fin t1) (d.spins k).tilt1Loc (d.spins k).tilt1Scale (fin (-1)) (fin 1) +
      truncnormLogpdf (fin t2) (d.spins k).tilt2Loc (d.spins k).tilt2Scale (fin (-1)) (fin 1)) (log1p (-(fin (d.spins k).zeta)) + log (fin 0.25)) with hW
  have eW : List.zipWith (· + ·) (List.zipWith (· + ·) (List.zipWith (· + ·) (d.m1Components (fin m)) (d.a1Components (fin a1))) (d.a2Components (fin a2))) (d.tiltComponents (fin t1) (fin t2))
      = [W 0, W 1, W 2, W 3] := by
    rw [ec]
    rfl
  have lW : ∀ k, IsLog (W k) := fun k => (((hl k).add (A k).1).add (B k).1).add (T k).1
  have xW : ∀ k, expR (W k) = expR (c k) * (d.spins k).density a1 a2 t1 t2 := by
    intro k
    rw [hW]
    simp only
    rw [expR_add (((hl k).add (A k).1).add (B k).1) (T k).1, expR_add ((hl k).add (A k).1) (B k).1, expR_add (hl k) (A k).1, (A k).2, (B k).2, (T k).2, Spins.density]
    ring
  have hlp' : lp = log (fin (∑ k, expR (c k) * (d.spins k).density a1 a2 t1 t2)) := by
    rw [hlp, eW, lse_finite _ (by
      intro x hx
      simp only [List.mem_cons, List.not_mem_nil, or_false] at hx
      rcases hx with rfl | rfl | rfl | rfl <;> exact lW _)]
    simp only [List.map_cons, List.map_nil, List.sum_cons, List.sum_nil, xW, Fin.sum_univ_four]
    congr 2
    ring
  have nn : 0 ≤ ∑ k, expR (c k) * (d.spins k).density a1 a2 t1 t2 := by
    apply Finset.sum_nonneg
    intro k _
    rw [← xW]
    exact expR_nonneg _
  have L := log_spec nn
  rw [← hlp'] at L
  have Z := TwoPeak.logZ_eq h.mass
  have Q := TwoPeak.qUnnorm_spec h.mass h.validate m g1 g2 q hq g4
  obtain ⟨v, -, -, hz⟩ := logZq_interp (lq := d.mass.qUnnorm) (R := d.mass.ratio) h.mass.m2max (TwoPeak.qUnnorm_spec h.mass h.validate) g1 g2 (fin 1) (fin 1)
  have hz' : logZq (interp (fin m) d.mass.m1s d.mass.zq (fin 1) (fin 1)) = fin (Real.log (if v ≤ 0 then 1 else v)) := hz
  have em : d.m1s = d.mass.m1s := rfl
  rw [em, zq_same h.mass h.validate, hz', logZ_same h.mass, Z.2, qUnnorm_same h.mass h.validate g1 g2 g4]
  have s1 := IsLog.sub_fin Q.1 (Real.log (if v ≤ 0 then 1 else v))
  refine ⟨IsLog.sub_fin (L.1.add s1) _, ?_⟩
  have U := TwoPeak.m1Unnorm_spec h.mass g2
  have s2 := IsLog.sub_fin U.1 (Real.log (trapz d.mass.smooth d.mass.m1min d.mass.mmax 1000))
  have eL : d.mass.logProb (fin m) (fin q) = (d.mass.m1Unnorm (fin m) - fin (Real.log (trapz d.mass.smooth d.mass.m1min d.mass.mmax 1000))) +
      (d.mass.qUnnorm (fin m) (fin q) - fin (Real.log (if v ≤ 0 then 1 else v))) := by
    simp only [TwoPeak.logProb, validated, hsup, select_true, ite_self, hz', Z.2]
  rw [eL, expR_sub_fin (L.1.add s1), expR_add L.1 s1, expR_add s2 s1, expR_sub_fin U.1, L.2, U.2]
  by_cases hm : m < d.mass.m1min
  · simp [hlow hm, TwoPeak.smooth, planck_zero h.mass.d1 hm.le]
  · have hm := not_lt.1 hm
    have hpos := TwoPeak.mixture_pos h.mass hm g2
    have : ∑ k, expR (c k) * (d.spins k).density a1 a2 t1 t2 = d.mass.smooth m * d.spinDensity m a1 a2 t1 t2 := by
      rw [Model.spinDensity, Finset.mul_sum]
      apply Finset.sum_congr rfl
      intro k _
      rw [hx hm, TwoPeak.smooth]
      field_simp
    rw [this]
    ring

theorem ratio_finite {lo hi : ℝ} {m q : XR} (hsup : (Leaf.massRatioSandwich lo hi).check [m, q] = .ok true) : ∃ a b : ℝ, m = fin a ∧ q = fin b := by
  obtain ⟨m', b, rfl, hb⟩ := C19_finite_only lo hi m (m * q) (by rwa [← C19_same_set])
  have hsm : sandwichMask lo hi (fin m') (fin m' * q) = true := by
    simpa [Leaf.check] using hsup
  have hmm : 0 < m' := by
    rw [hb, sandwichMask_fin] at hsm
    linarith [hsm.1, hsm.2.1, hsm.2.2.1]
  cases q with
  | fin a => exact ⟨m', a, rfl, rfl⟩
  | nan => simp at hb
  | pinf =>
    have : fin m' * pinf = mulInf m' := rfl
    rw [this, mulInf, if_pos hmm] at hb
    simp at hb
  | ninf =>
    have : fin m' * ninf = neg (mulInf m') := rfl
    rw [this, mulInf, if_pos hmm] at hb
    simp [neg] at hb

/-- **C62.**  With parameters in range and argument validation on: for every event of six floats the log density is a number or `-inf`, never NaN; it is `-inf` whenever the masses are outside the mass support or a
cosine outside `[-1, 1]`; and at every real event the density is the density of `BrokenPowerlawTwoPeak` at the masses times the spin mixture in which each of the four parts of the mass spectrum has its own spin
distribution and the weight it has in the mass density at that primary mass. -/
theorem C62_density (d : Model) (h : d.Proper) :
    (∀ m q a1 a2 t1 t2 : XR, IsLog (d.logProb m q a1 a2 t1 t2)) ∧
    (∀ m q a1 a2 t1 t2 : XR, ¬ (Leaf.massRatioSandwich d.mass.m2min d.mass.mmax).check [m, q] = .ok true → d.logProb m q a1 a2 t1 t2 = ninf) ∧
    ∀ m q a1 a2 t1 t2 : ℝ, expR (d.logProb (fin m) (fin q) (fin a1) (fin a2) (fin t1) (fin t2)) = expR (d.mass.logProb (fin m) (fin q)) * d.spinDensity m a1 a2 t1 t2 := by
  have hout : ∀ m q a1 a2 t1 t2 : XR, d.support m q a1 a2 t1 t2 = false → d.logProb m q a1 a2 t1 t2 = ninf := by
    intro m q a1 a2 t1 t2 hn
    simp only [Model.logProb, validated, hn, h.validate, select_false, if_true]
  refine ⟨?_, ?_, ?_⟩
  · intro m q a1 a2 t1 t2
    cases hs : d.support m q a1 a2 t1 t2 with
    | false => rw [hout _ _ _ _ _ _ hs]; exact isLog_ninf
    | true =>
      have hs' := hs
      simp only [Model.support, Bool.and_eq_true] at hs'
      obtain ⟨⟨⟨⟨k1, k2⟩, k3⟩, k4⟩, k5⟩ := hs'
      obtain ⟨a1, rfl⟩ := inside_fin k2
      obtain ⟨a2, rfl⟩ := inside_fin k3
      obtain ⟨t1, rfl⟩ := inside_fin k4
      obtain ⟨t2, rfl⟩ := inside_fin k5
      have hmq := (accepts_iff _ _).1 k1
      obtain ⟨m', q', rfl, rfl⟩ := ratio_finite hmq
      have := (on_support h hmq (inside_iff.1 k4) (inside_iff.1 k5) (a1 := a1) (a2 := a2) rfl).1
      simp only [Model.logProb, validated, hs, select_true, ite_self]
      exact this
  · intro m q a1 a2 t1 t2 hn
    apply hout
    rw [← accepts_iff, Bool.not_eq_true] at hn
    simp [Model.support, hn]
  · intro m q a1 a2 t1 t2
    cases hs : d.support (fin m) (fin q) (fin a1) (fin a2) (fin t1) (fin t2) with
    | true =>
      have hs' := hs
      simp only [Model.support, Bool.and_eq_true] at hs'
      obtain ⟨⟨⟨⟨k1, k2⟩, k3⟩, k4⟩, k5⟩ := hs'
      have := (on_support h ((accepts_iff _ _).1 k1) (inside_iff.1 k4) (inside_iff.1 k5) (a1 := a1) (a2 := a2) rfl).2
      simp only [Model.logProb, validated, hs, select_true, ite_self]
      exact this
    | false =>
      rw [hout _ _ _ _ _ _ hs, expR_ninf]
      symm
      by_cases k1 : accepts (.massRatioSandwich d.mass.m2min d.mass.mmax) [fin m, fin q] = true
      · have : d.spinDensity m a1 a2 t1 t2 = 0 := by
          apply Finset.sum_eq_zero
          intro k _
          have : (d.spins k).density a1 a2 t1 t2 = 0 := by
            rw [Spins.density]
            by_contra hne
            rw [mul_eq_zero, mul_eq_zero, not_or, not_or] at hne
            obtain ⟨⟨n1, n2⟩, n3⟩ := hne
            have b1 : (d.spins k).a1.low ≤ a1 ∧ a1 ≤ (d.spins k).a1.high := by
              by_contra hb
              exact n1 (if_neg hb)
            have b2 : (d.spins k).a2.low ≤ a2 ∧ a2 ≤ (d.spins k).a2.high := by
              by_contra hb
              exact n2 (if_neg hb)
            have b3 : (-1 ≤ t1 ∧ t1 ≤ 1) ∧ (-1 ≤ t2 ∧ t2 ≤ 1) := by
              by_contra hb
              exact n3 (if_neg hb)
            have : d.support (fin m) (fin q) (fin a1) (fin a2) (fin t1) (fin t2) = true := by
              simp only [Model.support, k1, Bool.and_eq_true, true_and, inside_iff, b3, and_true, Model.min4, Model.max4, min_le_iff, le_max_iff]
              fin_cases k
              · exact ⟨⟨.inl (.inl b1.1), .inl (.inl b1.2)⟩, .inl (.inl b2.1), .inl (.inl b2.2)⟩
              · exact ⟨⟨.inl (.inr b1.1), .inl (.inr b1.2)⟩, .inl (.inr b2.1), .inl (.inr b2.2)⟩
              · exact ⟨⟨.inr (.inl b1.1), .inr (.inl b1.2)⟩, .inr (.inl b2.1), .inr (.inl b2.2)⟩
              · exact ⟨⟨.inr (.inr b1.1), .inr (.inr b1.2)⟩, .inr (.inr b2.1), .inr (.inr b2.2)⟩
            rw [this] at hs
            cases hs
          rw [this, mul_zero]
        rw [this, mul_zero]
      · rw [accepts_iff] at k1
        rw [(C25_two_peak d.mass h.mass h.validate).2.1 _ _ k1, expR_ninf, zero_mul]

theorem integral_sum_mul {f : Fin 4 → ℝ → ℝ} (c : Fin 4 → ℝ) (h : ∀ k, Integrable (f k)) : ∫ x, ∑ k, c k * f k x = ∑ k, c k * ∫ x, f k x := by
  rw [integral_finsetSum _ fun k _ => (h k).const_mul _]
  simp only [integral_const_mul]

/-- **C62.**  Integrating out the spins leaves exactly `BrokenPowerlawTwoPeak`: the spin parameters cannot change the mass distribution, whatever they are. -/
theorem C62_mass_marginal (d : Model) (h : d.Proper) (m q : ℝ) :
    ∫ a1, ∫ a2, ∫ t1, ∫ t2, expR (d.logProb (fin m) (fin q) (fin a1) (fin a2) (fin t1) (fin t2)) = expR (d.mass.logProb (fin m) (fin q)) := by
  have key : ∫ a1, ∫ a2, ∫ t1, ∫ t2, d.spinDensity m a1 a2 t1 t2 = ∑ k, massPart d.mass m k / d.mass.mixture m := by
    set w : Fin 4 → ℝ := fun k => massPart d.mass m k / d.mass.mixture m with hw
    set A : Fin 4 → ℝ → ℝ := fun k => cutNormal (d.spins k).a1.loc (d.spins k).a1.scale (d.spins k).a1.low (d.spins k).a1.high with hA
    set B : Fin 4 → ℝ → ℝ := fun k => cutNormal (d.spins k).a2.loc (d.spins k).a2.scale (d.spins k).a2.low (d.spins k).a2.high with hB
    set T : Fin 4 → ℝ → ℝ → ℝ := fun k => tilts (d.spins k).zeta (d.spins k).tilt1Loc (d.spins k).tilt1Scale (d.spins k).tilt2Loc (d.spins k).tilt2Scale with hT
    have e0 : ∀ a1 a2 t1 t2, d.spinDensity m a1 a2 t1 t2 = ∑ k, w k * A k a1 * B k a2 * T k t1 t2 := by
      intro a1 a2 t1 t2
      apply Finset.sum_congr rfl
      intro k _
      simp only [hw, hA, hB, hT, Spins.density]
      ring
    have e1 : ∀ a1 a2 t1, ∫ t2, d.spinDensity m a1 a2 t1 t2 = ∑ k, w k * A k a1 * B k a2 * ∫ t2, T k t1 t2 := by
      intro a1 a2 t1
      simp only [e0]
      exact integral_sum_mul (fun k => w k * A k a1 * B k a2) fun k => (tilts_inner (h.spins k).t2 t1).1
    have e2 : ∀ a1 a2, ∫ t1, ∫ t2, d.spinDensity m a1 a2 t1 t2 = ∑ k, w k * A k a1 * B k a2 := by
      intro a1 a2
      simp only [e1]
      rw [integral_sum_mul (f := fun k t1 => ∫ t2, T k t1 t2) (fun k => w k * A k a1 * B k a2) fun k => (tilts_outer (h.spins k).t1 (h.spins k).t2).1]
      apply Finset.sum_congr rfl
      intro k _
      simp only [hT]
      rw [(tilts_outer (h.spins k).t1 (h.spins k).t2).2, mul_one]
    have e3 : ∀ a1, ∫ a2, ∫ t1, ∫ t2, d.spinDensity m a1 a2 t1 t2 = ∑ k, w k * A k a1 := by
      intro a1
      simp only [e2]
      rw [integral_sum_mul (fun k => w k * A k a1) fun k => cut_integrable _ _ _ _]
      apply Finset.sum_congr rfl
      intro k _
      show w k * A k a1 * ∫ x, cutNormal _ _ _ _ x = _
      rw [cut_integral (h.spins k).a2s (h.spins k).a2, mul_one]
    simp only [e3]
    rw [integral_sum_mul w fun k => cut_integrable _ _ _ _]
    apply Finset.sum_congr rfl
    intro k _
    show w k * ∫ x, cutNormal _ _ _ _ x = _
    rw [cut_integral (h.spins k).a1s (h.spins k).a1, mul_one]
  simp only [(C62_density d h).2.2, integral_const_mul]
  rw [key, ← Finset.sum_div, massPart_sum]
  by_cases hin : d.mass.m1min ≤ m ∧ m ≤ d.mass.mmax
  · rw [div_self (TwoPeak.mixture_pos h.mass hin.1 hin.2).ne', mul_one]
  · have : d.mass.logProb (fin m) (fin q) = ninf := by
      have C := C25_two_peak d.mass h.mass h.validate
      rw [not_and_or, not_le, not_le] at hin
      rcases hin with hm | hm
      · exact C.2.2.1 _ _ hm.le
      · apply C.2.1
        rw [C19_ratio_iff]
        intro hc
        linarith [hc.2.2.1]
    rw [this, expR_ninf, zero_mul]

/-- The GWTC-4 masses; slowly spinning and aligned below the break and in the first peak, faster and isotropic above it and in the second. -/
noncomputable def example62 : Model :=
  ⟨gwtc4, ⟨⟨0.1, 0.1, 0, 1⟩, ⟨0.1, 0.2, 0, 1⟩, 0.9, 0.8, 0.4, 0.9, 0.4⟩, ⟨⟨0.6, 0.2, 0.3, 0.9⟩, ⟨0.5, 0.2, 0.2, 1⟩, 0, 0, 1, 0, 1⟩,
    ⟨⟨0.1, 0.1, 0, 0.8⟩, ⟨0.2, 0.1, 0, 1⟩, 1, 1, 0.5, 1, 0.5⟩, ⟨⟨0.7, 0.1, 0, 1⟩, ⟨0.7, 0.1, 0, 1⟩, 0.2, 0, 1, -0.5, 1⟩⟩

theorem example62_proper : example62.Proper := by
  refine ⟨?_, ?_, rfl⟩
  · constructor <;> norm_num [example62, gwtc4]
  · intro k
    fin_cases k <;> constructor <;> norm_num [example62, Model.spins]

/-- The example has parts with different spins, and positive density at a point. -/
example : 0 < expR (example62.logProb (fin 40) (fin 0.9) (fin 0.7) (fin 0.6) (fin 0.1) (fin (-0.3))) ∧
    example62.logProb (fin 40) (fin 0.9) (fin 0.7) (fin 0.6) (fin 1.1) nan = ninf := by
  have hs : example62.support (fin 40) (fin 0.9) (fin 0.7) (fin 0.6) (fin 1.1) nan = false := by
    have : Model.inside (-1) 1 nan = false := by
      rw [Model.inside, decide_eq_false (show ¬ le (fin (-1)) nan from id)]
      rfl
    simp [Model.support, this]
  constructor
  · have e := (C62_density example62 example62_proper).2.2 40 0.9 0.7 0.6 0.1 (-0.3)
    rw [e]
    apply mul_pos
    · obtain ⟨-, -, -, z0, Zq, hz, he⟩ := C25_two_peak example62.mass example62_proper.mass rfl
      rw [he 40 0.9 ((C19_ratio_iff _ _ _ _).2 (by norm_num [example62, gwtc4]))]
      obtain ⟨v, v0, -, hv⟩ := hz 40 (by norm_num [example62, gwtc4]) (by norm_num [example62, gwtc4])
      have p1 := TwoPeak.mixture_pos example62_proper.mass (m := 40) (by norm_num [example62, gwtc4]) (by norm_num [example62, gwtc4])
      have p2 : 0 < planckTaper ((40 - example62.mass.m1min) / example62.mass.delta1) := planck_pos (by norm_num [example62, gwtc4])
      have p3 : 0 < planckTaper ((40 * 0.9 - example62.mass.m2min) / example62.mass.delta2) := planck_pos (by norm_num [example62, gwtc4])
      have p4 : 0 < Zq 40 := by
        rw [hv]
        split_ifs with h
        · exact one_pos
        · exact not_le.1 h
      have p6 : (0 : ℝ) < 0.9 ^ example62.mass.beta := Real.rpow_pos_of_pos (by norm_num) _
      have s0 : 0 < example62.mass.smooth 40 := mul_pos p1 p2
      have r0 : 0 < example62.mass.ratio 40 0.9 := mul_pos p6 p3
      exact mul_pos (div_pos s0 z0) (div_pos r0 p4)
    · have hp := example62_proper
      have w : ∀ k, 0 ≤ massPart example62.mass 40 k / example62.mass.mixture 40 * (example62.spins k).density 0.7 0.6 0.1 (-0.3) := by
        intro k
        have := massPart_nonneg hp.mass (m := 40) (by norm_num [example62, gwtc4]) (by norm_num [example62, gwtc4]) k
        have := TwoPeak.mixture_pos hp.mass (m := 40) (by norm_num [example62, gwtc4]) (by norm_num [example62, gwtc4])
        have := cut_nonneg (loc := (example62.spins k).a1.loc) (hp.spins k).a1s (hp.spins k).a1 0.7
        have := cut_nonneg (loc := (example62.spins k).a2.loc) (hp.spins k).a2s (hp.spins k).a2 0.6
        have := tilts_nonneg (l1 := (example62.spins k).tilt1Loc) (l2 := (example62.spins k).tilt2Loc) (hp.spins k).t1 (hp.spins k).t2 (hp.spins k).z0 (hp.spins k).z1 0.1 (-0.3)
        unfold Spins.density
        positivity
      refine lt_of_lt_of_le ?_ (Finset.single_le_sum (fun k _ => w k) (Finset.mem_univ 3))
      have a := TwoPeak.mixture_pos hp.mass (m := 40) (by norm_num [example62, gwtc4]) (by norm_num [example62, gwtc4])
      have b : 0 < massPart example62.mass 40 3 := by
        have := (truncGauss_spec (loc := example62.mass.loc2) (a := example62.mass.m1min) (b := example62.mass.mmax) (m := 40) hp.mass.s2 (by norm_num [example62, gwtc4]) (by norm_num [example62, gwtc4])
          (by norm_num [example62, gwtc4])).2
        have l : 0 < 1 - (example62.mass.lambda0 + example62.mass.lambda1) := by norm_num [example62, gwtc4]
        exact mul_pos l this
      have h3 : example62.n2.Proper := hp.spins 3
      have c : 0 < cutNormal example62.n2.a1.loc example62.n2.a1.scale example62.n2.a1.low example62.n2.a1.high 0.7 := by
        rw [cutNormal, if_pos (by norm_num [example62])]
        exact (truncGauss_spec h3.a1s (by norm_num [example62]) (by norm_num [example62]) h3.a1).2
      have e : 0 < cutNormal example62.n2.a2.loc example62.n2.a2.scale example62.n2.a2.low example62.n2.a2.high 0.6 := by
        rw [cutNormal, if_pos (by norm_num [example62])]
        exact (truncGauss_spec h3.a2s (by norm_num [example62]) (by norm_num [example62]) h3.a2).2
      have t : 0 < tilts example62.n2.zeta example62.n2.tilt1Loc example62.n2.tilt1Scale example62.n2.tilt2Loc example62.n2.tilt2Scale 0.1 (-0.3) := by
        rw [tilts, if_pos (by norm_num)]
        have := cut_nonneg (loc := example62.n2.tilt1Loc) (lo := -1) (hi := 1) h3.t1 (by norm_num) 0.1
        have := cut_nonneg (loc := example62.n2.tilt2Loc) (lo := -1) (hi := 1) h3.t2 (by norm_num) (-0.3)
        have z : 0 < 1 - example62.n2.zeta := by norm_num [example62]
        have z0 := h3.z0
        positivity
      show 0 < massPart example62.mass 40 3 / example62.mass.mixture 40 * example62.n2.density 0.7 0.6 0.1 (-0.3)
      unfold Spins.density
      positivity
  · simp only [Model.logProb, validated, hs, select_false]
    rfl

end GW.MultiSpin
