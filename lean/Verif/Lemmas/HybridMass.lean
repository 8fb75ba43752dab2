import Verif.Lemmas.HybridDensity
import Mathlib.MeasureTheory.Constructions.Pi
import Mathlib.MeasureTheory.Measure.Prod
import Mathlib.MeasureTheory.Measure.Lebesgue.Basic
import Mathlib.MeasureTheory.Integral.Bochner.Basic

/-! The total masses of the laws of the hybrid models. -/

namespace GW.Hybrids
open GW XR GW.PyDict GW.Joint GW.Constraints MeasureTheory ProbabilityTheory
open scoped Classical ENNReal

theorem integrate_const_mul (n : ℕ) {r : ℝ≥0∞} (hr : r ≠ ∞) (f : List ℝ → ℝ≥0∞) : integrate n (fun l => r * f l) = r * integrate n f := by
  induction n generalizing f with
  | zero => rfl
  | succ n ih => simp only [integrate, ih, lintegral_const_mul' _ _ hr]

theorem integrate_mul (a b : ℕ) {f g : List ℝ → ℝ≥0∞} (hf : ∀ l, f l ≠ ∞) (hg : integrate b g ≠ ∞) :
    integrate (a + b) (fun l => f (l.take a) * g (l.drop a)) = integrate a f * integrate b g := by
  induction a generalizing f with
  | zero => simp only [Nat.zero_add, List.take_zero, List.drop_zero, integrate]; exact integrate_const_mul b (hf []) g
  | succ a ih =>
    rw [Nat.succ_add]
    simp only [integrate, List.take_succ_cons, List.drop_succ_cons]
    rw [← lintegral_mul_const' _ _ hg]
    exact lintegral_congr fun x => ih fun l => hf (x :: l)

theorem integrable_of_one {α : Type} [MeasureSpace α] {p : α → ℝ} (h : ∫ x, p x = 1) : Integrable p := by
  by_contra hc
  rw [integral_undef hc] at h
  exact zero_ne_one h

theorem lintegral_one {α : Type} [MeasureSpace α] {p : α → ℝ} (hn : ∀ x, 0 ≤ p x) (h : ∫ x, p x = 1) : ∫⁻ x, ENNReal.ofReal (p x) = 1 := by
  have hi := integrable_of_one h
  rw [← ofReal_integral_eq_lintegral_ofReal hi (Filter.Eventually.of_forall hn), h, ENNReal.ofReal_one]

theorem lintegral_two {p : (Fin 2 → ℝ) → ℝ} (hn : ∀ x, 0 ≤ p x) (h : ∫ x, p x = 1) : ∫⁻ x : ℝ, ∫⁻ y : ℝ, ENNReal.ofReal (p ![x, y]) = 1 := by
  have hi := integrable_of_one h
  have hm : AEMeasurable (fun x => ENNReal.ofReal (p x)) := hi.aestronglyMeasurable.aemeasurable.ennreal_ofReal
  have mp := (volume_preserving_finTwoArrow ℝ).symm
  have hm2 : AEMeasurable (fun z : ℝ × ℝ => ENNReal.ofReal (p (MeasurableEquiv.finTwoArrow.symm z))) :=
    hm.comp_quasiMeasurePreserving mp.quasiMeasurePreserving
  have e := mp.lintegral_comp_emb MeasurableEquiv.finTwoArrow.symm.measurableEmbedding (fun x => ENNReal.ofReal (p x))
  rw [lintegral_one hn h] at e
  rw [← e, Measure.volume_eq_prod, lintegral_prod _ hm2]
  rfl

theorem lintegral_scale {a : ℝ} (ha : 0 < a) (f : ℝ → ℝ≥0∞) : ∫⁻ q, f q = ∫⁻ m, ENNReal.ofReal a⁻¹ * f (m / a) := by
  have hi : 0 < a⁻¹ := inv_pos.2 ha
  have e : ∫⁻ q, f q = ENNReal.ofReal |a⁻¹| * ∫⁻ m, f (a⁻¹ * m) := by
    conv_lhs => rw [← Real.smul_map_volume_mul_left hi.ne']
    rw [lintegral_smul_measure, smul_eq_mul]
    congr 1
    exact (Homeomorph.mulLeft₀ a⁻¹ hi.ne').toMeasurableEquiv.measurableEmbedding.lintegral_map f
  rw [e, abs_of_pos hi, lintegral_const_mul' _ _ ENNReal.ofReal_ne_top]
  refine congrArg _ (lintegral_congr fun m => ?_)
  rw [inv_mul_eq_div]

theorem mass_total {alpha slope mmin mmax : ℝ} (h0 : 0 < mmin) (h : mmin < mmax) :
    ∫⁻ m1 : ℝ, ∫⁻ m2 : ℝ, ENNReal.ofReal (Law.massDensity alpha slope mmin mmax m1 m2) = 1 := by
  set d : Mass.PowerlawPMR := ⟨alpha, slope, mmin, mmax, true⟩ with hd
  obtain ⟨t1, t2, -⟩ := Mass.C24_primary_ratio d h0 h rfl
  rw [← t1]
  have hne : ∀ᵐ m : ℝ, m ≠ mmin := by
    rw [ae_iff]
    simp
  refine lintegral_congr_ae (hne.mono fun m1 hm1 => ?_)
  simp only
  rcases lt_or_gt_of_ne hm1 with k | k
  · have z1 : ∀ m2, Law.massDensity alpha slope mmin mmax m1 m2 = 0 := fun m2 => if_neg fun q => by linarith [q.1, q.2.1]
    have z2 : ∀ q : ℝ, d.logProb (fin m1) (fin q) = ninf := fun q => t2 _ _ fun e => by
      rw [C19_ratio_iff] at e
      exact absurd e.2.1 (not_le.2 k)
    simp [z1, z2]
  · have hp : 0 < m1 := h0.trans k
    rw [lintegral_scale hp fun q => ENNReal.ofReal (expR (d.logProb (fin m1) (fin q)))]
    refine lintegral_congr fun m2 => ?_
    rw [← ENNReal.ofReal_mul (inv_nonneg.2 hp.le)]
    congr 1
    unfold Law.massDensity
    split_ifs with hc
    · obtain ⟨a, b, e⟩ := hc
      have hl : 0 < mmin / m1 := by positivity
      have hl1 : mmin / m1 < 1 := (div_lt_one hp).2 k
      have hq : 0 < m2 / m1 := div_pos (h0.trans_le a) hp
      rw [Mass.pmr_logProb (d := d) h0 h k e ((div_le_div_iff_of_pos_right hp).2 a) ((div_le_one hp).2 b), expR_fin, Real.exp_add,
        PowerLaw.exp_logProb h0 h hp, PowerLaw.exp_logProb hl hl1 hq, inv_mul_eq_div]
      rfl
    · rw [t2 _ _ fun e => ?_, expR_ninf, mul_zero]
      rw [C19_ratio_iff] at e
      obtain ⟨-, -, e3, e4, e5⟩ := e
      exact hc ⟨(div_le_div_iff_of_pos_right hp).1 e4, (div_le_one hp).1 e5, e3⟩

theorem volume_nonneg {c : Cosmo.Cosmology} (hc : c.Proper) {dV : ℝ → ℝ} (hV : IsVolume c dV) {z : ℝ} (hz : 0 ≤ z) : 0 ≤ dV z := by
  obtain ⟨-, -, D, w, -, e, h0, -⟩ := Cosmo.C28_volume c hc z hz
  rw [hV z hz] at e
  injection e with e
  rw [e]
  exact h0

theorem skewCurve_nonneg {loc scale epsilon : ℝ} (h1 : -1 < epsilon) (h2 : epsilon < 1) (y : ℝ) : 0 ≤ Law.skewCurve loc scale epsilon y := by
  unfold Law.skewCurve
  split_ifs
  · exact mul_nonneg (by linarith) (Spin.restrictedNormal_nonneg _ _ _ _)
  · exact mul_nonneg (by linarith) (Spin.restrictedNormal_nonneg _ _ _ _)

theorem density_nonneg {c : Cosmo.Cosmology} (hc : c.Proper) {dV : ℝ → ℝ} (hV : IsVolume c dV) {L : Law} (hp : L.Proper) (l : List ℝ) : 0 ≤ L.density dV l := by
  have N := Spin.restrictedNormal_nonneg
  unfold Law.density
  split
  · unfold Law.massDensity
    split_ifs with k
    · obtain ⟨a, b, e⟩ := k
      have hm2 := hp.1.trans_le a
      have hm1 := hm2.trans_le b
      refine div_nonneg (mul_nonneg (div_nonneg (Real.rpow_nonneg hm1.le _) ?_) (div_nonneg (Real.rpow_nonneg (by positivity) _) ?_)) hm1.le
      · exact intervalIntegral.integral_nonneg hp.2.le fun u hu => Real.rpow_nonneg (hp.1.le.trans hu.1) _
      · exact intervalIntegral.integral_nonneg ((div_le_one hm1).2 (a.trans b)) fun u hu => Real.rpow_nonneg ((div_pos hp.1 hm1).le.trans hu.1) _
    · exact le_rfl
  · obtain ⟨-, b2, b3⟩ := betaConc hp.1 hp.2.1 hp.2.2.1 hp.2.2.2
    unfold betaPDFReal
    split_ifs with k
    · have := beta_pos b2 b3
      have := sub_nonneg.2 k.2.le
      have := k.1.le
      positivity
    · exact le_rfl
  · exact N _ _ _ _
  · exact add_nonneg (mul_nonneg (by linarith [hp.2.1]) (N _ _ _ _)) (mul_nonneg hp.1 (N _ _ _ _))
  · exact add_nonneg (mul_nonneg (by linarith [hp.2.1]) (mul_nonneg (N _ _ _ _) (N _ _ _ _))) (mul_nonneg hp.1 (mul_nonneg (N _ _ _ _) (N _ _ _ _)))
  · split_ifs
    · exact add_nonneg (by linarith [hp.2.1]) (mul_nonneg hp.1 (mul_nonneg (N _ _ _ _) (N _ _ _ _)))
    · exact le_rfl
  · exact div_nonneg (skewCurve_nonneg hp.2.1 hp.2.2 _) (integral_nonneg fun y => skewCurve_nonneg hp.2.1 hp.2.2 y)
  · unfold Spin.uniformDensity
    split_ifs
    · exact div_nonneg zero_le_one (sub_nonneg.2 (le_of_lt hp))
    · exact le_rfl
  · split_ifs with k
    · have := volume_nonneg hc hV k.1
      have := k.1
      positivity
    · exact le_rfl
  · split_ifs with k
    · exact div_nonneg (Real.rpow_nonneg (hp.1.le.trans k.1) _) (intervalIntegral.integral_nonneg hp.2.le fun u hu => Real.rpow_nonneg (hp.1.le.trans hu.1) _)
    · exact le_rfl
  · split_ifs with k
    · have hb := hp.1.trans hp.2.1
      have hs : ∀ {a1 a2 : ℝ} t, _ ≤ t → 0 ≤ brokenShape a1 a2 _ t := fun t ht => Real.rpow_nonneg (div_nonneg (hp.1.le.trans ht) hb.le) _
      exact div_nonneg (hs _ k.1) (intervalIntegral.integral_nonneg (hp.2.1.trans hp.2.2).le fun u hu => hs _ hu.1)
    · exact le_rfl
  · have U : ∀ {a x : ℝ}, a < 1 → 0 ≤ Spin.uniformDensity a 1 x := fun h => by
      unfold Spin.uniformDensity
      split_ifs
      · exact div_nonneg zero_le_one (sub_nonneg.2 h.le)
      · exact le_rfl
    exact add_nonneg (mul_nonneg (by linarith [hp.2.1]) (mul_nonneg (U hp.2.2.2.2.1) (U hp.2.2.2.2.2))) (mul_nonneg hp.1 (mul_nonneg (N _ _ _ _) (N _ _ _ _)))
  · exact le_rfl

theorem integral_between {a b : ℝ} (h : a ≤ b) (f : ℝ → ℝ) : ∫ x, (if a ≤ x ∧ x ≤ b then f x else 0) = ∫ x in a..b, f x := by
  rw [intervalIntegral.integral_of_le h, ← integral_Icc_eq_integral_Ioc, ← integral_indicator measurableSet_Icc]
  refine integral_congr_ae (Filter.Eventually.of_forall fun x => ?_)
  by_cases k : a ≤ x ∧ x ≤ b
  · simp only [if_pos k, Set.indicator_of_mem (show x ∈ Set.Icc a b from k)]
  · simp only [if_neg k, Set.indicator_of_notMem (show x ∉ Set.Icc a b from k)]

/-- The density of each law has the total of the law. -/
theorem law_total {c : Cosmo.Cosmology} (hc : c.Proper) {dV : ℝ → ℝ} (hV : IsVolume c dV) {L : Law} (hp : L.Proper) :
    integrate L.dim (fun l => ENNReal.ofReal (L.density dV l)) = L.total dV := by
  have hn := fun l => density_nonneg hc hV hp l
  cases L with
  | masses alpha slope mmin mmax => exact mass_total hp.1 hp.2
  | beta mean variance =>
    obtain ⟨-, b2, b3⟩ := betaConc hp.1 hp.2.1 hp.2.2.1 hp.2.2.2
    exact lintegral_betaPDF_eq_one b2 b3
  | normal loc scale low high => exact lintegral_one (fun x => hn [x]) (Spin.has_truncatedNormal hp.1 (Spin.boundsOk_lt hp.2) true).integral
  | twoNormals zeta loc1 scale1 low1 high1 loc2 scale2 low2 high2 =>
    refine lintegral_one (fun x => hn [x]) ?_
    have i1 := (Spin.has_truncatedNormal (loc := loc1) hp.2.2.1 (Spin.boundsOk_lt hp.2.2.2.2.1) true).integral
    have i2 := (Spin.has_truncatedNormal (loc := loc2) hp.2.2.2.1 (Spin.boundsOk_lt hp.2.2.2.2.2) true).integral
    show ∫ x, ((1 - zeta) * Spin.restrictedNormal loc1 scale1 (Spin.bounds low1 high1) x + zeta * Spin.restrictedNormal loc2 scale2 (Spin.bounds low2 high2) x) = 1
    rw [integral_add ((integrable_of_one i1).const_mul _) ((integrable_of_one i2).const_mul _), integral_const_mul, integral_const_mul, i1, i2]
    ring
  | twoPairs zeta a1 a2 b1 b2 =>
    obtain ⟨p1, p2, p3, p4, p5, p6⟩ := hp
    have H := Spin.C54_two_truncated_normals_nd (n := 2) p1 p2 (high1 := ![a1.high, a2.high]) (loc1 := ![a1.loc, a2.loc]) (low1 := ![a1.low, a2.low])
      (scale1 := ![a1.scale, a2.scale]) (high2 := ![b1.high, b2.high]) (loc2 := ![b1.loc, b2.loc]) (low2 := ![b1.low, b2.low]) (scale2 := ![b1.scale, b2.scale])
      (Fin.forall_fin_two.2 ⟨p3.1, p4.1⟩) (Fin.forall_fin_two.2 ⟨p5.1, p6.1⟩) (Fin.forall_fin_two.2 ⟨p3.2, p4.2⟩) (Fin.forall_fin_two.2 ⟨p5.2, p6.2⟩) true
    have := lintegral_two H.nonneg H.integral
    simp only [Fin.prod_univ_two] at this
    exact this
  | tilts zeta scale1 scale2 =>
    have H := Spin.C54_spin_orientation hp.1 hp.2.1 hp.2.2.1 hp.2.2.2 true
    have := lintegral_two H.nonneg H.integral
    simp only [Fin.forall_fin_two] at this
    exact this
  | skew loc scale epsilon =>
    refine lintegral_one (fun x => hn [x]) ?_
    have hZ := (Spin.C54_skew_normal (loc := loc) hp.1 hp.2.1 hp.2.2 true).1
    show ∫ x, Law.skewCurve loc scale epsilon x / ∫ y, Law.skewCurve loc scale epsilon y = 1
    rw [integral_div]
    exact div_self hZ.ne'
  | uniform low high => exact lintegral_one (fun x => hn [x]) (Spin.has_uniform hp true).integral
  | redshift kappa zMax =>
    show ∫⁻ z : ℝ, ENNReal.ofReal (if 0 ≤ z ∧ z ≤ zMax then dV z * (1 + z) ^ kappa / (1 + z) else 0) =
      ∫⁻ z in Set.Icc 0 zMax, ENNReal.ofReal (dV z * (1 + z) ^ kappa / (1 + z))
    rw [← lintegral_indicator measurableSet_Icc]
    refine lintegral_congr fun z => ?_
    by_cases k : 0 ≤ z ∧ z ≤ zMax
    · rw [if_pos k, Set.indicator_of_mem (show z ∈ Set.Icc 0 zMax from k)]
    · rw [if_neg k, Set.indicator_of_notMem (show z ∉ Set.Icc 0 zMax from k), ENNReal.ofReal_zero]

  | powerlaw alpha low high =>
    refine lintegral_one (fun x => hn [x]) ?_
    show ∫ m, (if low ≤ m ∧ m ≤ high then m ^ alpha / ∫ t in low..high, t ^ alpha else 0) = 1
    have hJ : 0 < ∫ t in low..high, t ^ alpha := PowerLaw.J_pos hp.1 hp.2
    rw [integral_between hp.2.le fun m => m ^ alpha / ∫ t in low..high, t ^ alpha, intervalIntegral.integral_div, div_self hJ.ne']
  | broken alpha1 alpha2 mbreak mmin mmax =>
    refine lintegral_one (fun x => hn [x]) ?_
    show ∫ m, (if mmin ≤ m ∧ m ≤ mmax then brokenShape alpha1 alpha2 mbreak m / ∫ t in mmin..mmax, brokenShape alpha1 alpha2 mbreak t else 0) = 1
    have hJ : 0 < ∫ t in mmin..mmax, brokenShape alpha1 alpha2 mbreak t := by
      rw [broken_total hp.1 hp.2.1 hp.2.2 true]
      exact Mass.brokenNorm_pos hp.1 hp.2.1 hp.2.2
    rw [integral_between (hp.2.1.trans hp.2.2).le fun m => brokenShape alpha1 alpha2 mbreak m / ∫ t in mmin..mmax, brokenShape alpha1 alpha2 mbreak t,
      intervalIntegral.integral_div, div_self hJ.ne']
  | tiltsAbove zeta loc1 loc2 scale1 scale2 minimum1 minimum2 =>
    have H := Spin.C54_minimum_tilt_extended hp.1 hp.2.1 (loc1 := loc1) (loc2 := loc2) hp.2.2.1 hp.2.2.2.1 hp.2.2.2.2.1 hp.2.2.2.2.2 true
    exact lintegral_two H.nonneg H.integral

/-- The comoving volume per unit redshift is bounded on bounded sets. -/
theorem volume_bounded {c : Cosmo.Cosmology} (hc : c.Proper) {dV : ℝ → ℝ} (hV : IsVolume c dV) (zMax : ℝ) :
    ∃ C, ∀ z, 0 ≤ z → z ≤ zMax → dV z ≤ C := by
  obtain ⟨hm, Dc, DL, hD, hmono, -, hD0, -⟩ := Cosmo.C28_distances c hc
  have hl : 0 ≤ c.zLast := hc.maxZ.le.trans hm
  have hDb : ∀ z y, 0 ≤ z → c.zToDc (fin z) = fin y → 0 ≤ y ∧ y ≤ Dc c.zLast := by
    intro z y hz e
    rcases le_or_gt z c.zLast with k | k
    · rw [(hD z hz k).1] at e
      injection e with e
      subst e
      exact ⟨hD0 ▸ hmono.monotoneOn ⟨le_rfl, hl⟩ ⟨hz, k⟩ hz, hmono.monotoneOn ⟨hz, k⟩ ⟨hl, le_rfl⟩ k⟩
    · rw [(Cosmo.C28_clamped_violated c hc z k).2.1, (hD _ hl le_rfl).1] at e
      injection e with e
      subst e
      exact ⟨hD0 ▸ hmono.monotoneOn ⟨le_rfl, hl⟩ ⟨hl, le_rfl⟩ hl, le_rfl⟩
  have hr : ContinuousOn c.rate (Set.Icc 0 zMax) := by
    intro x hx
    have hp := hc.expansion x hx.1
    refine ContinuousAt.continuousWithinAt ?_
    unfold Cosmo.Cosmology.rate comovingRate
    refine ContinuousAt.div continuousAt_const ?_ (Real.sqrt_pos.2 hp).ne'
    unfold friedmann
    fun_prop
  obtain ⟨R, hR⟩ := isCompact_Icc.exists_bound_of_continuousOn hr
  refine ⟨4 * Real.pi / 10 ^ 9 * Dc c.zLast ^ 2 * R, fun z h0 h1 => ?_⟩
  obtain ⟨-, -, D, w, e1, e2, -, e3⟩ := Cosmo.C28_volume c hc z h0
  rw [hV z h0] at e2
  injection e2 with e2
  obtain ⟨b1, b2⟩ := hDb z D h0 e1
  rw [e2, e3]
  have := (le_abs_self _).trans (hR z ⟨h0, h1⟩)
  have hrp := Cosmo.Cosmology.rate_pos hc h0
  gcongr

theorem total_ne_top {c : Cosmo.Cosmology} (hc : c.Proper) {dV : ℝ → ℝ} (hV : IsVolume c dV) (L : Law) : L.total dV ≠ ∞ := by
  unfold Law.total
  split
  · rename_i kappa zMax
    obtain ⟨C, hC⟩ := volume_bounded hc hV zMax
    have hk : ContinuousOn (fun z : ℝ => (1 + z) ^ kappa / (1 + z)) (Set.Icc 0 zMax) := by
      intro x hx
      have : 0 < 1 + x := by linarith [hx.1]
      exact (((continuousAt_const.add continuousAt_id).rpow_const (Or.inl this.ne')).div (continuousAt_const.add continuousAt_id) this.ne').continuousWithinAt
    obtain ⟨R, hR⟩ := isCompact_Icc.exists_bound_of_continuousOn hk
    refine ne_of_lt (lt_of_le_of_lt (setLIntegral_mono' (g := fun _ => ENNReal.ofReal (C * R)) measurableSet_Icc fun z hz => ENNReal.ofReal_le_ofReal ?_) ?_)
    · rw [mul_div_assoc]
      have h0 := volume_nonneg hc hV hz.1
      have h1 : 0 ≤ (1 + z) ^ kappa / (1 + z) := by have := hz.1; positivity
      exact mul_le_mul (hC z hz.1 hz.2) ((le_abs_self _).trans (hR z hz)) h1 (h0.trans (hC z hz.1 hz.2))
    · rw [setLIntegral_const]
      exact ENNReal.mul_lt_top ENNReal.ofReal_lt_top (by simp)
  · exact ENNReal.one_ne_top

/-- The total of a component. -/
theorem component_total {c : Cosmo.Cosmology} (hc : c.Proper) {dV : ℝ → ℝ} (hV : IsVolume c dV) {ls : List Law} (hp : ∀ L ∈ ls, L.Proper) :
    integrate (lawsDim ls) (fun x => ENNReal.ofReal (productDensity dV ls x)) = (ls.map (Law.total dV)).prod ∧ (ls.map (Law.total dV)).prod ≠ ∞ := by
  induction ls with
  | nil => simp [lawsDim, integrate, productDensity]
  | cons L ls ih =>
    obtain ⟨i1, i2⟩ := ih fun L hL => hp L (by simp [hL])
    have e : (fun x => ENNReal.ofReal (productDensity dV (L :: ls) x)) =
        fun x => (fun l => ENNReal.ofReal (L.density dV l)) (x.take L.dim) * (fun l => ENNReal.ofReal (productDensity dV ls l)) (x.drop L.dim) := by
      funext x
      rw [productDensity, ENNReal.ofReal_mul (density_nonneg hc hV (hp L (by simp)) _)]
    have hd : lawsDim (L :: ls) = L.dim + lawsDim ls := by simp [lawsDim]
    rw [hd, e, integrate_mul (f := fun l => ENNReal.ofReal (L.density dV l)) (g := fun l => ENNReal.ofReal (productDensity dV ls l)) _ _
      (fun _ => ENNReal.ofReal_ne_top) (by rw [i1]; exact i2), law_total hc hV (hp L (by simp)), i1]
    simp only [List.map_cons, List.prod_cons]
    exact ⟨trivial, ENNReal.mul_ne_top (total_ne_top hc hV L) i2⟩

end GW.Hybrids
