import Verif.Model.HybridDensity
import Verif.Spec.HybridDensity
import Verif.Lemmas.FullModels
import Verif.Props.Hybrids
import Verif.Props.Transforms
import Verif.Props.MassModels

/-! Facts about the densities of the hybrid models. -/

namespace GW.Hybrids
open GW XR GW.PyDict GW.Joint GW.Constraints MeasureTheory ProbabilityTheory
open scoped Classical

theorem arg_eq (f : Factor) (k : Option Nat) (w : String) : argOf f k w = f.arg k w := by
  unfold argOf Factor.arg
  cases f.args.find? fun a => a.coord = k && a.kwarg = w <;> rfl

theorem num_eq (f : Factor) (k : Option Nat) (w : String) : (argOf f k w).getD 0 = f.num k w := by rw [arg_eq]; rfl

/-- The share of the event of a law. -/
def sliceOf (L : Law) (l : List ℝ) : Slice XR := if L.dim = 1 then .one (fin (l.headD 0)) else .many (l.map fin)

theorem sliceOf_toList {L : Law} {l : List ℝ} (h : l.length = L.dim) : (sliceOf L l).toList = l.map fin := by
  unfold sliceOf
  split_ifs with h1
  · rw [h1] at h
    obtain ⟨a, rfl⟩ := List.length_eq_one_iff.1 h
    rfl
  · rfl

theorem positiveDecreasing_two (a b : ℝ) : Mass.accepts .positiveDecreasing [fin a, fin b] = true ↔ b ≤ a ∧ 0 < b := by
  rw [Mass.accepts_iff]
  simp only [Leaf.check, Except.ok.injEq, allNeighbours, allPositive]
  simp
  intro h1 h2
  linarith

/-- The two power laws, pushed forward to the component masses. -/
theorem masses_good {alpha slope mmin mmax big : ℝ} (h0 : 0 < mmin) (h : mmin < mmax) (v : Bool) (m1 m2 : ℝ) :
    (Full.Part.mk (transformed (Transforms.primaryMassRatioToComponents big) (Mass.PowerlawPMR.mk alpha slope mmin mmax v).logProb
      (Mass.PowerlawPMR.mk alpha slope mmin mmax v).support v) (.many [fin m1, fin m2]) (Law.massDensity alpha slope mmin mmax m1 m2)).Good := by
  set d : Mass.PowerlawPMR := ⟨alpha, slope, mmin, mmax, v⟩ with hd
  have hsupp : (transformed (Transforms.primaryMassRatioToComponents big) d.logProb d.support v).support (.many [fin m1, fin m2]) = true ↔
      mmin ≤ m2 ∧ m2 ≤ m1 ∧ m1 ≤ mmax := by
    show (Mass.accepts .positiveDecreasing [fin m1, fin m2] && d.support (fin m1) (Conv.massRatio (fin m1) (fin m2))) = true ↔ _
    rw [Bool.and_eq_true, positiveDecreasing_two]
    constructor
    · rintro ⟨⟨a, b⟩, e⟩
      have hm1 : 0 < m1 := b.trans_le a
      rw [Transforms.massRatio_fin hm1.ne', Mass.PowerlawPMR.support, Mass.accepts_iff, C19_ratio_iff] at e
      obtain ⟨-, -, e3, e4, -⟩ := e
      exact ⟨(div_le_div_iff_of_pos_right hm1).1 e4, a, e3⟩
    · rintro ⟨a, b, e⟩
      have hm2 : 0 < m2 := h0.trans_le a
      have hm1 : 0 < m1 := hm2.trans_le b
      refine ⟨⟨b, hm2⟩, ?_⟩
      rw [Transforms.massRatio_fin hm1.ne', Mass.PowerlawPMR.support, Mass.accepts_iff, C19_ratio_iff]
      exact ⟨h0, a.trans b, e, (div_le_div_iff_of_pos_right hm1).2 a, (div_le_one hm1).2 b⟩
  refine ⟨rfl, fun hs => ?_, fun hs => ?_⟩
  · obtain ⟨a, b, e⟩ := hsupp.1 hs
    have hm2 : 0 < m2 := h0.trans_le a
    have hm1 : 0 < m1 := hm2.trans_le b
    have hlp : (transformed (Transforms.primaryMassRatioToComponents big) d.logProb d.support v).logProb (.many [fin m1, fin m2]) =
        (fin 0 - XR.log (XR.abs (fin m1))) + d.logProb (fin m1) (Conv.massRatio (fin m1) (fin m2)) := by
      show Mass.validated v ((transformed (Transforms.primaryMassRatioToComponents big) d.logProb d.support v).support (.many [fin m1, fin m2])) _ = _
      rw [hs, Mass.validated, select_true, ite_self]
      rfl
    have hd' : IsLog (d.logProb (fin m1) (fin (m2 / m1))) ∧ expR (d.logProb (fin m1) (fin (m2 / m1))) =
        m1 ^ (-alpha) / (∫ m in mmin..mmax, m ^ (-alpha)) * ((m2 / m1) ^ slope / ∫ q in (mmin / m1)..1, q ^ slope) := by
      rcases (a.trans b).eq_or_lt with k | k
      · have hr : m2 = m1 := le_antisymm b (k ▸ a)
        have hs' : d.support (fin m1) (fin (m2 / m1)) = true := by
          rw [Mass.PowerlawPMR.support, Mass.accepts_iff, C19_ratio_iff]
          exact ⟨h0, a.trans b, e, (div_le_div_iff_of_pos_right hm1).2 a, (div_le_one hm1).2 b⟩
        have hlq : decide (le (fin m1) (fin mmin)) = true := by simp [k]
        have hlm := PowerLaw.logProbFn_eq (α := -alpha) h0 h hm1
        simp only [PowerLaw.logProbFn] at hlm
        have : d.logProb (fin m1) (fin (m2 / m1)) = ninf := by
          simp only [Mass.PowerlawPMR.logProb, Mass.validated, hs', select_true, ite_self]
          simp only [hd, hlm, hlq, select_true]
          rfl
        rw [this]
        refine ⟨isLog_ninf, ?_⟩
        rw [expR_ninf, ← k, div_self h0.ne', intervalIntegral.integral_same, div_zero, mul_zero]
      · rw [Mass.pmr_logProb (d := d) h0 h k e ((div_le_div_iff_of_pos_right hm1).2 a) ((div_le_one hm1).2 b)]
        have hl : 0 < mmin / m1 := by positivity
        have hl1 : mmin / m1 < 1 := (div_lt_one hm1).2 k
        refine ⟨isLog_fin _, ?_⟩
        rw [expR_fin, Real.exp_add, PowerLaw.exp_logProb h0 h hm1, PowerLaw.exp_logProb hl hl1 (by positivity)]
        rfl
    have hj : fin 0 - XR.log (XR.abs (fin m1)) = fin (-Real.log m1) := by
      rw [show XR.abs (fin m1) = fin |m1| from rfl, abs_of_pos hm1, log_fin_pos hm1, sub_fin_fin, zero_sub]
    rw [hlp, hj, Transforms.massRatio_fin hm1.ne']
    refine ⟨(isLog_fin _).add hd'.1, ?_⟩
    rw [expR_add (isLog_fin _) hd'.1, hd'.2, expR_fin, Real.exp_neg, Real.exp_log hm1, Law.massDensity, if_pos ⟨a, b, e⟩, inv_mul_eq_div]
  · have : ¬ (mmin ≤ m2 ∧ m2 ≤ m1 ∧ m1 ≤ mmax) := fun k => by rw [hsupp.2 k] at hs; exact absurd hs (by simp)
    exact if_neg this

theorem isLogDensity_one {lp : XR → XR} {p : ℝ → ℝ} (hn : ∀ x, 0 ≤ p x) (hl : ∀ x : ℝ, lp (fin x) = XR.log (fin (p x))) (s : XR → Bool) (x : ℝ)
    (hs : s (fin x) = false → p x = 0) : (Full.Part.mk (Full.scalar lp s) (.one (fin x)) (p x)).Good := by
  refine ⟨trivial, fun _ => ⟨?_, ?_⟩, hs⟩
  · show IsLog (lp (fin x))
    rw [hl]
    exact isLog_log_sum (hn x)
  · show expR (lp (fin x)) = _
    rw [hl, Spin.expR_log (hn x)]

theorem restrictedNormal_out {loc s : ℝ} {S : Set ℝ} {x : ℝ} (h : x ∉ S) : Spin.restrictedNormal loc s S x = 0 := if_neg h

theorem interval_false {a b x : ℝ} (h : Spin.interval a b (fin x) = false) : x ∉ Set.Icc a b := fun k => by
  rw [Spin.interval_fin.2 k] at h
  exact absurd h (by simp)

theorem tnSupport_false {low high : Option ℝ} {x : ℝ} (h : Spin.tnSupport low high (fin x) = false) : x ∉ Spin.bounds low high := fun k => by
  rw [Spin.tnSupport_fin.2 k] at h
  exact absurd h (by simp)

theorem redshift_good' {c : Cosmo.Cosmology} (hc : c.Proper) {dV : ℝ → ℝ} (hV : IsVolume c dV) {kappa zMax : ℝ} (hz : 0 < zMax) (v : Bool) (z : ℝ) :
    (Full.Part.mk (Full.redshiftBlock ⟨c, Cosmo.powerlawLogPsi kappa, zMax, v⟩) (.one (fin z)) ((Law.redshift kappa zMax).density dV [z])).Good := by
  have H := Full.redshift_good c hc (kappa := kappa) hz v z
  have e : expR ((Cosmo.Redshift.mk c (Cosmo.powerlawLogPsi kappa) zMax true).logProb (fin z)) = (Law.redshift kappa zMax).density dV [z] := by
    simp only [Law.density]
    split_ifs with hzz
    · obtain ⟨w, h1, h2⟩ := (Cosmo.C28_psi kappa 1 1 z hzz.1 one_pos).1
      obtain ⟨u, e1, e2⟩ := (Cosmo.C28_density ⟨c, Cosmo.powerlawLogPsi kappa, zMax, true⟩ ⟨hc, hz, fun z hz => by
        obtain ⟨w, h, _⟩ := (Cosmo.C28_psi kappa 1 1 z hz one_pos).1
        exact ⟨w, h⟩⟩ rfl).2.2 z hzz.1 hzz.2
      have e1' : c.dVcdz (fin z) = fin u := e1
      rw [hV z hzz.1] at e1'
      have e3 : dV z = u := by injection e1'
      rw [e2]
      simp only
      rw [h1, expR_fin, h2, e3]
    · have hs : (Cosmo.Redshift.mk c (Cosmo.powerlawLogPsi kappa) zMax true).support (fin z) = false := by
        simp only [Cosmo.Redshift.support, le_fin_fin, Bool.and_eq_false_iff, decide_eq_false_iff_not]
        tauto
      simp only [Cosmo.Redshift.logProb, Mass.validated, hs, select_false, if_true, expR_ninf]
  rw [← e]
  exact H

theorem betaConc {mean variance : ℝ} (h0 : 0 < mean) (h1 : mean < 1) (h2 : 0 < variance) (h3 : variance < mean * (1 - mean)) :
    Beta.fromMeanVar mean variance = (fin (mean * (mean * (1 - mean) / variance - 1)), fin ((1 - mean) * (mean * (1 - mean) / variance - 1))) ∧
    0 < mean * (mean * (1 - mean) / variance - 1) ∧ 0 < (1 - mean) * (mean * (1 - mean) / variance - 1) := by
  have h4 : 1 < mean * (1 - mean) / variance := (one_lt_div h2).2 h3
  refine ⟨?_, mul_pos h0 (by linarith), mul_pos (by linarith) (by linarith)⟩
  simp only [Beta.fromMeanVar, square_fin, sub_fin_fin, mul_fin_fin, div_fin_of_ne _ h2.ne']
  congr 2
  all_goals
    field_simp
    try ring

theorem block_masses (c : Cosmo.Cosmology) (big : ℝ) (v : Bool) {f : Factor} {a b : String} (h1 : f.cls = "PowerlawPrimaryMassRatio") (h2 : f.quantities = [a, b]) :
    block c big v f = transformed (Transforms.primaryMassRatioToComponents big)
      (Mass.PowerlawPMR.mk (f.num none "alpha") (f.num none "beta") (f.num none "mmin") (f.num none "mmax") v).logProb
      (Mass.PowerlawPMR.mk (f.num none "alpha") (f.num none "beta") (f.num none "mmin") (f.num none "mmax") v).support v := by
  unfold block
  rw [h1, h2]
  rfl

theorem powerlaw_good {alpha low high : ℝ} (h0 : 0 < low) (h : low < high) (v : Bool) (dV : ℝ → ℝ) (m : ℝ) :
    (Full.Part.mk (Full.scalar (PowerLaw.Dist.mk alpha low high v).logProb (PowerLaw.Dist.mk alpha low high v).support) (.one (fin m))
      ((Law.powerlaw alpha low high).density dV [m])).Good := by
  set d : PowerLaw.Dist := ⟨alpha, low, high, v⟩ with hd
  have hsupp : d.support (fin m) = true ↔ low ≤ m ∧ m ≤ high := by simp [PowerLaw.Dist.support, hd]
  refine ⟨trivial, fun hs => ?_, fun hs => if_neg fun k => ?_⟩
  · have hm := hsupp.1 hs
    have hm0 := h0.trans_le hm.1
    have e : d.logProb (fin m) = fin (alpha * Real.log m - Real.log (∫ t in low..high, t ^ alpha)) := by
      have hs' : d.support (fin m) = true := hs
      simp only [PowerLaw.Dist.logProb, hs', select_true, ite_self]
      exact PowerLaw.logProbFn_eq h0 h hm0
    show IsLog (d.logProb (fin m)) ∧ expR (d.logProb (fin m)) = ite _ _ _
    rw [e, if_pos hm]
    exact ⟨isLog_fin _, PowerLaw.exp_logProb h0 h hm0⟩
  · have hs' : d.support (fin m) = false := hs
    rw [hsupp.2 k] at hs'
    exact absurd hs' (by simp)

theorem broken_total {alpha1 alpha2 mbreak mmin mmax : ℝ} (h0 : 0 < mmin) (h1 : mmin < mbreak) (h2 : mbreak < mmax) (v : Bool) :
    ∫ t in mmin..mmax, brokenShape alpha1 alpha2 mbreak t = Mass.brokenNorm ⟨alpha1, alpha2, mbreak, mmax, mmin, v⟩ := by
  set d : Mass.Broken := ⟨alpha1, alpha2, mbreak, mmax, mmin, v⟩ with hd
  have hN := Mass.brokenNorm_pos (d := d) h0 h1 h2
  have hI := (Mass.C24_broken d h0 h1 h2).2.1
  have e : ∫ m in d.mmin..d.mmax, expR (d.logProb (fin m)) = ∫ m in mmin..mmax, brokenShape alpha1 alpha2 mbreak m / Mass.brokenNorm d := by
    refine intervalIntegral.integral_congr fun m hm => ?_
    rw [Set.uIcc_of_le (h1.trans h2).le] at hm
    exact Mass.broken_exp (d := d) h0 h1 h2 hm.1 hm.2
  rw [hI, intervalIntegral.integral_div] at e
  field_simp at e
  exact e.symm

theorem broken_good {alpha1 alpha2 mbreak mmin mmax : ℝ} (h0 : 0 < mmin) (h1 : mmin < mbreak) (h2 : mbreak < mmax) (v : Bool) (dV : ℝ → ℝ) (m : ℝ) :
    (Full.Part.mk (Full.scalar (Mass.Broken.mk alpha1 alpha2 mbreak mmax mmin v).logProb (Mass.Broken.mk alpha1 alpha2 mbreak mmax mmin v).support) (.one (fin m))
      ((Law.broken alpha1 alpha2 mbreak mmin mmax).density dV [m])).Good := by
  set d : Mass.Broken := ⟨alpha1, alpha2, mbreak, mmax, mmin, v⟩ with hd
  have hsupp : d.support (fin m) = true ↔ mmin ≤ m ∧ m ≤ mmax := by simp [Mass.Broken.support, hd]
  refine ⟨trivial, fun hs => ?_, fun hs => if_neg fun k => ?_⟩
  · have hm := hsupp.1 hs
    show IsLog (d.logProb (fin m)) ∧ expR (d.logProb (fin m)) = ite _ _ _
    rw [if_pos hm, broken_total h0 h1 h2 v]
    refine ⟨?_, Mass.broken_exp (d := d) h0 h1 h2 hm.1 hm.2⟩
    rw [Mass.broken_eq (d := d) h0 h1 h2 hm.1 hm.2]
    exact isLog_fin _
  · have hs' : d.support (fin m) = false := hs
    rw [hsupp.2 k] at hs'
    exact absurd hs' (by simp)

/-- A factor has the density of its law. -/
theorem factor_good {c : Cosmo.Cosmology} (hc : c.Proper) {dV : ℝ → ℝ} (hV : IsVolume c dV) (big : ℝ) (v : Bool) {f : Factor} {L : Law}
    (hL : lawOf f = some L) (hp : L.Proper) {l : List ℝ} (hl : l.length = L.dim) (hr : L.Regular l) :
    (Full.Part.mk (block c big v f) (sliceOf L l) (L.density dV l)).Good := by
  have one : ∀ {l : List ℝ}, l.length = 1 → ∃ x, l = [x] := fun h => List.length_eq_one_iff.1 h
  have two : ∀ {l : List ℝ}, l.length = 2 → ∃ x y, l = [x, y] := fun h => List.length_eq_two.1 h
  unfold lawOf at hL
  simp only [arg_eq] at hL
  split at hL <;> (first | (rename_i h1 h2; cases hL) | skip)
  · rw [block_masses c big v h1 h2]
    obtain ⟨x, y, rfl⟩ := two hl
    exact masses_good hp.1 hp.2 v x y
  · obtain ⟨x, rfl⟩ := one hl
    obtain ⟨b1, b2, b3⟩ := betaConc hp.1 hp.2.1 hp.2.2.1 hp.2.2.2
    have e : block c big v f = Full.scalar (Full.betaDist (Beta.fromMeanVar (f.num (some 0) "mean") (f.num (some 0) "variance")).1
        (Beta.fromMeanVar (f.num (some 0) "mean") (f.num (some 0) "variance")).2 v).logProb
        (Full.betaDist (Beta.fromMeanVar (f.num (some 0) "mean") (f.num (some 0) "variance")).1
        (Beta.fromMeanVar (f.num (some 0) "mean") (f.num (some 0) "variance")).2 v).support := by
      unfold block
      rw [h1, h2]
      rfl
    rw [e]
    have b1' : Beta.fromMeanVar (f.num (some 0) "mean") (f.num (some 0) "variance") = _ := b1
    rw [b1']
    exact Full.scalar_good (Full.beta_at v b2 b3 hr)
  · obtain ⟨x, rfl⟩ := one hl
    have e : block c big v f = Full.scalar (Spin.truncatedNormal (f.num (some 0) "loc") (f.num (some 0) "scale") (f.arg (some 0) "low") (f.arg (some 0) "high") v).logProb
        (Spin.truncatedNormal (f.num (some 0) "loc") (f.num (some 0) "scale") (f.arg (some 0) "low") (f.arg (some 0) "high") v).support := by
      unfold block
      rw [h1, h2]
      rfl
    rw [e]
    exact Full.scalar_good (Full.has_at (Spin.has_truncatedNormal hp.1 (Spin.boundsOk_lt hp.2) v) x)
  · obtain ⟨x, rfl⟩ := one hl
    obtain ⟨p1, p2, p3, p4, p5, p6⟩ := hp
    have H := Spin.C54_two_truncated_normals p1 p2 (loc1 := (f.arg (some 0) "comp1_loc").getD 0) (loc2 := (f.arg (some 0) "comp2_loc").getD 0) p3 p4 p5 p6 v
    have e : block c big v f = Full.scalar (Spin.twoTruncatedNormalMixture (f.arg (some 0) "comp1_high") (f.num (some 0) "comp1_loc") (f.arg (some 0) "comp1_low")
        (f.num (some 0) "comp1_scale") (f.arg (some 0) "comp2_high") (f.num (some 0) "comp2_loc") (f.arg (some 0) "comp2_low")
        (f.num (some 0) "comp2_scale") (f.num (some 0) "zeta") v)
      fun x => Spin.tnSupport (f.arg (some 0) "comp1_low") (f.arg (some 0) "comp1_high") x ||
        Spin.tnSupport (f.arg (some 0) "comp2_low") (f.arg (some 0) "comp2_high") x := by
      unfold block
      rw [h1, h2]
      rfl
    rw [e]
    refine isLogDensity_one (fun y => H.nonneg fun _ => y) (fun y => H.log fun _ => y) _ x fun hs => ?_
    rw [Bool.or_eq_false_iff] at hs
    simp only
    rw [restrictedNormal_out (tnSupport_false hs.1), restrictedNormal_out (tnSupport_false hs.2), mul_zero, mul_zero, add_zero]
  · obtain ⟨x, y, rfl⟩ := two hl
    obtain ⟨p1, p2, p3, p4, p5, p6⟩ := hp
    let a (w : String) : Fin 2 → ℝ := ![f.num (some 0) w, f.num (some 1) w]
    have H := Spin.C54_two_truncated_normals_nd (n := 2) p1 p2 (high1 := a "comp1_high") (loc1 := a "comp1_loc") (low1 := a "comp1_low") (scale1 := a "comp1_scale")
      (high2 := a "comp2_high") (loc2 := a "comp2_loc") (low2 := a "comp2_low") (scale2 := a "comp2_scale")
      (Fin.forall_fin_two.2 ⟨p3.1, p4.1⟩) (Fin.forall_fin_two.2 ⟨p5.1, p6.1⟩) (Fin.forall_fin_two.2 ⟨p3.2, p4.2⟩) (Fin.forall_fin_two.2 ⟨p5.2, p6.2⟩) v
    have e : block c big v f = Full.pair (fun x y => Spin.ndTwoTruncatedNormalMixture (a "comp1_high") (a "comp1_loc") (a "comp1_low") (a "comp1_scale") (a "comp2_high")
        (a "comp2_loc") (a "comp2_low") (a "comp2_scale") (f.num none "zeta") v ![x, y])
      fun x y => (Spin.interval (a "comp1_low" 0) (a "comp1_high" 0) x && Spin.interval (a "comp1_low" 1) (a "comp1_high" 1) y) ||
        (Spin.interval (a "comp2_low" 0) (a "comp2_high" 0) x && Spin.interval (a "comp2_low" 1) (a "comp2_high" 1) y) := by
      unfold block
      rw [h1, h2]
      rfl
    rw [e]
    have G := Full.tilt_good H (fun x y => (Spin.interval (a "comp1_low" 0) (a "comp1_high" 0) x && Spin.interval (a "comp1_low" 1) (a "comp1_high" 1) y) ||
        (Spin.interval (a "comp2_low" 0) (a "comp2_high" 0) x && Spin.interval (a "comp2_low" 1) (a "comp2_high" 1) y)) x y fun hs => by
      simp only [Bool.or_eq_false_iff, Bool.and_eq_false_iff] at hs
      simp only [Fin.prod_univ_two, Matrix.cons_val_zero, Matrix.cons_val_one]
      have z : ∀ {s : ℝ} {p q : ℝ}, (p = 0 ∨ q = 0) → s * (p * q) = 0 := by
        rintro s p q (rfl | rfl) <;> simp
      rw [z (hs.1.imp (fun k => restrictedNormal_out (interval_false k)) fun k => restrictedNormal_out (interval_false k)),
        z (hs.2.imp (fun k => restrictedNormal_out (interval_false k)) fun k => restrictedNormal_out (interval_false k)), add_zero]
    simp only [Fin.prod_univ_two] at G
    exact G
  · obtain ⟨x, y, rfl⟩ := two hl
    obtain ⟨p1, p2, p3, p4⟩ := hp
    have H := Spin.C54_spin_orientation p1 p2 p3 p4 v
    have e : block c big v f = Full.pair (fun x y => Spin.independentSpinOrientation (f.num none "zeta") (f.num (some 0) "scale") (f.num (some 1) "scale") v ![x, y])
      fun x y => Spin.interval (-1) 1 x && Spin.interval (-1) 1 y := by
      unfold block
      rw [h1, h2]
      rfl
    rw [e]
    have G := Full.tilt_good H (fun x y => Spin.interval (-1) 1 x && Spin.interval (-1) 1 y) x y fun hs => by
      rw [Bool.and_eq_false_iff] at hs
      refine if_neg fun k => ?_
      rcases hs with hs | hs
      · exact interval_false hs (k 0)
      · exact interval_false hs (k 1)
    simp only [Fin.forall_fin_two] at G
    exact G
  · obtain ⟨x, rfl⟩ := one hl
    obtain ⟨p1, p2, p3⟩ := hp
    have e : block c big v f = Full.scalar (Spin.skewLogProb (f.num (some 0) "loc") (f.num (some 0) "scale") (f.num (some 0) "epsilon") v) (Spin.interval (-1) 1) := by
      unfold block
      rw [h1, h2]
      rfl
    rw [e]
    obtain ⟨H1, H2, -⟩ := Spin.C54_skew_normal (loc := (f.arg (some 0) "loc").getD 0) p1 p2 p3 v
    have hn : ∀ y, 0 ≤ Spin.skewUnnormalised ((f.arg (some 0) "loc").getD 0) ((f.arg (some 0) "scale").getD 0) ((f.arg (some 0) "epsilon").getD 0) y := by
      intro y
      unfold Spin.skewUnnormalised
      split_ifs
      · exact mul_nonneg (by linarith) (Spin.restrictedNormal_nonneg _ _ _ _)
      · exact mul_nonneg (by linarith) (Spin.restrictedNormal_nonneg _ _ _ _)
    refine isLogDensity_one (p := fun y => Spin.skewUnnormalised _ _ _ y / ∫ y, Spin.skewUnnormalised _ _ _ y) (fun y => div_nonneg (hn y) H1.le) H2 _ x fun hs => ?_
    have ho := interval_false hs
    simp only [Spin.skewUnnormalised, restrictedNormal_out ho, mul_zero, ite_self, zero_div]
  · obtain ⟨x, rfl⟩ := one hl
    have e : block c big v f = Full.scalar (Spin.uniform (f.num (some 0) "low") (f.num (some 0) "high") v).logProb
        (Spin.uniform (f.num (some 0) "low") (f.num (some 0) "high") v).support := by
      unfold block
      rw [h1, h2]
      rfl
    rw [e]
    exact Full.scalar_good (Full.has_at (Spin.has_uniform hp v) x)
  · obtain ⟨x, rfl⟩ := one hl
    have e : block c big v f = Full.redshiftBlock ⟨c, Cosmo.powerlawLogPsi (f.num (some 0) "kappa"), f.num (some 0) "z_max", v⟩ := by
      unfold block
      rw [h1, h2]
      rfl
    rw [e]
    exact redshift_good' hc hV hp v x
  · obtain ⟨x, rfl⟩ := one hl
    have e : block c big v f = Full.scalar (PowerLaw.Dist.mk (f.num none "alpha") (f.num none "low") (f.num none "high") v).logProb
        (PowerLaw.Dist.mk (f.num none "alpha") (f.num none "low") (f.num none "high") v).support := by
      unfold block
      rw [h1, h2]
      rfl
    rw [e]
    exact powerlaw_good hp.1 hp.2 v dV x
  · obtain ⟨x, rfl⟩ := one hl
    have e : block c big v f = Full.scalar (Mass.Broken.mk (f.num none "alpha1") (f.num none "alpha2") (f.num none "mbreak") (f.num none "mmax") (f.num none "mmin") v).logProb
        (Mass.Broken.mk (f.num none "alpha1") (f.num none "alpha2") (f.num none "mbreak") (f.num none "mmax") (f.num none "mmin") v).support := by
      unfold block
      rw [h1, h2]
      rfl
    rw [e]
    exact broken_good hp.1 hp.2.1 hp.2.2 v dV x
  · obtain ⟨x, y, rfl⟩ := two hl
    obtain ⟨p1, p2, p3, p4, p5, p6⟩ := hp
    have H := Spin.C54_minimum_tilt_extended p1 p2 (loc1 := (f.arg (some 0) "loc").getD 0) (loc2 := (f.arg (some 1) "loc").getD 0) p3 p4 p5 p6 v
    have e : block c big v f = Full.pair (fun x y => Spin.minimumTiltExtended (f.num none "zeta") (f.num (some 0) "loc") (f.num (some 1) "loc") (f.num (some 0) "scale")
        (f.num (some 1) "scale") (f.num (some 0) "minimum") (f.num (some 1) "minimum") v ![x, y])
      fun x y => Spin.interval (f.num (some 0) "minimum") 1 x && Spin.interval (f.num (some 1) "minimum") 1 y := by
      unfold block
      rw [h1, h2]
      rfl
    rw [e]
    have G := Full.tilt_good H (fun x y => Spin.interval (f.num (some 0) "minimum") 1 x && Spin.interval (f.num (some 1) "minimum") 1 y) x y fun hs => by
      rw [Bool.and_eq_false_iff] at hs
      have z : ∀ {s : ℝ} {p q : ℝ}, (p = 0 ∨ q = 0) → s * (p * q) = 0 := by
        rintro s p q (rfl | rfl) <;> simp
      simp only [Factor.num] at hs
      have u : ∀ {a b t : ℝ}, t ∉ Set.Icc a b → Spin.uniformDensity a b t = 0 := fun h => if_neg h
      simp only [Matrix.cons_val_zero, Matrix.cons_val_one]
      rw [z (hs.imp (fun k => u (interval_false k)) fun k => u (interval_false k)),
        z (hs.imp (fun k => restrictedNormal_out (interval_false k)) fun k => restrictedNormal_out (interval_false k)), add_zero]
    exact G

/-! ## A component -/

/-- The parts of a component at an event. -/
noncomputable def partsOf (c : Cosmo.Cosmology) (big : ℝ) (v : Bool) (dV : ℝ → ℝ) : List Factor → List Law → List ℝ → List Full.Part
  | f :: fs, L :: ls, x => ⟨block c big v f, sliceOf L (x.take L.dim), L.density dV (x.take L.dim)⟩ :: partsOf c big v dV fs ls (x.drop L.dim)
  | _, _, _ => []

theorem partsOf_spec {c : Cosmo.Cosmology} (hc : c.Proper) {dV : ℝ → ℝ} (hV : IsVolume c dV) (big : ℝ) (v : Bool) {fs : List Factor} {ls : List Law}
    (hL : List.Forall₂ (fun f L => lawOf f = some L) fs ls) (hp : ∀ L ∈ ls, L.Proper) {x : List ℝ} (hx : x.length = lawsDim ls) (hr : AllRegular ls x) :
    (∀ t ∈ partsOf c big v dV fs ls x, t.Good) ∧ (partsOf c big v dV fs ls x).map (·.block) = fs.map (block c big v) ∧
    (partsOf c big v dV fs ls x).flatMap (·.at_.toList) = x.map fin ∧
    ((partsOf c big v dV fs ls x).map (·.density)).prod = productDensity dV ls x := by
  induction hL generalizing x with
  | nil =>
    have : x = [] := List.length_eq_zero_iff.1 hx
    subst this
    simp [partsOf, productDensity]
  | @cons f L fs ls h1 _ ih =>
    simp only [lawsDim, List.map_cons, List.sum_cons] at hx
    have hlen : (x.take L.dim).length = L.dim := by rw [List.length_take]; omega
    obtain ⟨i1, i2, i3, i4⟩ := ih (fun L hL => hp L (by simp [hL])) (x := x.drop L.dim) (by rw [List.length_drop, lawsDim]; omega) hr.2
    simp only [partsOf, List.map_cons, List.flatMap_cons, List.prod_cons, productDensity, i2, i3, i4]
    refine ⟨?_, trivial, ?_, trivial⟩
    · intro t ht
      rcases List.mem_cons.1 ht with rfl | ht
      · exact factor_good hc hV big v h1 (hp L (by simp)) hlen hr.1
      · exact i1 t ht
    · rw [sliceOf_toList hlen, ← List.map_append, List.take_append_drop]

theorem fits_size {b : Base XR} {s : Slice XR} (h : Fits (.base b) s) : shapeSize b.shape = s.toList.length := by
  unfold Fits at h
  simp only [Joint.Dist.shape] at h
  cases hb : b.shape with
  | none =>
    rw [hb] at h
    cases s with
    | one a => rfl
    | many l => exact h.elim
  | some n =>
    rw [hb] at h
    cases s with
    | one a => exact h.elim
    | many l => exact h.symm

theorem total_eq (ds : List (Base XR)) : Joint.Dist.total (ds.map Joint.Dist.base) = (ds.map fun d => shapeSize d.shape).sum := by
  induction ds with
  | nil => simp [Joint.Dist.total]
  | cons d ds ih => simp [Joint.Dist.total, Joint.Dist.shape, ih]

theorem join_shape {ds : List (Base XR)} {d : Joint.Dist XR} (h : Full.join ds = .ok d) : d.shape = some (ds.map fun d => shapeSize d.shape).sum := by
  cases ds with
  | nil => simp [Full.join, mkJoint] at h
  | cons b ds =>
    have : d = .joint ((b :: ds).map Joint.Dist.base) none := by
      simp only [Full.join, mkJoint, flatten, List.map_cons, List.isEmpty_cons] at h
      injection h with h
      exact h.symm
    rw [this, Joint.Dist.shape, total_eq]

theorem component_evaluates {c : Cosmo.Cosmology} (hc : c.Proper) {dV : ℝ → ℝ} (hV : IsVolume c dV) (big : ℝ) (v : Bool) {fs : List Factor} {ls : List Law}
    (hne : fs ≠ []) (hL : List.Forall₂ (fun f L => lawOf f = some L) fs ls) (hp : ∀ L ∈ ls, L.Proper) {x : List ℝ} (hx : x.length = lawsDim ls)
    (hr : AllRegular ls x) :
    ∃ d, Full.join (fs.map (block c big v)) = .ok d ∧ Full.Evaluates d (.many (x.map fin)) (productDensity dV ls x) ∧ d.shape = some x.length := by
  obtain ⟨h1, h2, h3, h4⟩ := partsOf_spec hc hV big v hL hp hx hr
  have hne' : partsOf c big v dV fs ls x ≠ [] := by
    intro k
    rw [k] at h2
    exact hne (by simpa using h2.symm)
  obtain ⟨d, e1, e2⟩ := Full.join_density _ hne' h1
  have e3 := join_shape e1
  rw [h2] at e1
  rw [h3, h4] at e2
  refine ⟨d, e1, e2, ?_⟩
  rw [e3, List.map_map]
  have : ((partsOf c big v dV fs ls x).map fun t => t.at_.toList.length).sum = x.length := by
    have := congrArg List.length h3
    rw [List.length_flatMap, List.length_map] at this
    exact this
  rw [← this]
  congr 2
  exact List.map_congr_left fun t ht => fits_size (h1 t ht).fits

/-! ## The mixture -/

theorem mkMix_eq {α : Type} {ls : List XR} {cs : List (Mixture.Comp α)} {supp : Option (α → Bool)} {m : Mixture.Mix α}
    (h : Mixture.mkMix ls cs supp = .ok m) : m = ⟨ls, cs, supp⟩ := by
  unfold Mixture.mkMix at h
  split_ifs at h
  cases cs with
  | nil => simp at h
  | cons c cs =>
    simp only at h
    split_ifs at h
    injection h with h
    exact h.symm

theorem mixAll_density (v w : Bool) {rates : List ℝ} {ds : List (Joint.Dist XR)} {ps : List ℝ} {x : Slice XR} (hne : ds ≠ [])
    (hlen : ds.length = rates.length) (n : ℕ) (hn : ∀ d ∈ ds, d.shape = some n) (h : List.Forall₂ (fun d p => Full.Evaluates d x p) ds ps) :
    ∃ M, mixAll v rates ds = .ok M ∧ IsLog (M.logProbChecked w x) ∧
      expR (M.logProbChecked w x) = (List.zipWith (fun r p => Real.exp r * p) rates ps).sum := by
  set supp : Slice XR → Bool := fun x => ds.any fun d => (d.support x).getD false with hsupp
  have hmk : ∃ M, Mixture.mkMix (rates.map fin) (ds.map (Full.component v)) (some supp) = .ok M := by
    rw [Mixture.C05_constructor_accepts_iff]
    refine ⟨by simpa using hne, by simp [hlen], ?_, by simp⟩
    intro a ha b hb
    obtain ⟨d, hd, rfl⟩ := List.mem_map.1 ha
    obtain ⟨e, he, rfl⟩ := List.mem_map.1 hb
    simp [Full.component, hn d hd, hn e he]
  obtain ⟨M, hM⟩ := hmk
  refine ⟨M, by unfold mixAll; rw [hM], ?_⟩
  obtain rfl := mkMix_eq hM
  set M : Mixture.Mix (Slice XR) := ⟨rates.map fin, ds.map (Full.component v), some supp⟩ with hMdef
  have hterm : ∀ d p, Full.Evaluates d x p → IsLog (Mixture.compTerm (some supp) (Full.component v d) x) ∧
      expR (Mixture.compTerm (some supp) (Full.component v d) x) = p ∧ ((d.support x).getD false = false → p = 0) := by
    intro d p hd
    obtain ⟨l, s, hl, hs, h1, h2⟩ := hd.value
    have hc : Mixture.compTerm (some supp) (Full.component v d) x = if s then l else ninf := by
      simp only [Mixture.compTerm, Full.component, hl, hs, Option.getD_some, Option.isSome_some, Bool.true_and, Mass.validated]
      cases v <;> cases s <;> rfl
    rw [hc, hs, Option.getD_some]
    cases s with
    | true => exact ⟨(h1 rfl).1, (h1 rfl).2, by simp⟩
    | false => exact ⟨isLog_ninf, by rw [h2 rfl]; rfl, fun _ => h2 rfl⟩
  have hall : (∀ t ∈ M.componentLogProbs x, IsLog t) ∧
      ((M.componentLogProbs x).map expR).sum = (List.zipWith (fun r p => Real.exp r * p) rates ps).sum := by
    rw [hMdef]
    simp only [Mixture.Mix.componentLogProbs, List.map_map]
    clear hM hMdef M hne hsupp
    clear_value supp
    induction h generalizing rates with
    | nil => simp
    | @cons d p ds ps hd _ ih =>
      cases rates with
      | nil => simp at hlen
      | cons r rates =>
        obtain ⟨a, b, -⟩ := hterm d p hd
        obtain ⟨i1, i2⟩ := ih (rates := rates) (by simpa using hlen) (fun d hd => hn d (by simp [hd]))
        simp only [List.map_cons, List.zipWith_cons_cons, List.mem_cons, List.sum_cons, Function.comp_apply]
        refine ⟨?_, ?_⟩
        · rintro t (rfl | ht)
          · exact (isLog_fin r).add a
          · exact i1 t ht
        · rw [expR_add (isLog_fin r) a, b, expR_fin]
          congr 1
  have hS : 0 ≤ ((M.componentLogProbs x).map expR).sum := List.sum_nonneg fun t ht => by
    obtain ⟨u, -, rfl⟩ := List.mem_map.1 ht
    exact expR_nonneg _
  have key := Mixture.logProb_eq M x hall.1
  have hlog : IsLog (M.logProb x) := by rw [key]; exact isLog_log_sum hS
  have hval : expR (M.logProb x) = (List.zipWith (fun r p => Real.exp r * p) rates ps).sum := by
    rw [key, Spin.expR_log hS, hall.2]
  unfold Mixture.Mix.logProbChecked
  cases hs : M.support x with
  | true => simp only [if_true, ite_self]; exact ⟨hlog, hval⟩
  | false =>
    have hz : (List.zipWith (fun r p => Real.exp r * p) rates ps).sum = 0 := by
      have hs' : ∀ d ∈ ds, (d.support x).getD false = false := by
        have : supp x = false := hs
        rw [hsupp] at this
        simpa using this
      clear hval hlog key hS hall hs hM hMdef M hne hsupp
      clear_value supp
      induction h generalizing rates with
      | nil => simp
      | @cons d p ds ps hd _ ih =>
        cases rates with
        | nil => simp
        | cons r rates =>
          rw [List.zipWith_cons_cons, List.sum_cons, (hterm d p hd).2.2 (hs' d (by simp)), mul_zero, zero_add]
          exact ih (by simpa using hlen) (fun d hd => hn d (by simp [hd])) fun d hd => hs' d (by simp [hd])
    rw [hz]
    cases w with
    | true => simp [isLog_ninf]
    | false => simp only [Bool.false_eq_true, if_false]; exact ⟨hlog, by rw [hval, hz]⟩

end GW.Hybrids
