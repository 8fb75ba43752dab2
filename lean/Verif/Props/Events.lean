import Verif.Spec.Events
import Verif.Props.InjectionPrior

/-!
# C48 and C56: the reference priors of event samples, and reading them
-/

namespace GW.Events
open GW XR GW.PyDict GW.Injections
open scoped Classical

/-! ## Helpers -/

def Masses.coords : Masses → MassCoords
  | .source => .source
  | .ratio => .ratio
  | .detectedSource => .detectedSource
  | .detectedRatio => .detectedRatio
  | .detectedPair => .detectedPair
  | .chirp => .chirp
  | .chirpDetected => .chirpDetected

theorem map_coords (c : Masses) (D : ℝ → ℝ) : c.map D = c.coords.map D := by
  funext x
  cases c <;> simp [Masses.map, Masses.coords, MassCoords.map, Masses.names, quantity, MassCoords.masses, chirpMass]

/-- The density in the coordinates `c`, of density 1 in the source masses. -/
noncomputable def Masses.weight (c : Masses) (m1 m2 z : ℝ) : ℝ := c.coords.weigh m1 m2 z 1

theorem weigh_eq (c : MassCoords) (m1 m2 z p : ℝ) : c.weigh m1 m2 z p = p * c.weigh m1 m2 z 1 := by
  cases c <;> simp only [MassCoords.weigh] <;> ring

theorem weight_pos (c : Masses) {m1 m2 z : ℝ} (h1 : 0 < m1) (h2 : 0 < m2) (hz : 0 < 1 + z) : 0 < c.weight m1 m2 z := by
  have hs : 0 < chirpShape (m2 / m1) := by unfold chirpShape; positivity
  unfold Masses.weight
  cases c <;> simp only [Masses.coords, MassCoords.weigh] <;> positivity

theorem density_map (c : Masses) {m1 m2 z : ℝ} (h1 : 0 < m1) (h2 : 0 < m2) (hz : 0 < 1 + z) {D : ℝ → ℝ} {D' : ℝ} (hD : HasDerivAt D D' z) (hD' : 0 < D') (p : ℝ) :
    DensityAfter (c.map D) ![m1, m2, z] p (p * c.weight m1 m2 z / D') := by
  rw [map_coords]
  have := (massDensity c.coords p h1 h2 hz).comp (density_distance D D' _ (by exact hD) hD' _)
  rw [weigh_eq] at this
  exact this

/-- Density in the requested masses over what the code computes. -/
noncomputable def defect (mp : Option MassPrior) (c : Masses) (m1 m2 z : ℝ) : ℝ := match mp, c with
  | some .detectorComponents, .detectedSource => 1 + z
  | some .detectorComponents, .chirp => m1 * (1 + z) ^ 2
  | some .detectorComponents, .chirpDetected => m1 * (1 + z)
  | some .detectorChirpRatio, .detectedSource => 1 + z
  | some .detectorChirpRatio, .chirp => (1 + z) * chirpShape (m2 / m1)
  | some .detectorChirpRatio, .chirpDetected => chirpShape (m2 / m1)
  | some .sourceComponents, .detectedSource => 1 / (1 + z)
  | some .sourceComponents, .detectedRatio => 1 / (1 + z) ^ 2
  | some .sourceComponents, .detectedPair => 1 / (1 + z) ^ 2
  | some .sourceComponents, .chirp => m1
  | some .sourceComponents, .chirpDetected => m1 / (1 + z)
  | _, _ => 1

theorem defect_covered {mp : Option MassPrior} {c : Masses} (h : Covered mp c) (m1 m2 z : ℝ) : defect mp c m1 m2 z = 1 := by
  rcases h with rfl | rfl | rfl | ⟨rfl | rfl, h⟩
  · cases c <;> rfl
  · rcases mp with _ | _ | _ | _ <;> rfl
  · rcases mp with _ | _ | _ | _ <;> rfl
  · rcases mp with _ | _ | _ | _ <;> first | rfl | exact absurd rfl h
  · rcases mp with _ | _ | _ | _ <;> first | rfl | exact absurd rfl h

theorem col_ok {df : Frame} {n : String} (h : n ∈ df.columns) : df.col n = .ok fun r => r n := by
  unfold Frame.col
  rw [if_pos (contains_true h)]

theorem col_error {df : Frame} {n : String} (h : n ∉ df.columns) : df.col n = .error .keyError := by
  unfold Frame.col
  rw [if_neg (by rw [contains_false h]; exact Bool.false_ne_true)]

theorem getQ_ok {L : Loader} {df : Frame} {r : Rec} {m1 m2 z : ℝ} (hq : HasRatio L df) (hr : Describes L df r m1 m2 z) (h1 : 0 < m1) (hz : 0 < 1 + z) :
    ∃ f, getQ L df = .ok f ∧ f r = fin (m2 / m1) := by
  unfold getQ
  by_cases ha : L.name "mass_ratio" ∈ df.columns
  · rw [if_pos (contains_true ha), col_ok ha]
    exact ⟨_, rfl, hr "mass_ratio" (m2 / m1) (by simp [quantity]) ha⟩
  · rw [if_neg (by rw [contains_false ha]; exact Bool.false_ne_true)]
    rcases hq with h | ⟨hb, hc⟩ | ⟨hb, hc, hd⟩
    · exact absurd h ha
    · rw [if_pos (contains_true hb), col_ok hb, col_ok hc]
      refine ⟨_, rfl, ?_⟩
      simp only
      rw [hr "mass_1_source" m1 (by simp [quantity]) hb, hr "mass_2_source" m2 (by simp [quantity]) hc, div_fin_of_ne _ h1.ne']
    · rw [if_neg (by rw [contains_false hb]; exact Bool.false_ne_true), col_ok hc, col_ok hd]
      refine ⟨_, rfl, ?_⟩
      simp only
      rw [hr "mass_1" (m1 * (1 + z)) (by simp [quantity]) hc, hr "mass_2" (m2 * (1 + z)) (by simp [quantity]) hd, div_fin_of_ne _ (mul_pos h1 hz).ne',
        mul_div_mul_right _ _ hz.ne']

theorem asked_contains {c : Masses} {ps : List String} (h : c.Asked ps) {n : String}
    (hn : n ∈ ["mass_1_source", "mass_2_source", "mass_1", "mass_2", "mass_ratio", "chirp_mass", "chirp_mass_detector"]) :
    ps.contains n = (decide (n = c.names.1) || decide (n = c.names.2)) := by
  rw [Bool.eq_iff_iff, List.contains_iff_mem, h.2 n hn]
  simp

/-- The mass term, in all cases. -/
theorem massPrior_exact {L : Loader} {c : Masses} {ps : List String} {df : Frame} {r : Rec} {m1 m2 z : ℝ} (hc : c.Asked ps) (hcols : ∀ p ∈ ps, L.name p ∈ df.columns)
    (hq : HasRatio L df) (hr : Describes L df r m1 m2 z) (h1 : 0 < m1) (h2 : 0 < m2) (hz : 0 < 1 + z) :
    ∃ f, massPrior L ps df = .ok f ∧ ∃ l, f r = fin l ∧ Real.exp l * defect L.massPrior c m1 m2 z = c.weight m1 m2 z / (flatIn L.massPrior c).weight m1 m2 z := by
  have hw := weight_pos c h1 h2 hz
  have hs : 0 < chirpShape (m2 / m1) := by unfold chirpShape; positivity
  have hqp : 0 < m2 / m1 := by positivity
  have hm1d : 0 < m1 * (1 + z) := by positivity
  unfold massPrior
  cases hmp : L.massPrior with
  | none => exact ⟨_, rfl, 0, rfl, by simp [flatIn, defect, hw.ne']⟩
  | some mp =>
    obtain ⟨fq, eq, hfq⟩ := getQ_ok hq hr h1 hz
    have hzc := hcols _ hc.1
    have a1 := asked_contains hc (n := "mass_1_source") (by simp)
    have a2 := asked_contains hc (n := "mass_1") (by simp)
    have a3 := asked_contains hc (n := "mass_ratio") (by simp)
    have a4 := asked_contains hc (n := "chirp_mass") (by simp)
    have a5 := asked_contains hc (n := "chirp_mass_detector") (by simp)
    have hzr := hr "redshift" z (by simp [quantity]) hzc
    have hm1s : "mass_1_source" ∈ ps → df.col (L.name "mass_1_source") = .ok (fun r => r (L.name "mass_1_source")) ∧ r (L.name "mass_1_source") = fin m1 :=
      fun h => ⟨col_ok (hcols _ h), hr _ _ (by simp [quantity]) (hcols _ h)⟩
    have hm1 : "mass_1" ∈ ps → df.col (L.name "mass_1") = .ok (fun r => r (L.name "mass_1")) ∧ r (L.name "mass_1") = fin (m1 * (1 + z)) :=
      fun h => ⟨col_ok (hcols _ h), hr _ _ (by simp [quantity]) (hcols _ h)⟩
    have hmem : ∀ n, ps.contains n = true → n ∈ ps := fun n h => List.contains_iff_mem.1 h
    simp only [eq, contains_true hc.1, col_ok hzc, bind, Except.bind, Bool.not_true, Bool.false_eq_true, if_false]
    have e2 : ∀ t : ℝ, Real.exp (2 * t) = Real.exp t ^ 2 := fun t => by rw [← Real.exp_nat_mul]; norm_num
    cases c <;> simp (decide := true) only [decide_true, decide_false, Bool.or_true, Bool.or_false] at a1 a2 a3 a4 a5 <;>
      simp only [a1, a2, a3, a4, a5, Bool.false_eq_true, if_false, if_true, Bool.or_true, Bool.or_false, pure, Except.pure]
    case source | ratio =>
      obtain ⟨g1, g2⟩ := hm1s (hmem _ a1)
      rw [g1]
      refine ⟨_, rfl, ?_⟩
      cases mp <;> simp only [hzr, g2, hfq, log1p_fin hz, log_fin_pos h1, log_fin_pos hm1d, chirpJacobian_fin hqp, log_fin_pos (one_div_pos.2 hs), sub_fin_fin, add_fin_fin, mul_fin_fin] <;>
        refine ⟨_, rfl, ?_⟩ <;>
        simp only [Real.exp_add, Real.exp_sub, Real.exp_zero, Real.exp_log h1, Real.exp_log hm1d, Real.exp_log hz, Real.exp_log (one_div_pos.2 hs), e2, defect, flatIn, Masses.weight,
          Masses.coords, MassCoords.weigh] <;>
        field_simp
    case detectedSource | detectedRatio | detectedPair =>
      obtain ⟨g1, g2⟩ := hm1 (hmem _ a2)
      rw [g1]
      refine ⟨_, rfl, ?_⟩
      cases mp <;> simp only [hzr, g2, hfq, log1p_fin hz, log_fin_pos h1, log_fin_pos hm1d, chirpJacobian_fin hqp, log_fin_pos (one_div_pos.2 hs), sub_fin_fin, add_fin_fin, mul_fin_fin] <;>
        refine ⟨_, rfl, ?_⟩ <;>
        simp only [Real.exp_add, Real.exp_sub, Real.exp_zero, Real.exp_log h1, Real.exp_log hm1d, Real.exp_log hz, Real.exp_log (one_div_pos.2 hs), e2, defect, flatIn, Masses.weight,
          Masses.coords, MassCoords.weigh] <;>
        field_simp
    case chirp | chirpDetected =>
      refine ⟨_, rfl, ?_⟩
      cases mp <;> simp only [hzr, hfq, log1p_fin hz, log_fin_pos h1, log_fin_pos hm1d, chirpJacobian_fin hqp, log_fin_pos (one_div_pos.2 hs), sub_fin_fin, add_fin_fin, mul_fin_fin] <;>
        refine ⟨_, rfl, ?_⟩ <;>
        simp only [Real.exp_add, Real.exp_sub, Real.exp_zero, Real.exp_log h1, Real.exp_log hm1d, Real.exp_log hz, Real.exp_log (one_div_pos.2 hs), e2, defect, flatIn, Masses.weight,
          Masses.coords, MassCoords.weigh] <;>
        field_simp


/-- The derivative of the third coordinate. -/
def coordDeriv (dp : Option DistancePrior) (D' : ℝ) : ℝ := match dp with
  | some .euclidean => D'
  | _ => 1

/-- The constants the code adds: `4π` for the comoving prior, `1/4` for the component spin prior. -/
noncomputable def constants (L : Loader) : ℝ :=
  (if L.distancePrior = some .comoving then 4 * Real.pi else 1) * (if L.spinComponent then 1 / 4 else 1)

theorem distance_exact {L : Loader} {e : Env} {ps : List String} {df : Frame} {r : Rec} {z D' : ℝ} {V D : ℝ → ℝ} (hps : "redshift" ∈ ps) (hcol : L.name "redshift" ∈ df.columns)
    (hzr : r (L.name "redshift") = fin z) (hz : 0 < 1 + z) (he : CosmologyAt L.distancePrior e V D D' z) :
    ∃ f, distancePrior L e ps df = .ok f ∧ ∃ l, f r = fin l ∧
      Real.exp l = (if L.distancePrior = some .comoving then 4 * Real.pi else 1) * distanceDensity L.distancePrior V D z * coordDeriv L.distancePrior D' := by
  unfold distancePrior
  cases hd : L.distancePrior with
  | none => exact ⟨_, rfl, 0, rfl, by simp [distanceDensity, coordDeriv]⟩
  | some dp =>
    rw [hd] at he
    simp only [contains_true hps, col_ok hcol, Bool.not_true, Bool.false_eq_true, if_false, bind, Except.bind]
    cases dp with
    | comoving =>
      have hpi : 0 < 4 * Real.pi := by positivity
      refine ⟨_, rfl, ?_⟩
      simp only [CosmologyAt] at he
      simp only [hzr, he, log_fin_pos hpi, log1p_fin hz, add_fin_fin, sub_fin_fin]
      refine ⟨_, rfl, ?_⟩
      rw [Real.exp_sub, Real.exp_add, Real.exp_log hpi, Real.exp_log hz]
      simp [distanceDensity, coordDeriv]
      ring
    | euclidean =>
      obtain ⟨he1, he2, he3, he4, he5⟩ := he
      refine ⟨_, rfl, ?_⟩
      simp only [hzr, he1, he2, log_fin_pos he4, log_fin_pos he5, add_fin_fin, mul_fin_fin]
      refine ⟨_, rfl, ?_⟩
      rw [Real.exp_add, Real.exp_log he5, two_mul, Real.exp_add, Real.exp_log he4, if_neg (by simp)]
      simp only [distanceDensity, coordDeriv]
      ring

/-- The density of the requested spins. -/
noncomputable def spinDensity (ps : List String) (v x1 x2 : ℝ) : ℝ :=
  (if "chi_eff" ∈ ps then v else 1) * (if "chi_1" ∈ ps then alignedDensity x1 else 1) * (if "chi_2" ∈ ps then alignedDensity x2 else 1)

theorem alignedDensity_pos {x : ℝ} (h0 : 0 < |x|) (h1 : |x| < 1) : 0 < alignedDensity x := by
  rw [alignedDensity_eq (abs_pos.1 h0)]
  have := Real.log_neg h0 h1
  linarith

theorem chi_exact {L : Loader} {ps : List String} {df : Frame} {r : Rec} {key : String} {x : ℝ} (hcols : ∀ p ∈ ps, L.name p ∈ df.columns) (h : AlignedAt L ps r key x) :
    ∃ f, chiPrior L ps df key = .ok f ∧ ∃ l, f r = fin l ∧ Real.exp l = if key ∈ ps then alignedDensity x else 1 := by
  unfold chiPrior
  by_cases hk : key ∈ ps
  · obtain ⟨h0, h1, h2⟩ := h hk
    rw [if_pos (contains_true hk), col_ok (hcols _ hk), if_pos hk]
    refine ⟨_, rfl, ?_⟩
    have hp := alignedDensity_pos h1 h2
    simp only [h0, alignedSpinPrior_fin (abs_pos.1 h1), log_fin_pos hp]
    exact ⟨_, rfl, Real.exp_log hp⟩
  · rw [if_neg (by rw [contains_false hk]; exact Bool.false_ne_true), if_neg hk]
    exact ⟨_, rfl, 0, rfl, Real.exp_zero⟩

theorem effective_exact {L : Loader} {e : Env} {ps : List String} {df : Frame} {r : Rec} {m1 m2 z v : ℝ} (hcols : ∀ p ∈ ps, L.name p ∈ df.columns)
    (hq : HasRatio L df) (hr : Describes L df r m1 m2 z) (h1 : 0 < m1) (hz : 0 < 1 + z) (hv : EffectiveAt L e ps r (m2 / m1) v) :
    ∃ f, effectivePrior L e ps df = .ok f ∧ ∃ l, f r = fin l ∧ Real.exp l = if "chi_eff" ∈ ps then v else 1 := by
  unfold effectivePrior
  by_cases hk : "chi_eff" ∈ ps
  · obtain ⟨hv0, hv⟩ := hv hk
    obtain ⟨fq, eq, hfq⟩ := getQ_ok hq hr h1 hz
    rw [if_pos (contains_true hk), col_ok (hcols _ hk), if_pos hk, eq]
    simp only [bind, Except.bind]
    by_cases hp : "chi_p" ∈ ps
    · rw [if_pos hp] at hv
      rw [if_pos (contains_true hp), col_ok (hcols _ hp)]
      refine ⟨_, rfl, ?_⟩
      simp only [hfq, hv, log_fin_pos hv0]
      exact ⟨_, rfl, Real.exp_log hv0⟩
    · rw [if_neg hp] at hv
      rw [if_neg (by rw [contains_false hp]; exact Bool.false_ne_true)]
      refine ⟨_, rfl, ?_⟩
      simp only [hfq, hv, log_fin_pos hv0]
      exact ⟨_, rfl, Real.exp_log hv0⟩
  · rw [if_neg (by rw [contains_false hk]; exact Bool.false_ne_true), if_neg hk]
    exact ⟨_, rfl, 0, rfl, Real.exp_zero⟩

theorem spin_exact {L : Loader} {e : Env} {ps : List String} {df : Frame} {r : Rec} {m1 m2 z v x1 x2 : ℝ} (hcols : ∀ p ∈ ps, L.name p ∈ df.columns)
    (hq : HasRatio L df) (hr : Describes L df r m1 m2 z) (h1 : 0 < m1) (hz : 0 < 1 + z) (hv : EffectiveAt L e ps r (m2 / m1) v)
    (hx1 : AlignedAt L ps r "chi_1" x1) (hx2 : AlignedAt L ps r "chi_2" x2) :
    ∃ f, spinPrior L e ps df = .ok f ∧ ∃ l, f r = fin l ∧ Real.exp l = (if L.spinComponent then 1 / 4 else 1) * spinDensity ps v x1 x2 := by
  obtain ⟨f, ef, lf, hf, xf⟩ := effective_exact hcols hq hr h1 hz hv
  obtain ⟨g1, eg1, l1, hg1, xg1⟩ := chi_exact hcols hx1
  obtain ⟨g2, eg2, l2, hg2, xg2⟩ := chi_exact hcols hx2
  unfold spinPrior
  rw [ef, eg1, eg2]
  refine ⟨_, rfl, ?_⟩
  simp only [hf, hg1, hg2]
  unfold spinDensity
  rw [← xf, ← xg1, ← xg2]
  cases L.spinComponent
  · simp only [Bool.false_eq_true, if_false, add_fin_fin]
    refine ⟨_, rfl, ?_⟩
    rw [Real.exp_add, Real.exp_add, Real.exp_add, Real.exp_zero]
    ring
  · simp only [if_true, log_fin_pos (show (0 : ℝ) < 4 by norm_num), sub_fin_fin, add_fin_fin]
    refine ⟨_, rfl, ?_⟩
    rw [Real.exp_add, Real.exp_add, Real.exp_add, Real.exp_sub, Real.exp_zero, Real.exp_log (by norm_num)]
    ring

/-- The log reference prior, in all cases. -/
theorem logPrior_exact {L : Loader} {e : Env} {ps : List String} {c : Masses} {df : Frame} {r : Rec} {m1 m2 z D' v x1 x2 : ℝ} {V D : ℝ → ℝ} (hc : c.Asked ps)
    (hcols : ∀ p ∈ ps, L.name p ∈ df.columns) (hq : HasRatio L df) (hr : Describes L df r m1 m2 z) (h1 : 0 < m1) (h2 : 0 < m2) (hz : -1 < z)
    (he : CosmologyAt L.distancePrior e V D D' z) (hv : EffectiveAt L e ps r (m2 / m1) v) (hx1 : AlignedAt L ps r "chi_1" x1) (hx2 : AlignedAt L ps r "chi_2" x2) :
    ∃ f, logPrior L e ps df = .ok f ∧ ∃ l, f r = fin l ∧ ∃ p0 p', IsStatedPrior L c V D ![m1, m2, z] p0 ∧ DensityAfter (c.map id) ![m1, m2, z] p0 p' ∧
      Real.exp l * defect L.massPrior c m1 m2 z = constants L * p' * spinDensity ps v x1 x2 := by
  have hz : 0 < 1 + z := by linarith
  have hzr := hr "redshift" z (by simp [quantity]) (hcols _ hc.1)
  obtain ⟨d, ed, ld, hd, xd⟩ := distance_exact hc.1 (hcols _ hc.1) hzr hz he
  obtain ⟨m, em, lm, hm, xm⟩ := massPrior_exact hc hcols hq hr h1 h2 hz
  obtain ⟨s, es, ls, hs, xs⟩ := spin_exact (e := e) hcols hq hr h1 hz hv hx1 hx2
  unfold logPrior
  rw [ed, em, es]
  refine ⟨_, rfl, ?_⟩
  simp only [hd, hm, hs, add_fin_fin]
  refine ⟨_, rfl, ?_⟩
  have hcd : HasDerivAt (distanceCoord L.distancePrior D) (coordDeriv L.distancePrior D') z ∧ 0 < coordDeriv L.distancePrior D' := by
    rcases hL : L.distancePrior with _ | _ | _
    · exact ⟨hasDerivAt_id z, one_pos⟩
    · exact ⟨hasDerivAt_id z, one_pos⟩
    · rw [hL] at he
      exact ⟨he.2.2.1, he.2.2.2.2⟩
  have hw' := weight_pos (flatIn L.massPrior c) h1 h2 hz
  have h0 := density_map (flatIn L.massPrior c) h1 h2 hz hcd.1 hcd.2
    (distanceDensity L.distancePrior V D z * coordDeriv L.distancePrior D' / (flatIn L.massPrior c).weight m1 m2 z)
  have h3 := density_map c h1 h2 hz (hasDerivAt_id z) one_pos
    (distanceDensity L.distancePrior V D z * coordDeriv L.distancePrior D' / (flatIn L.massPrior c).weight m1 m2 z)
  refine ⟨_, _, ?_, h3, ?_⟩
  · have : distanceDensity L.distancePrior V D z * coordDeriv L.distancePrior D' / (flatIn L.massPrior c).weight m1 m2 z * (flatIn L.massPrior c).weight m1 m2 z /
        coordDeriv L.distancePrior D' = distanceDensity L.distancePrior V D z := by
      have := hcd.2.ne'
      have := hw'.ne'
      field_simp
    rw [this] at h0
    exact h0
  · rw [Real.exp_add, Real.exp_add, Real.exp_add, Real.exp_zero, xd, xs]
    have : Real.exp lm * defect L.massPrior c m1 m2 z = c.weight m1 m2 z / (flatIn L.massPrior c).weight m1 m2 z := xm
    unfold constants
    calc _ = (if L.distancePrior = some DistancePrior.comoving then 4 * Real.pi else 1) * distanceDensity L.distancePrior V D z * coordDeriv L.distancePrior D' *
          (Real.exp lm * defect L.massPrior c m1 m2 z) * ((if L.spinComponent = true then 1 / 4 else 1) * spinDensity ps v x1 x2) := by ring
      _ = _ := by
        rw [this]
        ring

/-! ## C48 -/

/-- **C48.**  For every distance prior and spin prior option, every combination of a mass prior and requested masses that is covered, every requested spin
parameters and every sample: the exponential of the log reference prior is, up to a constant that does not depend on the sample, the density of the stated
prior in the requested masses and redshift, times the density of the requested spins. -/
theorem C48_density (L : Loader) (e : Env) (ps : List String) (c : Masses) (hcov : Covered L.massPrior c) (hc : c.Asked ps) (V D : ℝ → ℝ) (df : Frame)
    (hcols : ∀ p ∈ ps, L.name p ∈ df.columns) (hq : HasRatio L df) :
    ∃ K > 0, ∀ (r : Rec) (m1 m2 z D' v x1 x2 : ℝ), 0 < m1 → 0 < m2 → -1 < z → Describes L df r m1 m2 z → CosmologyAt L.distancePrior e V D D' z →
      EffectiveAt L e ps r (m2 / m1) v → AlignedAt L ps r "chi_1" x1 → AlignedAt L ps r "chi_2" x2 →
      ∃ f l p0 p', logPrior L e ps df = .ok f ∧ f r = fin l ∧ IsStatedPrior L c V D ![m1, m2, z] p0 ∧ DensityAfter (c.map id) ![m1, m2, z] p0 p' ∧
        Real.exp l = K * (p' * spinDensity ps v x1 x2) := by
  refine ⟨constants L, ?_, ?_⟩
  · unfold constants
    split_ifs <;> positivity
  · intro r m1 m2 z D' v x1 x2 h1 h2 hz hr he hv hx1 hx2
    obtain ⟨f, ef, l, hl, p0, p', hp0, hp', hx⟩ := logPrior_exact hc hcols hq hr h1 h2 hz he hv hx1 hx2
    rw [defect_covered hcov, mul_one] at hx
    exact ⟨f, l, p0, p', ef, hl, hp0, hp', by rw [hx]; ring⟩

theorem chirpShape_ne : chirpShape (1 / 2) ≠ chirpShape 1 := by
  have h : ∀ q : ℝ, 0 < q → chirpShape q ^ (5 : ℝ) = q ^ 3 / (1 + q) := by
    intro q hq
    unfold chirpShape
    rw [Real.div_rpow (by positivity) (by positivity), ← Real.rpow_mul hq.le, ← Real.rpow_mul (by linarith)]
    norm_num
  intro he
  have h1 := h (1 / 2) (by norm_num)
  rw [he, h 1 one_pos] at h1
  norm_num at h1

/-- The factor that is missing outside the covered combinations is not a constant. -/
theorem defect_varies {mp : MassPrior} {c : Masses} (h : ¬ Covered (some mp) c) :
    ∃ m1 m2 z : ℝ, 0 < m1 ∧ 0 < m2 ∧ -1 < z ∧ defect (some mp) c m1 m2 z ≠ defect (some mp) c 1 1 0 := by
  have hs : 0 < chirpShape 1 := by unfold chirpShape; positivity
  cases mp <;> cases c
  case detectorComponents.source | detectorComponents.ratio | detectorComponents.detectedRatio | detectorComponents.detectedPair | detectorChirpRatio.source |
      detectorChirpRatio.ratio | detectorChirpRatio.detectedRatio | detectorChirpRatio.detectedPair | sourceComponents.source | sourceComponents.ratio =>
    exact absurd (by simp [Covered]) h
  case detectorChirpRatio.chirp =>
    refine ⟨1, 1, 1, one_pos, one_pos, by norm_num, ?_⟩
    simp only [defect, div_one]
    intro h
    nlinarith
  case detectorChirpRatio.chirpDetected =>
    refine ⟨2, 1, 0, two_pos, one_pos, by norm_num, ?_⟩
    simp only [defect, div_one]
    exact chirpShape_ne
  case sourceComponents.chirp | sourceComponents.chirpDetected | detectorComponents.chirp | detectorComponents.chirpDetected =>
    refine ⟨2, 2, 0, two_pos, two_pos, by norm_num, ?_⟩
    simp only [defect]
    norm_num
  all_goals
    refine ⟨1, 1, 1, one_pos, one_pos, by norm_num, ?_⟩
    simp only [defect]
    norm_num

theorem defect_pos (mp : Option MassPrior) (c : Masses) {m1 m2 z : ℝ} (h1 : 0 < m1) (h2 : 0 < m2) (hz : -1 < z) : 0 < defect mp c m1 m2 z := by
  have hz : 0 < 1 + z := by linarith
  have hs : 0 < chirpShape (m2 / m1) := by unfold chirpShape; positivity
  unfold defect
  split <;> positivity

/-- A frame with every mass column and the redshift, and its row for a binary. -/
def fullFrame : Frame := ⟨["mass_1_source", "mass_2_source", "mass_1", "mass_2", "mass_ratio", "chirp_mass", "chirp_mass_detector", "redshift"], []⟩

noncomputable def binary (m1 m2 z : ℝ) : Rec := fun p => fin ((quantity m1 m2 z p).getD 0)

/-- **C48 fails** for every other combination: flat source masses with detected masses requested, any mass prior with `mass_1` and `mass_2_source`, and any
mass prior with a chirp mass.  There the ratio of the computed prior to the density of the stated prior takes different values on two samples, so it is not
a constant. -/
theorem C48_uncovered_violated (e : Env) (mp : MassPrior) (c : Masses) (h : ¬ Covered (some mp) c) :
    ∃ f x y l l' p0 p p0' p', logPrior { filenames := [], massPrior := some mp } e [c.names.1, c.names.2, "redshift"] fullFrame = .ok f ∧
      f (binary (x 0) (x 1) (x 2)) = fin l ∧ IsStatedPrior { filenames := [], massPrior := some mp } c id id x p0 ∧ DensityAfter (c.map id) x p0 p ∧
      f (binary (y 0) (y 1) (y 2)) = fin l' ∧ IsStatedPrior { filenames := [], massPrior := some mp } c id id y p0' ∧ DensityAfter (c.map id) y p0' p' ∧
      Real.exp l / p ≠ Real.exp l' / p' := by
  set L : Loader := { filenames := [], massPrior := some mp } with hL
  have hname : ∀ n, L.name n = n := fun n => rfl
  have hc : c.Asked [c.names.1, c.names.2, "redshift"] := by
    cases c <;> simp [Masses.Asked, Masses.names]
  have hcols : ∀ p ∈ [c.names.1, c.names.2, "redshift"], L.name p ∈ fullFrame.columns := by
    cases c <;> simp [fullFrame, Masses.names, hname]
  have hq : HasRatio L fullFrame := Or.inl (by simp [fullFrame, hname])
  have hb : ∀ m1 m2 z, Describes L fullFrame (binary m1 m2 z) m1 m2 z := by
    intro m1 m2 z p v hv _
    rw [hname, binary, hv]
    rfl
  have hv : ∀ r q, EffectiveAt L e [c.names.1, c.names.2, "redshift"] r q 1 := by
    intro r q hx
    cases c <;> simp [Masses.names] at hx
  have hx : ∀ r, AlignedAt L [c.names.1, c.names.2, "redshift"] r "chi_1" 1 ∧ AlignedAt L [c.names.1, c.names.2, "redshift"] r "chi_2" 1 := by
    intro r
    constructor <;> intro hx <;> cases c <;> simp [Masses.names] at hx
  have hs : spinDensity [c.names.1, c.names.2, "redshift"] 1 1 1 = 1 := by
    cases c <;> simp [Masses.names, spinDensity]
  obtain ⟨m1, m2, z, h1, h2, hz, hne⟩ := defect_varies h
  obtain ⟨f, ef, l, hl, p0, p, hp0, hp, he⟩ := logPrior_exact (e := e) (V := id) (D := id) (D' := 1) hc hcols hq (hb m1 m2 z) h1 h2 hz trivial (hv _ _) (hx _).1 (hx _).2
  obtain ⟨f', ef', l', hl', p0', p', hp0', hp', he'⟩ :=
    logPrior_exact (e := e) (V := id) (D := id) (D' := 1) hc hcols hq (hb 1 1 0) one_pos one_pos (by norm_num) trivial (hv _ _) (hx _).1 (hx _).2
  obtain rfl : f = f' := by
    rw [ef] at ef'
    injection ef'
  refine ⟨f, ![m1, m2, z], ![1, 1, 0], l, l', p0, p, p0', p', ef, hl, hp0, hp, hl', hp0', hp', ?_⟩
  have hcn : constants L = 1 := by simp [constants, hL]
  rw [hs, hcn, one_mul, mul_one] at he he'
  rw [← he, ← he', div_mul_cancel_left₀ (Real.exp_pos _).ne', div_mul_cancel_left₀ (Real.exp_pos _).ne']
  exact fun hh => hne (inv_injective hh)

/-- The detected masses with a flat source prior, and the detected chirp mass with the prior that is flat in it, are not covered. -/
example : ¬ Covered (some .sourceComponents) .detectedPair ∧ ¬ Covered (some .detectorChirpRatio) .chirpDetected := by simp [Covered]

/-- The hypotheses of `C48_density` are met: flat detector-frame chirp mass and ratio, Euclidean distances, samples in detected component masses and the
aligned spins, read from aliased columns. -/
example : ∃ (L : Loader) (e : Env) (ps : List String) (c : Masses) (V D : ℝ → ℝ) (df : Frame) (r : Rec) (m1 m2 z D' v x1 x2 : ℝ),
    L.massPrior = some .detectorChirpRatio ∧ L.distancePrior = some .euclidean ∧ Covered L.massPrior c ∧ c.Asked ps ∧ (∀ p ∈ ps, L.name p ∈ df.columns) ∧ HasRatio L df ∧
      0 < m1 ∧ 0 < m2 ∧ -1 < z ∧ Describes L df r m1 m2 z ∧ CosmologyAt L.distancePrior e V D D' z ∧ EffectiveAt L e ps r (m2 / m1) v ∧ AlignedAt L ps r "chi_1" x1 ∧
      AlignedAt L ps r "chi_2" x2 := by
  refine ⟨⟨[], [("mass_1", "m1det")], none, some .detectorChirpRatio, true, some .euclidean⟩, ⟨id, fun z => z + fin 1, fun _ => fin 1, fun _ _ _ => fin 1, fun _ _ => fin 1⟩,
    ["mass_1", "mass_2", "redshift", "chi_1"], .detectedPair, id, fun z => z + 1, ⟨["m1det", "mass_2", "redshift", "chi_1"], []⟩,
    fun p => if p = "m1det" then fin 60 else if p = "mass_2" then fin 30 else if p = "redshift" then fin 1 else fin (1 / 2), 30, 15, 1, 1, 1, 1 / 2, 1 / 2,
    rfl, rfl, by simp [Covered], by simp [Masses.Asked, Masses.names], by simp [Loader.name, get?], by simp [HasRatio, Loader.name, get?], by norm_num, by norm_num, by norm_num,
    ?_, ⟨by simp, rfl, (hasDerivAt_id _).add_const _, by norm_num, one_pos⟩, by simp [EffectiveAt], ?_, by simp [AlignedAt]⟩
  · intro p v hv hp
    simp only [Loader.name, get?] at hp ⊢
    by_cases h : p = "mass_1"
    · subst h
      simp [quantity] at hv ⊢
      linarith
    · have hne : ¬ "mass_1" = p := fun hh => h hh.symm
      simp only [hne, if_false, Option.getD_none] at hp ⊢
      rw [List.mem_cons, List.mem_cons, List.mem_cons, List.mem_singleton] at hp
      rcases hp with rfl | rfl | rfl | rfl
      · simp [quantity] at hv
      · simp [quantity] at hv ⊢
        linarith
      · simp [quantity] at hv ⊢
        linarith
      · simp [quantity] at hv
  · intro _
    have habs : |(1 / 2 : ℝ)| = 1 / 2 := abs_of_pos (by norm_num)
    exact ⟨by simp [Loader.name, get?], by rw [habs]; norm_num, by rw [habs]; norm_num⟩

/-- **C48, error branches.**  A distance or mass prior without the redshift among the requested parameters raises, and so does a mass prior when the ratio
cannot be computed. -/
theorem C48_raises (L : Loader) (e : Env) (ps : List String) (df : Frame) :
    (L.distancePrior ≠ none → "redshift" ∉ ps → logPrior L e ps df = .error .valueError) ∧
    (L.massPrior ≠ none → "redshift" ∉ ps → ∃ err, logPrior L e ps df = .error err) ∧
    (L.massPrior ≠ none → ¬ HasRatio L df → ∃ err, logPrior L e ps df = .error err) := by
  have hd : L.distancePrior ≠ none → "redshift" ∉ ps → distancePrior L e ps df = .error .valueError := by
    intro h hz
    unfold distancePrior
    cases hd : L.distancePrior with
    | none => exact absurd hd h
    | some dp => simp only [contains_false hz, Bool.not_false, if_true]
  have hm : L.massPrior ≠ none → "redshift" ∉ ps → ∃ err, massPrior L ps df = .error err := by
    intro h hz
    unfold massPrior
    cases hd : L.massPrior with
    | none => exact absurd hd h
    | some mp =>
      cases getQ L df with
      | error err => exact ⟨err, rfl⟩
      | ok q =>
        simp only [bind, Except.bind, contains_false hz, Bool.not_false, if_true]
        exact ⟨_, rfl⟩
  have hq : ¬ HasRatio L df → getQ L df = .error .keyError := by
    intro h
    unfold HasRatio at h
    push Not at h
    obtain ⟨h1, h2, h3⟩ := h
    unfold getQ
    rw [if_neg (by rw [contains_false h1]; exact Bool.false_ne_true)]
    by_cases ha : L.name "mass_1_source" ∈ df.columns
    · rw [if_pos (contains_true ha), col_error (h2 ha)]
      rfl
    · rw [if_neg (by rw [contains_false ha]; exact Bool.false_ne_true)]
      by_cases hb : L.name "mass_2" ∈ df.columns
      · rw [col_ok hb, col_error (fun hc => h3 ha hc hb)]
        rfl
      · rw [col_error hb]
        rfl
  have key : (∃ err, massPrior L ps df = .error err) → ∃ err, logPrior L e ps df = .error err := by
    rintro ⟨err, herr⟩
    unfold logPrior
    cases distancePrior L e ps df with
    | error err' => exact ⟨err', rfl⟩
    | ok d =>
      rw [herr]
      exact ⟨err, rfl⟩
  refine ⟨?_, fun h hz => key (hm h hz), fun h hr => key ?_⟩
  · intro h hz
    unfold logPrior
    rw [hd h hz]
    rfl
  · unfold massPrior
    cases hd : L.massPrior with
    | none => exact absurd hd h
    | some mp =>
      rw [hq hr]
      exact ⟨_, rfl⟩

end GW.Events
