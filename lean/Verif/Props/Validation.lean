import Verif.Props.FullModels
import Verif.Lemmas.EccMatters

/-!
# C81: argument validation does not change a population density

C63 for the eccentricity model is here too.
-/

namespace GW.Full
open GW XR GW.PyDict GW.Joint MeasureTheory ProbabilityTheory
open scoped Classical

/-! ## The eccentricity model -/

/-- **C63** (`EccentricityMattersModel`; partial: not at `m1 = mmin`, see below).  Whatever numpyro's global setting and the `validate_args` argument, the factory succeeds, and at every event `(m1, m2, e)` with `m1 ≠ mmin` the log
density is never NaN or `+inf` and is the log of the exponential of `log_rate` times the mass density times the normal density restricted to `[low, high]`. -/
theorem C63_eccentricity_matters_partial (isGlobal : Bool) (validateArgs : Option Bool) {rate alphaM mmin mmax loc scale low high : ℝ} (h0 : 0 < mmin) (h : mmin < mmax) (hs : 0 < scale) (hlh : low < high)
    (m1 m2 e : ℝ) (hm : m1 ≠ mmin) :
    ∃ M, eccentricityMatters isGlobal validateArgs rate alphaM mmin mmax loc scale low high = .ok M ∧
      let lp := M.logProbChecked (validateArgs.getD isGlobal) (.many [fin m1, fin m2, fin e])
      IsLog lp ∧ expR lp = Real.exp rate * (wysockiDensity alphaM mmin mmax m1 m2 * Spin.restrictedNormal loc scale (Set.Icc low high) e) := by
  have g1 := wysocki_good (alphaM := alphaM) h0 h (validateArgs.getD isGlobal) (m2 := m2) hm
  have g2 := scalar_good (has_at (Spin.has_truncatedNormal (loc := loc) (low := some low) (high := some high) hs (by simp [Spin.loX, Spin.hiX, hlh]) (validateArgs.getD isGlobal)) e)
  obtain ⟨d, e1, e2⟩ := join_density [_, _] (by simp) (by simpa using And.intro g1 g2)
  obtain ⟨M, e3, e4, e5⟩ := scaled_density' isGlobal (validateArgs.getD isGlobal) d rate _ _ e2
  refine ⟨M, ?_, e4, ?_⟩
  · simp only [List.map_cons, List.map_nil] at e1
    simp only [eccentricityMatters, e1]
    exact e3
  · simp only [List.map_cons, List.map_nil, List.prod_cons, List.prod_nil, mul_one] at e5
    exact e5

/-- A binary of the eccentricity analyses, with the global setting off and the argument on. -/
example : ∃ M, eccentricityMatters false (some true) 1 2.3 5 50 0 0.1 0 1 = .ok M ∧ IsLog (M.logProbChecked true (.many [fin 30, fin 20, fin 0.2])) := by
  obtain ⟨M, h1, h2, -⟩ := C63_eccentricity_matters_partial false (some true) (rate := 1) (alphaM := 2.3) (mmin := 5) (mmax := 50) (loc := 0) (scale := 0.1) (low := 0) (high := 1)
    (by norm_num) (by norm_num) (by norm_num) (by norm_num) 30 20 0.2 (by norm_num)
  exact ⟨M, h1, h2⟩

/-- At a primary mass equal to `mmin` the interval of the secondary has no width and the log density is `+inf`: the exception in the theorem above is there in the code. -/
theorem C63_eccentricity_matters_edge_violated :
    ∃ M, eccentricityMatters true none 0 0 5 50 0 0.1 0 1 = .ok M ∧ M.logProbChecked true (.many [fin 5, fin 5, fin 0.2]) = pinf := by
  have hr : (Mass.Wysocki.mk 0 5 50 true).support (fin 5) (fin 5) = true := by
    rw [Mass.Wysocki.support, Mass.accepts_iff, Constraints.C19_sandwich_iff]
    norm_num
  have e1 := PowerLaw.logProbFn_eq (α := -0) (l := 5) (h := 50) (x := 5) (by norm_num) (by norm_num) (by norm_num)
  simp only [PowerLaw.logProbFn] at e1
  have e2 : Mass.uniformLogpdf (fin 5) (fin 5) (fin 5 - fin 5) = pinf := by
    simp [Mass.uniformLogpdf]
  have e3 : (Mass.Wysocki.mk 0 5 50 true).logProb (fin 5) (fin 5) = pinf := by
    simp only [Mass.Wysocki.logProb, Mass.validated, hr, select_true, ite_self, e1, e2]
    rfl
  have H := Spin.has_truncatedNormal (loc := 0) (s := 0.1) (low := some 0) (high := some 1) (by norm_num) (by simp [Spin.loX, Spin.hiX]) true
  have hi : (Spin.truncatedNormal 0 0.1 (some 0) (some 1) true).support (fin 0.2) = true := by
    simp only [Spin.truncatedNormal, Spin.tnSupport, Spin.interval_fin]
    norm_num
  obtain ⟨k1, k2⟩ := H.inside 0.2 hi
  let b1 := pair (Mass.Wysocki.mk 0 5 50 true).logProb (Mass.Wysocki.mk 0 5 50 true).support
  let b2 := scalar (Spin.truncatedNormal 0 0.1 (some 0) (some 1) true).logProb (Spin.truncatedNormal 0 0.1 (some 0) (some 1) true).support
  have f1 : Fits (.base b1) (.many [fin 5, fin 5]) := rfl
  have f2 : Fits (.base b2) (.one (fin 0.2)) := trivial
  have l1 := LP_cons f1 [.base b2] [fin 0.2]
  have l2 := LP_cons f2 [] []
  have s1 := SP_cons f1 [.base b2] [fin 0.2]
  have s2 := SP_cons f2 [] []
  rw [LP_nil, show (Joint.Dist.base b2).logProb (.one (fin 0.2)) = some (fin _) from congrArg some k2] at l2
  rw [SP_nil, show (Joint.Dist.base b2).support (.one (fin 0.2)) = some true from congrArg some hi] at s2
  simp only [Slice.toList, List.cons_append, List.nil_append] at l1 l2 s1 s2
  rw [l2, show (Joint.Dist.base b1).logProb (.many [fin 5, fin 5]) = some pinf from congrArg some e3] at l1
  rw [s2, show (Joint.Dist.base b1).support (.many [fin 5, fin 5]) = some true from congrArg some hr] at s1
  obtain ⟨M, h1, h2⟩ := scaled_pinf true (.joint [.base b1, .base b2] none) 0 (.many [fin 5, fin 5, fin 0.2]) (by simpa [Joint.Dist.logProb] using l1) (by simpa [Joint.Dist.support] using s1)
  exact ⟨M, h1, h2⟩

/-! ## C81 -/

/-- **C81** (`PowerlawPeak`).  Built with `validate_args=True` and built with `validate_args=False`, the model has the same log density at every real event, inside the support or not. -/
theorem C81_powerlaw_peak (c : Cosmo.Cosmology) (f : Flags) (p : Dict String ℝ)
    {alpha beta delta lambda loc mmax mmin scale rate : ℝ} (hp : Given p [("alpha", alpha), ("beta", beta), ("delta", delta), ("lambda_peak", lambda), ("loc", loc), ("mmax", mmax),
      ("mmin", mmin), ("scale", scale), ("log_rate", rate)])
    (h0 : 0 < mmin) (hd : 0 < delta) (hdm : mmin + delta < mmax) (hl : 0 ≤ lambda) (hl1 : lambda ≤ 1) (hs : 0 < scale)
    {mean variance A B : ℝ} (hspin : f.spin = true → Given p [("chi_mean", mean), ("chi_variance", variance)] ∧ BetaShape mean variance A B)
    {zeta st : ℝ} (htilt : f.tilt = true → Given p [("cos_tilt_zeta", zeta), ("cos_tilt_scale", st)] ∧ 0 ≤ zeta ∧ zeta ≤ 1 ∧ 0 < st)
    {se : ℝ} (hecc : f.ecc = true → Given p [("eccentricity_scale", se)] ∧ 0 < se)
    {zmax kappa : ℝ} (hz : f.redshift = true → Given p [("z_max", zmax), ("kappa", kappa)] ∧ c.Proper ∧ 0 < zmax)
    (m q a1 a2 t1 t2 e z : ℝ) (ha : f.spin = true → BetaRegular A B a1 ∧ BetaRegular A B a2) :
    ∃ M M', powerlawPeak c f true p = .ok M ∧ powerlawPeak c f false p = .ok M' ∧
      let x := .many (([m, q] ++ coords f.spin [a1, a2] ++ coords f.tilt [t1, t2] ++ coords f.ecc [e] ++ coords f.redshift [z]).map fin)
      M'.logProbChecked false x = M.logProbChecked true x := by
  obtain ⟨M, e1, e2⟩ := C63_powerlaw_peak_partial c f true p hp h0 hd hdm hl hl1 hs hspin htilt hecc hz m q a1 a2 t1 t2 e z ha
  obtain ⟨M', e1', e2'⟩ := C63_powerlaw_peak_partial c f false p hp h0 hd hdm hl hl1 hs hspin htilt hecc hz m q a1 a2 t1 t2 e z ha
  exact ⟨M, M', e1, e1', same_log e2' e2⟩

/-- All flag combinations, at an event whose mass ratio exceeds one. -/
example (f : Flags) : ∃ M M', powerlawPeak Cosmo.planck2015 f true peakExample = .ok M ∧ powerlawPeak Cosmo.planck2015 f false peakExample = .ok M' ∧
    let x := .many (([35, 1.3] ++ coords f.spin [0.3, 0.2] ++ coords f.tilt [0.9, -0.5] ++ coords f.ecc [0.05] ++ coords f.redshift [0.4]).map fin)
    M'.logProbChecked false x = M.logProbChecked true x := by
  obtain ⟨A, B, -, hA, hB, -, e1, e2⟩ := Beta.C26_moments 0.25 0.01 (by norm_num) (by norm_num) (by norm_num) (by norm_num)
  have hb : BetaShape 0.25 0.01 A B := ⟨hA, hB, e1, e2⟩
  have sub : ∀ {l : List (String × ℝ)}, (∀ nv ∈ l, nv ∈ peakExample) → Given peakExample l := given_of_mem (by rw [peakExample_keys]; decide +kernel)
  exact C81_powerlaw_peak Cosmo.planck2015 f peakExample (alpha := 3.4) (beta := 1.1) (delta := 4.8) (lambda := 0.038) (loc := 34) (mmax := 87) (mmin := 5) (scale := 3.6) (rate := 2)
    (sub fun nv h => List.mem_append_left _ h) (by norm_num) (by norm_num) (by norm_num) (by norm_num) (by norm_num) (by norm_num)
    (mean := 0.25) (variance := 0.01) (fun _ => ⟨sub fun nv h => List.mem_append_right _ (List.mem_append_left _ h), hb⟩)
    (zeta := 0.6) (st := 1.5) (fun _ => ⟨sub fun nv h => List.mem_append_right _ (List.mem_append_right _ (List.mem_append_left _ h)), by norm_num, by norm_num, by norm_num⟩)
    (se := 0.1) (fun _ => ⟨sub fun nv h => List.mem_append_right _ (List.mem_append_right _ (List.mem_append_right _ (List.mem_append_left _ h))), by norm_num⟩)
    (zmax := 1.9) (kappa := 2.7) (fun _ => ⟨sub fun nv h => List.mem_append_right _ (List.mem_append_right _ (List.mem_append_right _ (List.mem_append_right _ h))), Cosmo.planck2015_proper, by norm_num⟩)
    35 1.3 0.3 0.2 0.9 (-0.5) 0.05 0.4 (fun _ => ⟨⟨by norm_num, by norm_num⟩, ⟨by norm_num, by norm_num⟩⟩)

/-- **C81** (`BrokenPowerlawTwoPeakFull`).  Built with `validate_args=True` and built with `validate_args=False`, the model has the same log density at every real event, inside the support or not. -/
theorem C81_broken_powerlaw (c : Cosmo.Cosmology) (f : Flags) (p : Dict String ℝ) {D : Mass.TwoPeak} {rate : ℝ} (hp : GivenMass p D rate) (hD : D.Proper) (hv : D.validate = true)
    {la sa : ℝ} (hspin : f.spin = true → Given p [("chi_loc", la), ("chi_scale", sa)] ∧ 0 < sa)
    {zeta lt st minimum : ℝ} (htilt : f.tilt = true → Given p [("cos_tilt_zeta", zeta), ("cos_tilt_loc", lt), ("cos_tilt_scale", st)] ∧
      (Given p [("cos_tilt_minimum", minimum)] ∨ "cos_tilt_minimum" ∉ keys p ∧ minimum = -1) ∧ 0 ≤ zeta ∧ zeta ≤ 1 ∧ 0 < st ∧ minimum < 1)
    {le se low high : ℝ} (hecc : f.ecc = true → Given p [("eccentricity_loc", le), ("eccentricity_scale", se)] ∧
      (Given p [("eccentricity_low", low)] ∨ "eccentricity_low" ∉ keys p ∧ low = 0) ∧ (Given p [("eccentricity_high", high)] ∨ "eccentricity_high" ∉ keys p ∧ high = 1) ∧ 0 < se ∧ low < high)
    {zmax kappa : ℝ} (hz : f.redshift = true → Given p [("z_max", zmax), ("kappa", kappa)] ∧ c.Proper ∧ 0 < zmax)
    (m q a1 a2 t1 t2 e z : ℝ) :
    ∃ M M', brokenPowerlawTwoPeakFull c f true p = .ok M ∧ brokenPowerlawTwoPeakFull c f false p = .ok M' ∧
      let x := .many (([m, q] ++ coords f.spin [a1, a2] ++ coords f.tilt [t1, t2] ++ coords f.ecc [e] ++ coords f.redshift [z]).map fin)
      M'.logProbChecked false x = M.logProbChecked true x := by
  obtain ⟨M, e1, e2⟩ := C63_broken_powerlaw c f true p hp hD hv hspin htilt hecc hz m q a1 a2 t1 t2 e z
  obtain ⟨M', e1', e2'⟩ := C63_broken_powerlaw c f false p hp hD hv hspin htilt hecc hz m q a1 a2 t1 t2 e z
  exact ⟨M, M', e1, e1', same_log e2' e2⟩

/-- An event with a cosine above one. -/
example : ∃ M M', brokenPowerlawTwoPeakFull Cosmo.planck2015 ⟨true, true, true, true⟩ true brokenExample = .ok M ∧
    brokenPowerlawTwoPeakFull Cosmo.planck2015 ⟨true, true, true, true⟩ false brokenExample = .ok M' ∧
    let x := .many ([40, 0.9, 0.3, 0.2, 1.5, -0.5, 0.05, 0.4].map fin)
    M'.logProbChecked false x = M.logProbChecked true x := by
  have sub : ∀ {l : List (String × ℝ)}, (∀ nv ∈ l, nv ∈ brokenExample) → Given brokenExample l := given_of_mem (by rw [brokenExample_keys]; decide +kernel)
  exact C81_broken_powerlaw Cosmo.planck2015 ⟨true, true, true, true⟩ brokenExample (D := Mass.gwtc4) (rate := 1)
    (sub fun nv h => List.mem_append_left _ h) (by constructor <;> norm_num [Mass.gwtc4]) rfl
    (la := 0.1) (sa := 0.3) (fun _ => ⟨sub fun nv h => List.mem_append_right _ (List.mem_append_left _ h), by norm_num⟩)
    (zeta := 0.5) (lt := 0.8) (st := 0.4) (minimum := -1) (fun _ => ⟨sub fun nv h => List.mem_append_right _ (List.mem_append_right _ (List.mem_append_left _ h)),
      Or.inr ⟨by rw [brokenExample_keys]; decide +kernel, rfl⟩, by norm_num, by norm_num, by norm_num, by norm_num⟩)
    (le := 0) (se := 0.1) (low := 0) (high := 0.5) (fun _ => ⟨sub fun nv h => List.mem_append_right _ (List.mem_append_right _ (List.mem_append_right _ (List.mem_append_left _ h))),
      Or.inr ⟨by rw [brokenExample_keys]; decide +kernel, rfl⟩,
      Or.inl (sub fun nv h => List.mem_append_right _ (List.mem_append_right _ (List.mem_append_right _ (List.mem_append_right _ (List.mem_append_left _ h))))), by norm_num, by norm_num⟩)
    (zmax := 1.9) (kappa := 2.7) (fun _ => ⟨sub fun nv h => List.mem_append_right _ (List.mem_append_right _ (List.mem_append_right _ (List.mem_append_right _ (List.mem_append_right _ h)))),
      Cosmo.planck2015_proper, by norm_num⟩)
    40 0.9 0.3 0.2 1.5 (-0.5) 0.05 0.4

/-- **C81** (`BrokenPowerlawTwoPeakMultiSpinMultiTiltFull`).  Built with `validate_args=True` and built with `validate_args=False`, the model has the same log density at every real event, inside the support or not. -/
theorem C81_multi_spin (c : Cosmo.Cosmology) (ecc : Bool) (p : Dict String ℝ) {S : MultiSpin.Model} {rate : ℝ} (hp : GivenMass p S.mass rate) (hS : S.Proper)
    (h1 : GivenSpins p "bpl1" S.bpl1) (h2 : GivenSpins p "bpl2" S.bpl2) (h3 : GivenSpins p "n1" S.n1) (h4 : GivenSpins p "n2" S.n2)
    {se : ℝ} (hecc : ecc = true → Given p [("eccentricity_scale", se)] ∧ 0 < se)
    {zmax kappa : ℝ} (hz : Given p [("z_max", zmax), ("kappa", kappa)]) (hc : c.Proper) (hz0 : 0 < zmax) (m q a1 a2 t1 t2 e z : ℝ) :
    ∃ M M', multiSpinMultiTiltFull c ecc true p = .ok M ∧ multiSpinMultiTiltFull c ecc false p = .ok M' ∧
      let x := .many (([m, q, a1, a2, t1, t2] ++ coords ecc [e] ++ [z]).map fin)
      M'.logProbChecked false x = M.logProbChecked true x := by
  obtain ⟨M, e1, e2⟩ := C63_multi_spin c ecc true p hp hS h1 h2 h3 h4 hecc hz hc hz0 m q a1 a2 t1 t2 e z
  obtain ⟨M', e1', e2'⟩ := C63_multi_spin c ecc false p hp hS h1 h2 h3 h4 hecc hz hc hz0 m q a1 a2 t1 t2 e z
  exact ⟨M, M', e1, e1', same_log e2' e2⟩

/-- An event heavier than the largest mass. -/
example : ∃ M M', multiSpinMultiTiltFull Cosmo.planck2015 false true multiExample = .ok M ∧ multiSpinMultiTiltFull Cosmo.planck2015 false false multiExample = .ok M' ∧
    let x := .many ([400, 0.9, 0.7, 0.6, 0.1, -0.3, 0.4].map fin)
    M'.logProbChecked false x = M.logProbChecked true x := by
  have sub : ∀ {l : List (String × ℝ)}, (∀ nv ∈ l, nv ∈ multiExample) → Given multiExample l := given_of_mem multiExample_nodup
  exact C81_multi_spin Cosmo.planck2015 false multiExample (S := MultiSpin.example62) (rate := 1) (sub fun nv h => List.mem_append_left _ h) MultiSpin.example62_proper
    (sub fun nv h => List.mem_append_right _ (List.mem_append_left _ h)) (sub fun nv h => List.mem_append_right _ (List.mem_append_right _ (List.mem_append_left _ h)))
    (sub fun nv h => List.mem_append_right _ (List.mem_append_right _ (List.mem_append_right _ (List.mem_append_left _ h))))
    (sub fun nv h => List.mem_append_right _ (List.mem_append_right _ (List.mem_append_right _ (List.mem_append_right _ (List.mem_append_left _ h)))))
    (se := 1) (fun h => by cases h) (zmax := 1.9) (kappa := 2.7)
    (sub fun nv h => List.mem_append_right _ (List.mem_append_right _ (List.mem_append_right _ (List.mem_append_right _ (List.mem_append_right _ h)))))
    Cosmo.planck2015_proper (by norm_num) 400 0.9 0.7 0.6 0.1 (-0.3) 0 0.4

/-- **C81** (`EccentricityMattersModel`).  Neither numpyro's global setting nor the argument changes the log density: at every event, with any coordinates (NaN and the infinities included) and any
hyper-parameters. -/
theorem C81_eccentricity_matters (g g' : Bool) (v v' : Option Bool) (rate alphaM mmin mmax loc scale low high : ℝ) (m1 m2 e : XR) :
    ∃ M M', eccentricityMatters g v rate alphaM mmin mmax loc scale low high = .ok M ∧ eccentricityMatters g' v' rate alphaM mmin mmax loc scale low high = .ok M' ∧
      M'.logProbChecked (v'.getD g') (.many [m1, m2, e]) = M.logProbChecked (v.getD g) (.many [m1, m2, e]) := by
  have key : ∀ (g : Bool) (v : Option Bool), ∃ M, eccentricityMatters g v rate alphaM mmin mmax loc scale low high = .ok M ∧
      M.logProbChecked (v.getD g) (.many [m1, m2, e]) = if ((Mass.Wysocki.mk alphaM mmin mmax true).support m1 m2 && (Spin.tnSupport (some low) (some high) e && true)) then
        (let l := (Mass.Wysocki.mk alphaM mmin mmax true).logProb m1 m2 + ((Spin.truncatedNormal loc scale (some low) (some high) true).logProb e + 0)
         logsumexpWhere [(if (fin rate + l).isNegInf then ninf else fin rate + l, !(fin rate + l).isNegInf)]) else ninf := by
    intro g v
    obtain ⟨hl, hs⟩ := pair_eval (Mass.Wysocki.mk alphaM mmin mmax (v.getD g)).logProb (Mass.Wysocki.mk alphaM mmin mmax (v.getD g)).support
      (Spin.truncatedNormal loc scale (some low) (some high) (v.getD g)).logProb (Spin.truncatedNormal loc scale (some low) (some high) (v.getD g)).support m1 m2 e
    obtain ⟨M, h1, h2⟩ := scaled_value g (v.getD g) _ rate (.many [m1, m2, e])
      ((Mass.Wysocki.mk alphaM mmin mmax true).logProb m1 m2 + ((Spin.truncatedNormal loc scale (some low) (some high) true).logProb e + 0))
      ((Mass.Wysocki.mk alphaM mmin mmax true).support m1 m2 && (Spin.tnSupport (some low) (some high) e && true)) (fun hin => by
        rw [hl]
        simp only [Bool.and_eq_true, and_true] at hin
        have a : (Mass.Wysocki.mk alphaM mmin mmax (v.getD g)).support m1 m2 = true := hin.1
        simp only [Mass.Wysocki.logProb, Mass.validated, a, hin.1, select_true, ite_self, Spin.truncatedNormal, hin.2]) hs
    exact ⟨M, h1, h2⟩
  obtain ⟨M, e1, e2⟩ := key g v
  obtain ⟨M', e1', e2'⟩ := key g' v'
  exact ⟨M, M', e1, e1', e2'.trans e2.symm⟩

/-- A secondary heavier than the primary, with validation on everywhere and with it off everywhere. -/
example : ∃ M M', eccentricityMatters true none 1 2.3 5 50 0 0.1 0 1 = .ok M ∧ eccentricityMatters false none 1 2.3 5 50 0 0.1 0 1 = .ok M' ∧
    M'.logProbChecked false (.many [fin 20, fin 30, fin 0.2]) = M.logProbChecked true (.many [fin 20, fin 30, fin 0.2]) :=
  C81_eccentricity_matters true false none none 1 2.3 5 50 0 0.1 0 1 (fin 20) (fin 30) (fin 0.2)

end GW.Full

namespace GW.Mass
open GW XR GW.Num
open scoped Classical

/-- **C81** (the smoothed hybrids: `NSmoothedPowerlawMSmoothedGaussian` and `NBrokenPowerlawMGaussian`).  At every event with a real primary mass and mass ratio the log density is the same with
validation on and off, provided the rest of the model is never NaN or `+inf` there, and is `-inf` outside its own support. -/
theorem C81_smoothed_ratio (d : AndRest) (Z : ℝ) (h : d.Proper Z) (m q : ℝ) (tl : List XR) (hlog : IsLog (d.restLogProb (fin m :: tl)))
    (hout : d.restSupport (fin m :: tl) = false → d.restLogProb (fin m :: tl) = ninf) :
    ({ d with validate := false } : AndRest).logProb (fin m :: tl) (fin q) = ({ d with validate := true } : AndRest).logProb (fin m :: tl) (fin q) := by
  have hsup : ∀ v, ({ d with validate := v } : AndRest).support = d.support := fun _ => rfl
  cases hs : d.support (fin m :: tl) (fin q) with
  | true => simp only [AndRest.logProb, validated, hsup, hs, select_true, ite_self]; rfl
  | false =>
    have e2 : ({ d with validate := true } : AndRest).logProb (fin m :: tl) (fin q) = ninf := by
      simp only [AndRest.logProb, validated, hsup, hs, if_true, select_false]
    rw [e2]
    have a2 := C25_log_window ((m - d.m1min) / d.delta1)
    have hz := h.Z1
    rw [log_fin_pos h.Z0] at hz
    have b3 := (isLog_fin d.logRate).add (IsLog.sub_fin (hlog.add a2.2.1) (Real.log Z))
    obtain ⟨w, hw⟩ := d.logZq_fin Z h m
    obtain ⟨q1, q2⟩ := d.q_log h.m2 m q
    have e : fin d.logRate + (d.restLogProb (fin m :: tl) + logPlanck (fin ((m - d.m1min) / d.delta1)) - fin (Real.log Z)) + d.qUnnorm (fin m) (fin q) - fin w = ninf := by
      simp only [AndRest.support, Bool.and_eq_false_iff] at hs
      rcases hs with hs | hs
      · rw [hout hs]
        rcases q1.cases with k | ⟨a, k⟩ <;> rcases a2.2.1.cases with k' | ⟨a', k'⟩ <;> rw [k, k'] <;> rfl
      · rw [q2 (by
          rintro ⟨c1, c2⟩
          simp [c1, c2] at hs)]
        rcases b3.cases with k | ⟨a, k⟩ <;> rw [k] <;> rfl
    have hqU : ∀ v, ({ d with validate := v } : AndRest).qUnnorm = d.qUnnorm := fun _ => rfl
    have hzq : ∀ v, ({ d with validate := v } : AndRest).zq = d.zq := fun _ => rfl
    have hms : ∀ v, ({ d with validate := v } : AndRest).m1s = d.m1s := fun _ => rfl
    simp only [AndRest.logProb, validated, Bool.false_eq_true, if_false, List.cons_append, List.headD_cons, hqU, hzq, hms, hw]
    simp only [hz, planck_frac _ _ _ h.d1, e, isNegInf_ninf, Bool.or_true, select_true]

/-- A mass ratio above one, a negative one and a proper one. -/
example (q chi : ℝ) : ({ restExample with validate := false } : AndRest).logProb [fin 10, fin chi] (fin q) = ({ restExample with validate := true } : AndRest).logProb [fin 10, fin chi] (fin q) := by
  obtain ⟨Z, h⟩ := restExample_proper
  refine C81_smoothed_ratio _ Z h 10 q [fin chi] ?_ ?_
  · simp only [restExample]
    rw [log_fin_pos (by norm_num)]
    exact isLog_fin _
  · intro hf
    norm_num [restExample] at hf

end GW.Mass

namespace GW.Mixture
open GW XR
open scoped Classical

/-- **C81** (`ScaledMixture`, as `NPowerlawMGaussian` builds it).  A mixture whose support is the union of its components' supports has the same log density at every point whether validation is on
or off, whatever the components are outside their supports. -/
theorem C81_mixture {α : Type} (scales : List ℝ) (cs : List ((α → XR) × (α → Bool))) (x : α) :
    let mix := fun v => Mix.mk (scales.map fin) (cs.map (asBuilt v)) (some fun x => cs.any fun c => c.2 x)
    (mix false).logProbChecked false x = (mix true).logProbChecked true x := by
  intro mix
  have e : ∀ v, (mix v).componentLogProbs x = List.zipWith (· + ·) (scales.map fin) (cs.map fun c => if c.2 x then c.1 x else ninf) := by
    intro v
    simp only [mix, Mix.componentLogProbs, List.map_map]
    congr 1
    apply List.map_congr_left
    intro c _
    simp only [Function.comp, compTerm, asBuilt, Mass.validated, Option.isSome_some, Bool.true_and]
    rcases Bool.eq_false_or_eq_true (c.2 x) with h | h <;> cases v <;> simp [h]
  have e' : (mix false).logProb x = (mix true).logProb x := by simp only [Mix.logProb, e]
  have hs : (mix true).support x = cs.any fun c => c.2 x := rfl
  simp only [Mix.logProbChecked, hs, Bool.false_eq_true, if_false, if_true]
  cases hc : cs.any fun c => c.2 x with
  | true => exact e'
  | false =>
    simp only [Bool.false_eq_true, if_false]
    simp only [List.any_eq_false, Bool.not_eq_true] at hc
    have e0 : ∀ t ∈ (mix false).componentLogProbs x, t = ninf := by
      rw [e, List.zipWith_map_left, List.zipWith_map_right]
      intro t ht
      obtain ⟨i, hi, rfl⟩ := List.mem_iff_getElem.1 ht
      rw [List.getElem_zipWith, hc _ (List.getElem_mem _)]
      rfl
    rw [logProb_eq _ _ fun t ht => by rw [e0 t ht]; exact isLog_ninf]
    have : ((mix false).componentLogProbs x).map expR = ((mix false).componentLogProbs x).map fun _ => 0 :=
      List.map_congr_left fun t ht => by rw [e0 t ht]; rfl
    rw [this]
    simp

/-- Two components that are not zero outside their supports, at a point of the second only. -/
example : let cs : List ((ℝ → XR) × (ℝ → Bool)) := [(fun _ => fin 1, fun x => decide (x ≤ 0)), (fun x => fin (-x), fun x => decide (1 ≤ x))]
    let mix := fun v => Mix.mk ([0.5, 2].map fin) (cs.map (asBuilt v)) (some fun x => cs.any fun c => c.2 x)
    (mix false).logProbChecked false 3 = (mix true).logProbChecked true 3 := by
  intro cs
  exact C81_mixture [0.5, 2] cs 3

/-- **C81.**  Without a support the unchecked mixture is not zero outside the support of its components. -/
theorem C81_mixture_no_support_violated : ∃ (c : (ℝ → XR) × (ℝ → Bool)) (x : ℝ), c.2 x = false ∧
    let mix := fun v => Mix.mk [fin 0] [asBuilt v c] none
    (mix false).logProbChecked false x = fin 0 ∧ (mix true).logProbChecked true x = ninf := by
  refine ⟨(fun _ => fin 0, fun x => decide (0 ≤ x)), -1, by norm_num, ?_, ?_⟩
  · have hx : (Mix.mk [fin 0] [asBuilt false ((fun _ => fin 0 : ℝ → XR), fun x => decide (0 ≤ x))] none).componentLogProbs (-1) = [fin 0] := by
      simp [Mix.componentLogProbs, compTerm, asBuilt, Mass.validated]
    simp only [Mix.logProbChecked, Bool.false_eq_true, if_false]
    rw [logProb_eq _ _ (by rw [hx]; simpa using isLog_fin 0), hx]
    simp
  · simp only [Mix.logProbChecked, Mix.support, asBuilt]
    norm_num

end GW.Mixture
