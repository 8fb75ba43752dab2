import Verif.Lemmas.FullModels

/-!
# C63: the named population models, with argument validation on or off
-/

namespace GW.Full
open GW XR GW.PyDict GW.Joint MeasureTheory ProbabilityTheory
open scoped Classical

/-! ## `PowerlawPeak` -/

/-- **C63** (`PowerlawPeak`; partial: a spin at an end point of `[0, 1]` only where the beta density vanishes, since the code computes `+inf` or NaN otherwise).  With every name the chosen flags need in the dictionary, the factory succeeds, and at every real event, whose coordinates are the primary mass and
the mass ratio, then two spins, two tilts, the eccentricity and the redshift, each if its flag is set, the log density is never NaN or `+inf` and is the log of: the
exponential of `log_rate`, times the mass density with the named parameters, times for each flag the product of the beta densities whose mean and variance are `chi_mean` and `chi_variance`;
the isotropic-and-Gaussian tilt density; the half normal density; the power-law redshift density. -/
theorem C63_powerlaw_peak_partial (c : Cosmo.Cosmology) (f : Flags) (v : Bool) (p : Dict String ℝ)
    {alpha beta delta lambda loc mmax mmin scale rate : ℝ} (hp : Given p [("alpha", alpha), ("beta", beta), ("delta", delta), ("lambda_peak", lambda), ("loc", loc), ("mmax", mmax),
      ("mmin", mmin), ("scale", scale), ("log_rate", rate)])
    (h0 : 0 < mmin) (hd : 0 < delta) (hdm : mmin + delta < mmax) (hl : 0 ≤ lambda) (hl1 : lambda ≤ 1) (hs : 0 < scale)
    {mean variance A B : ℝ} (hspin : f.spin = true → Given p [("chi_mean", mean), ("chi_variance", variance)] ∧ BetaShape mean variance A B)
    {zeta st : ℝ} (htilt : f.tilt = true → Given p [("cos_tilt_zeta", zeta), ("cos_tilt_scale", st)] ∧ 0 ≤ zeta ∧ zeta ≤ 1 ∧ 0 < st)
    {se : ℝ} (hecc : f.ecc = true → Given p [("eccentricity_scale", se)] ∧ 0 < se)
    {zmax kappa : ℝ} (hz : f.redshift = true → Given p [("z_max", zmax), ("kappa", kappa)] ∧ c.Proper ∧ 0 < zmax)
    (m q a1 a2 t1 t2 e z : ℝ) (ha : f.spin = true → BetaRegular A B a1 ∧ BetaRegular A B a2) :
    ∃ M, powerlawPeak c f v p = .ok M ∧
      let lp := M.logProbChecked v (.many (([m, q] ++ coords f.spin [a1, a2] ++ coords f.tilt [t1, t2] ++ coords f.ecc [e] ++ coords f.redshift [z]).map fin))
      IsLog lp ∧ expR lp = Real.exp rate *
        (expR (({ alpha := alpha, beta := beta, delta := delta, lambdaPeak := lambda, loc := loc, mmax := mmax, mmin := mmin, scale := scale, validate := true } :
            Mass.TwoComponent).logProb (fin m) (fin q)) *
          factor f.spin (betaPDFReal A B a1 * betaPDFReal A B a2) *
          factor f.tilt (if (-1 ≤ t1 ∧ t1 ≤ 1) ∧ (-1 ≤ t2 ∧ t2 ≤ 1) then
            (1 - zeta) / 4 + zeta * (Spin.restrictedNormal 1 st (Set.Icc (-1) 1) t1 * Spin.restrictedNormal 1 st (Set.Icc (-1) 1) t2) else 0) *
          factor f.ecc (halfNormalDensity se e) *
          factor f.redshift (expR ((Cosmo.Redshift.mk c (Cosmo.powerlawLogPsi kappa) zmax true).logProb (fin z)))) := by
  have hmass : peakMass v p = { alpha := alpha, beta := beta, delta := delta, lambdaPeak := lambda, loc := loc, mmax := mmax, mmin := mmin, scale := scale, validate := v } := by
    simp only [peakMass, given_val hp (n := "alpha") (v := alpha) (by simp), given_val hp (n := "beta") (v := beta) (by simp), given_val hp (n := "delta") (v := delta) (by simp),
      given_val hp (n := "lambda_peak") (v := lambda) (by simp), given_val hp (n := "loc") (v := loc) (by simp), given_val hp (n := "mmax") (v := mmax) (by simp),
      given_val hp (n := "mmin") (v := mmin) (by simp), given_val hp (n := "scale") (v := scale) (by simp)]
  have hrate := given_val hp (n := "log_rate") (v := rate) (by simp)
  have g0 := peakBlock_good { alpha := alpha, beta := beta, delta := delta, lambdaPeak := lambda, loc := loc, mmax := mmax, mmin := mmin, scale := scale, validate := true }
    h0 hd hdm hl hl1 hs rfl v m q
  have r0 : ∀ n ∈ ["alpha", "beta", "delta", "lambda_peak", "loc", "mmax", "mmin", "scale"], n ∈ keys p := fun n hn => given_mem hp (by
    simp only [List.map_cons, List.map_nil]
    exact List.mem_append_left ["log_rate"] hn)
  have rk : ∀ n ∈ peakNames f.spin f.redshift f.tilt f.ecc, n ∈ keys p := by
    simp only [peakNames, List.mem_append]
    rintro n (h | h | h | h | h)
    · exact r0 n h
    · exact optNames_mem (fun hf => (hspin hf).1) (by simp) h
    · exact optNames_mem (fun hf => (htilt hf).1) (by simp) h
    · exact optNames_mem (fun hf => (hecc hf).1) (by simp) h
    · exact optNames_mem (fun hf => (hz hf).1) (by simp) h
  obtain ⟨d, M, e1, e2, e3, e4⟩ := four_parts v g0 rfl
    (fun hf => betaSpins_good v (hspin hf).1 (hspin hf).2 (ha hf).1 (ha hf).2)
    (fun hf => peakTilts_good v (htilt hf).1 (htilt hf).2.1 (htilt hf).2.2.1 (htilt hf).2.2.2 t1 t2)
    (fun hf => halfNormalEcc_good v (hecc hf).1 (hecc hf).2 e)
    (fun hf => redshiftModel_good v (hz hf).1 (hz hf).2.1 (hz hf).2.2 z)
    (x1 := [a1, a2]) (x2 := [t1, t2]) (x3 := [e]) (x4 := [z]) rfl rfl rfl rfl rate
  refine ⟨M, ?_, e3, e4⟩
  rw [powerlawPeak_eq, hmass, hrate, program_ok rk (given_mem hp (by simp)) e1, e2]

theorem given_of_mem {p : Dict String ℝ} {l : List (String × ℝ)} (hp : (keys p).Nodup) (h : ∀ nv ∈ l, nv ∈ p) : Given p l := fun nv hn => get?_of_mem hp (h nv hn)

/-- All four flags, as in the GWTC-3 analyses. -/
noncomputable def peakExample : Dict String ℝ :=
  [("alpha", 3.4), ("beta", 1.1), ("delta", 4.8), ("lambda_peak", 0.038), ("loc", 34), ("mmax", 87), ("mmin", 5), ("scale", 3.6), ("log_rate", 2)] ++
    ([("chi_mean", 0.25), ("chi_variance", 0.01)] ++ ([("cos_tilt_zeta", 0.6), ("cos_tilt_scale", 1.5)] ++ ([("eccentricity_scale", 0.1)] ++ [("z_max", 1.9), ("kappa", 2.7)])))

theorem peakExample_keys : keys peakExample = ["alpha", "beta", "delta", "lambda_peak", "loc", "mmax", "mmin", "scale", "log_rate", "chi_mean", "chi_variance", "cos_tilt_zeta", "cos_tilt_scale",
  "eccentricity_scale", "z_max", "kappa"] := rfl

/-- A case that meets the hypotheses of `C63_powerlaw_peak_partial`. -/
theorem peakExample_ok (f : Flags) (v : Bool) : ∃ A B M, BetaShape 0.25 0.01 A B ∧ powerlawPeak Cosmo.planck2015 f v peakExample = .ok M ∧
    IsLog (M.logProbChecked v (.many (([35, 0.8] ++ coords f.spin [0.3, 0.2] ++ coords f.tilt [0.9, -0.5] ++ coords f.ecc [0.05] ++ coords f.redshift [0.4]).map fin))) := by
  obtain ⟨A, B, -, hA, hB, -, e1, e2⟩ := Beta.C26_moments 0.25 0.01 (by norm_num) (by norm_num) (by norm_num) (by norm_num)
  have hb : BetaShape 0.25 0.01 A B := ⟨hA, hB, e1, e2⟩
  have sub : ∀ {l : List (String × ℝ)}, (∀ nv ∈ l, nv ∈ peakExample) → Given peakExample l := given_of_mem (by rw [peakExample_keys]; decide +kernel)
  obtain ⟨M, h1, h2, -⟩ := C63_powerlaw_peak_partial Cosmo.planck2015 f v peakExample (alpha := 3.4) (beta := 1.1) (delta := 4.8) (lambda := 0.038) (loc := 34) (mmax := 87) (mmin := 5) (scale := 3.6) (rate := 2)
    (sub fun nv h => List.mem_append_left _ h) (by norm_num) (by norm_num) (by norm_num) (by norm_num) (by norm_num) (by norm_num)
    (mean := 0.25) (variance := 0.01) (fun _ => ⟨sub fun nv h => List.mem_append_right _ (List.mem_append_left _ h), hb⟩)
    (zeta := 0.6) (st := 1.5) (fun _ => ⟨sub fun nv h => List.mem_append_right _ (List.mem_append_right _ (List.mem_append_left _ h)), by norm_num, by norm_num, by norm_num⟩)
    (se := 0.1) (fun _ => ⟨sub fun nv h => List.mem_append_right _ (List.mem_append_right _ (List.mem_append_right _ (List.mem_append_left _ h))), by norm_num⟩)
    (zmax := 1.9) (kappa := 2.7) (fun _ => ⟨sub fun nv h => List.mem_append_right _ (List.mem_append_right _ (List.mem_append_right _ (List.mem_append_right _ h))), Cosmo.planck2015_proper, by norm_num⟩)
    35 0.8 0.3 0.2 0.9 (-0.5) 0.05 0.4 (fun _ => ⟨⟨by norm_num, by norm_num⟩, ⟨by norm_num, by norm_num⟩⟩)
  exact ⟨A, B, M, hb, h1, h2⟩

/-- **C63** (`PowerlawPeak`, missing parameters).  If a name that the chosen flags need is not in the dictionary, the factory raises `KeyError` for the first such name; names that
belong to flags that are not set are not looked up. -/
theorem C63_powerlaw_peak_missing (c : Cosmo.Cosmology) (f : Flags) (v : Bool) (p : Dict String ℝ) (n : String)
    (h : FirstMissing p (peakNames f.spin f.redshift f.tilt f.ecc ++ ["log_rate"]) n) : powerlawPeak c f v p = .error (.keyError n) := by
  rw [powerlawPeak_eq]
  exact program_missing h (joinIfMany_ok _ (by simp)) _

/-- Without `kappa` the model cannot be built with the redshift flag. -/
example (spin tilt ecc : Bool) : powerlawPeak Cosmo.planck2015 ⟨spin, true, tilt, ecc⟩ true (peakExample.take 15) = .error (.keyError "kappa") := by
  have hk : keys (peakExample.take 15) = ["alpha", "beta", "delta", "lambda_peak", "loc", "mmax", "mmin", "scale", "log_rate", "chi_mean", "chi_variance", "cos_tilt_zeta", "cos_tilt_scale",
    "eccentricity_scale", "z_max"] := rfl
  apply C63_powerlaw_peak_missing
  refine ⟨["alpha", "beta", "delta", "lambda_peak", "loc", "mmax", "mmin", "scale"] ++ (optNames spin ["chi_mean", "chi_mean", "chi_variance", "chi_variance"] ++
    (optNames tilt ["cos_tilt_zeta", "cos_tilt_scale", "cos_tilt_scale"] ++ (optNames ecc ["eccentricity_scale"] ++ ["z_max"]))), ["log_rate"], ?_, ?_, ?_⟩
  · simp [peakNames, optNames]
  · rw [hk]
    revert spin tilt ecc
    decide +kernel
  · rw [hk]
    decide +kernel

/-! ## `BrokenPowerlawTwoPeakFull` -/

/-- The parameters of the mass model under their names, and the rate. -/
def GivenMass (p : Dict String ℝ) (D : Mass.TwoPeak) (rate : ℝ) : Prop :=
  Given p [("alpha1", D.alpha1), ("alpha2", D.alpha2), ("beta", D.beta), ("loc1", D.loc1), ("loc2", D.loc2), ("scale1", D.scale1), ("scale2", D.scale2), ("delta_m1", D.delta1), ("delta_m2", D.delta2), ("lambda_0", D.lambda0), ("lambda_1", D.lambda1), ("m1min", D.m1min), ("m2min", D.m2min), ("mmax", D.mmax), ("mbreak", D.mbreak), ("log_rate", rate)]

theorem brokenMass_eq {p : Dict String ℝ} {D : Mass.TwoPeak} {rate : ℝ} (hp : GivenMass p D rate) (v : Bool) : brokenMass v p = { D with validate := v } := by
  unfold GivenMass at hp
  simp only [brokenMass, given_val hp (n := "alpha1") (v := D.alpha1) (by simp), given_val hp (n := "alpha2") (v := D.alpha2) (by simp), given_val hp (n := "beta") (v := D.beta) (by simp), given_val hp (n := "loc1") (v := D.loc1) (by simp), given_val hp (n := "loc2") (v := D.loc2) (by simp), given_val hp (n := "scale1") (v := D.scale1) (by simp), given_val hp (n := "scale2") (v := D.scale2) (by simp), given_val hp (n := "delta_m1") (v := D.delta1) (by simp), given_val hp (n := "delta_m2") (v := D.delta2) (by simp), given_val hp (n := "lambda_0") (v := D.lambda0) (by simp), given_val hp (n := "lambda_1") (v := D.lambda1) (by simp), given_val hp (n := "m1min") (v := D.m1min) (by simp), given_val hp (n := "m2min") (v := D.m2min) (by simp), given_val hp (n := "mmax") (v := D.mmax) (by simp), given_val hp (n := "mbreak") (v := D.mbreak) (by simp)]

theorem brokenMass_keys {p : Dict String ℝ} {D : Mass.TwoPeak} {rate : ℝ} (hp : GivenMass p D rate) :
    ∀ n ∈ ["alpha1", "alpha2", "beta", "loc1", "loc2", "scale1", "scale2", "delta_m1", "delta_m2", "lambda_0", "lambda_1", "m1min", "m2min", "mmax", "mbreak"], n ∈ keys p :=
  fun n hn => given_mem hp (by
    simp only [List.map_cons, List.map_nil]
    exact List.mem_append_left ["log_rate"] hn)

/-- **C63** (`BrokenPowerlawTwoPeakFull`).  As for `PowerlawPeak`, with the mass density of the broken power law plus two peaks, two equal normal spins restricted to `[0, 1]`, the
minimum-tilt density (minimum `-1` unless `cos_tilt_minimum` is given), a normal eccentricity restricted to `[low, high]` (`0` and `1` unless given) and the power-law redshift density. -/
theorem C63_broken_powerlaw (c : Cosmo.Cosmology) (f : Flags) (v : Bool) (p : Dict String ℝ) {D : Mass.TwoPeak} {rate : ℝ} (hp : GivenMass p D rate) (hD : D.Proper) (hv : D.validate = true)
    {la sa : ℝ} (hspin : f.spin = true → Given p [("chi_loc", la), ("chi_scale", sa)] ∧ 0 < sa)
    {zeta lt st minimum : ℝ} (htilt : f.tilt = true → Given p [("cos_tilt_zeta", zeta), ("cos_tilt_loc", lt), ("cos_tilt_scale", st)] ∧
      (Given p [("cos_tilt_minimum", minimum)] ∨ "cos_tilt_minimum" ∉ keys p ∧ minimum = -1) ∧ 0 ≤ zeta ∧ zeta ≤ 1 ∧ 0 < st ∧ minimum < 1)
    {le se low high : ℝ} (hecc : f.ecc = true → Given p [("eccentricity_loc", le), ("eccentricity_scale", se)] ∧
      (Given p [("eccentricity_low", low)] ∨ "eccentricity_low" ∉ keys p ∧ low = 0) ∧ (Given p [("eccentricity_high", high)] ∨ "eccentricity_high" ∉ keys p ∧ high = 1) ∧ 0 < se ∧ low < high)
    {zmax kappa : ℝ} (hz : f.redshift = true → Given p [("z_max", zmax), ("kappa", kappa)] ∧ c.Proper ∧ 0 < zmax)
    (m q a1 a2 t1 t2 e z : ℝ) :
    ∃ M, brokenPowerlawTwoPeakFull c f v p = .ok M ∧
      let lp := M.logProbChecked v (.many (([m, q] ++ coords f.spin [a1, a2] ++ coords f.tilt [t1, t2] ++ coords f.ecc [e] ++ coords f.redshift [z]).map fin))
      IsLog lp ∧ expR lp = Real.exp rate *
        (expR (D.logProb (fin m) (fin q)) *
          factor f.spin (Spin.restrictedNormal la sa (Set.Icc 0 1) a1 * Spin.restrictedNormal la sa (Set.Icc 0 1) a2) *
          factor f.tilt ((1 - zeta) * (Spin.uniformDensity minimum 1 t1 * Spin.uniformDensity minimum 1 t2) +
            zeta * (Spin.restrictedNormal lt st (Set.Icc minimum 1) t1 * Spin.restrictedNormal lt st (Set.Icc minimum 1) t2)) *
          factor f.ecc (Spin.restrictedNormal le se (Set.Icc low high) e) *
          factor f.redshift (expR ((Cosmo.Redshift.mk c (Cosmo.powerlawLogPsi kappa) zmax true).logProb (fin z)))) := by
  have hmass := brokenMass_eq hp v
  have hrate := given_val hp (n := "log_rate") (v := rate) (by simp)
  have rk : ∀ n ∈ brokenNames f.spin f.redshift f.tilt f.ecc, n ∈ keys p := by
    simp only [brokenNames, List.mem_append]
    rintro n (h | h | h | h | h)
    · exact brokenMass_keys hp n h
    · exact optNames_mem (fun hf => (hspin hf).1) (by simp) h
    · exact optNames_mem (fun hf => (htilt hf).1) (by simp) h
    · exact optNames_mem (fun hf => (hecc hf).1) (by simp) h
    · exact optNames_mem (fun hf => (hz hf).1) (by simp) h
  obtain ⟨d, M, e1, e2, e3, e4⟩ := four_parts v (brokenBlock_good D hD hv v m q) rfl
    (fun hf => truncatedSpins_good v (hspin hf).1 (hspin hf).2 a1 a2)
    (fun hf => minimumTilts_good v (htilt hf).1 (default_eq (htilt hf).2.1) (htilt hf).2.2.1 (htilt hf).2.2.2.1 (htilt hf).2.2.2.2.1 (htilt hf).2.2.2.2.2 t1 t2)
    (fun hf => truncatedEcc_good v (hecc hf).1 (default_eq (hecc hf).2.1) (default_eq (hecc hf).2.2.1) (hecc hf).2.2.2.1 (hecc hf).2.2.2.2 e)
    (fun hf => redshiftModel_good v (hz hf).1 (hz hf).2.1 (hz hf).2.2 z)
    (x1 := [a1, a2]) (x2 := [t1, t2]) (x3 := [e]) (x4 := [z]) rfl rfl rfl rfl rate
  refine ⟨M, ?_, e3, e4⟩
  rw [brokenFull_eq, hmass, hrate, program_ok rk (given_mem hp (by simp)) e1, e2]

/-- The parameters of the mass model as a dictionary. -/
noncomputable def massDict (D : Mass.TwoPeak) (rate : ℝ) : Dict String ℝ :=
  [("alpha1", D.alpha1), ("alpha2", D.alpha2), ("beta", D.beta), ("loc1", D.loc1), ("loc2", D.loc2), ("scale1", D.scale1), ("scale2", D.scale2), ("delta_m1", D.delta1), ("delta_m2", D.delta2),
    ("lambda_0", D.lambda0), ("lambda_1", D.lambda1), ("m1min", D.m1min), ("m2min", D.m2min), ("mmax", D.mmax), ("mbreak", D.mbreak), ("log_rate", rate)]

/-- The GWTC-4 parameters with the tilt minimum left out and the eccentricity bounded above. -/
noncomputable def brokenExample : Dict String ℝ :=
  massDict Mass.gwtc4 1 ++ ([("chi_loc", 0.1), ("chi_scale", 0.3)] ++ ([("cos_tilt_zeta", 0.5), ("cos_tilt_loc", 0.8), ("cos_tilt_scale", 0.4)] ++
    ([("eccentricity_loc", 0), ("eccentricity_scale", 0.1)] ++ ([("eccentricity_high", 0.5)] ++ [("z_max", 1.9), ("kappa", 2.7)]))))

theorem brokenExample_keys : keys brokenExample = ["alpha1", "alpha2", "beta", "loc1", "loc2", "scale1", "scale2", "delta_m1", "delta_m2", "lambda_0", "lambda_1", "m1min", "m2min", "mmax", "mbreak",
  "log_rate", "chi_loc", "chi_scale", "cos_tilt_zeta", "cos_tilt_loc", "cos_tilt_scale", "eccentricity_loc", "eccentricity_scale", "eccentricity_high", "z_max", "kappa"] := rfl

example (v : Bool) : ∃ M, brokenPowerlawTwoPeakFull Cosmo.planck2015 ⟨true, true, true, true⟩ v brokenExample = .ok M ∧
    IsLog (M.logProbChecked v (.many ([40, 0.9, 0.3, 0.2, 0.9, -0.5, 0.05, 0.4].map fin))) := by
  have sub : ∀ {l : List (String × ℝ)}, (∀ nv ∈ l, nv ∈ brokenExample) → Given brokenExample l := given_of_mem (by rw [brokenExample_keys]; decide +kernel)
  obtain ⟨M, h1, h2, -⟩ := C63_broken_powerlaw Cosmo.planck2015 ⟨true, true, true, true⟩ v brokenExample (D := Mass.gwtc4) (rate := 1)
    (sub fun nv h => List.mem_append_left _ h) (by constructor <;> norm_num [Mass.gwtc4]) rfl
    (la := 0.1) (sa := 0.3) (fun _ => ⟨sub fun nv h => List.mem_append_right _ (List.mem_append_left _ h), by norm_num⟩)
    (zeta := 0.5) (lt := 0.8) (st := 0.4) (minimum := -1) (fun _ => ⟨sub fun nv h => List.mem_append_right _ (List.mem_append_right _ (List.mem_append_left _ h)),
      Or.inr ⟨by rw [brokenExample_keys]; decide +kernel, rfl⟩, by norm_num, by norm_num, by norm_num, by norm_num⟩)
    (le := 0) (se := 0.1) (low := 0) (high := 0.5) (fun _ => ⟨sub fun nv h => List.mem_append_right _ (List.mem_append_right _ (List.mem_append_right _ (List.mem_append_left _ h))),
      Or.inr ⟨by rw [brokenExample_keys]; decide +kernel, rfl⟩,
      Or.inl (sub fun nv h => List.mem_append_right _ (List.mem_append_right _ (List.mem_append_right _ (List.mem_append_right _ (List.mem_append_left _ h))))), by norm_num, by norm_num⟩)
    (zmax := 1.9) (kappa := 2.7) (fun _ => ⟨sub fun nv h => List.mem_append_right _ (List.mem_append_right _ (List.mem_append_right _ (List.mem_append_right _ (List.mem_append_right _ h)))),
      Cosmo.planck2015_proper, by norm_num⟩)
    40 0.9 0.3 0.2 0.9 (-0.5) 0.05 0.4
  exact ⟨M, h1, h2⟩

/-- **C63** (`BrokenPowerlawTwoPeakFull`, missing parameters). -/
theorem C63_broken_powerlaw_missing (c : Cosmo.Cosmology) (f : Flags) (v : Bool) (p : Dict String ℝ) (n : String)
    (h : FirstMissing p (brokenNames f.spin f.redshift f.tilt f.ecc ++ ["log_rate"]) n) : brokenPowerlawTwoPeakFull c f v p = .error (.keyError n) := by
  rw [brokenFull_eq]
  exact program_missing h (joinIfMany_ok _ (by simp)) _

/-! ## `BrokenPowerlawTwoPeakMultiSpinMultiTiltFull` -/

/-- The spin parameters of one mass component under their names. -/
def GivenSpins (p : Dict String ℝ) (suffix : String) (s : MultiSpin.Spins) : Prop :=
  Given p [("a_1_loc_" ++ suffix, s.a1.loc), ("a_1_scale_" ++ suffix, s.a1.scale), ("a_1_low_" ++ suffix, s.a1.low), ("a_1_high_" ++ suffix, s.a1.high),
    ("a_2_loc_" ++ suffix, s.a2.loc), ("a_2_scale_" ++ suffix, s.a2.scale), ("a_2_low_" ++ suffix, s.a2.low), ("a_2_high_" ++ suffix, s.a2.high),
    ("cos_tilt_zeta_" ++ suffix, s.zeta), ("cos_tilt_1_loc_" ++ suffix, s.tilt1Loc), ("cos_tilt_1_scale_" ++ suffix, s.tilt1Scale),
    ("cos_tilt_2_loc_" ++ suffix, s.tilt2Loc), ("cos_tilt_2_scale_" ++ suffix, s.tilt2Scale)]

theorem multiSpins_eq {p : Dict String ℝ} {suffix : String} {s : MultiSpin.Spins} (h : GivenSpins p suffix s) : multiSpins p suffix = s := by
  obtain ⟨⟨l1, s1, w1, g1⟩, ⟨l2, s2, w2, g2⟩, z, t1, u1, t2, u2⟩ := s
  unfold GivenSpins at h
  simp only at h
  simp only [multiSpins, given_val h (n := "a_1_loc_" ++ suffix) (v := l1) (by simp), given_val h (n := "a_1_scale_" ++ suffix) (v := s1) (by simp),
    given_val h (n := "a_1_low_" ++ suffix) (v := w1) (by simp), given_val h (n := "a_1_high_" ++ suffix) (v := g1) (by simp),
    given_val h (n := "a_2_loc_" ++ suffix) (v := l2) (by simp), given_val h (n := "a_2_scale_" ++ suffix) (v := s2) (by simp),
    given_val h (n := "a_2_low_" ++ suffix) (v := w2) (by simp), given_val h (n := "a_2_high_" ++ suffix) (v := g2) (by simp),
    given_val h (n := "cos_tilt_zeta_" ++ suffix) (v := z) (by simp), given_val h (n := "cos_tilt_1_loc_" ++ suffix) (v := t1) (by simp),
    given_val h (n := "cos_tilt_1_scale_" ++ suffix) (v := u1) (by simp), given_val h (n := "cos_tilt_2_loc_" ++ suffix) (v := t2) (by simp),
    given_val h (n := "cos_tilt_2_scale_" ++ suffix) (v := u2) (by simp)]

/-- The names of one component. -/
def spinNames (suffix : String) : List String :=
  ["a_1_loc_" ++ suffix, "a_1_scale_" ++ suffix, "a_1_low_" ++ suffix, "a_1_high_" ++ suffix, "a_2_loc_" ++ suffix, "a_2_scale_" ++ suffix, "a_2_low_" ++ suffix, "a_2_high_" ++ suffix,
    "cos_tilt_zeta_" ++ suffix, "cos_tilt_1_loc_" ++ suffix, "cos_tilt_1_scale_" ++ suffix, "cos_tilt_2_loc_" ++ suffix, "cos_tilt_2_scale_" ++ suffix]

theorem componentNames_perm : componentNames.Perm (spinNames "bpl1" ++ spinNames "bpl2" ++ spinNames "n1" ++ spinNames "n2") := by decide +kernel

/-- **C63** (`BrokenPowerlawTwoPeakMultiSpinMultiTiltFull`).  With every name in the dictionary, the four components' spin parameters under their suffixes, the density at the event (primary
mass, mass ratio, two spins, two tilts, the eccentricity if the flag is set, redshift) is the exponential of `log_rate` times the density of the mass and spin model (C62), the half normal eccentricity density and the power-law
redshift density; the log density is never NaN or `+inf`. -/
theorem C63_multi_spin (c : Cosmo.Cosmology) (ecc v : Bool) (p : Dict String ℝ) {S : MultiSpin.Model} {rate : ℝ} (hp : GivenMass p S.mass rate) (hS : S.Proper)
    (h1 : GivenSpins p "bpl1" S.bpl1) (h2 : GivenSpins p "bpl2" S.bpl2) (h3 : GivenSpins p "n1" S.n1) (h4 : GivenSpins p "n2" S.n2)
    {se : ℝ} (hecc : ecc = true → Given p [("eccentricity_scale", se)] ∧ 0 < se)
    {zmax kappa : ℝ} (hz : Given p [("z_max", zmax), ("kappa", kappa)]) (hc : c.Proper) (hz0 : 0 < zmax) (m q a1 a2 t1 t2 e z : ℝ) :
    ∃ M, multiSpinMultiTiltFull c ecc v p = .ok M ∧
      let lp := M.logProbChecked v (.many (([m, q, a1, a2, t1, t2] ++ coords ecc [e] ++ [z]).map fin))
      IsLog lp ∧ expR lp = Real.exp rate *
        (expR (S.logProb (fin m) (fin q) (fin a1) (fin a2) (fin t1) (fin t2)) * factor ecc (halfNormalDensity se e) *
          expR ((Cosmo.Redshift.mk c (Cosmo.powerlawLogPsi kappa) zmax true).logProb (fin z))) := by
  have hmass : multiMass v p = { S with mass := { S.mass with validate := v } } := by
    simp only [multiMass, brokenMass_eq hp v, multiSpins_eq h1, multiSpins_eq h2, multiSpins_eq h3, multiSpins_eq h4]
  have hrate := given_val hp (n := "log_rate") (v := rate) (by simp)
  have rk : ∀ n ∈ multiAllNames ecc, n ∈ keys p := by
    simp only [multiAllNames, List.mem_append]
    rintro n (h | h | h | h)
    · exact brokenMass_keys hp n h
    · rw [componentNames_perm.mem_iff] at h
      simp only [List.mem_append] at h
      rcases h with ((h | h) | h) | h
      · exact given_mem h1 h
      · exact given_mem h2 h
      · exact given_mem h3 h
      · exact given_mem h4 h
    · exact optNames_mem (fun hf => (hecc hf).1) (by simp) h
    · exact given_mem hz (by simpa using h)
  have g0 := multiBlock_good S hS v m q a1 a2 t1 t2
  obtain ⟨d, M, e1, e2, e3, e4⟩ := two_parts v g0 (fun hf => halfNormalEcc_good v (hecc hf).1 (hecc hf).2 e) (redshiftModel_good v hz hc hz0 z) (x0 := [m, q, a1, a2, t1, t2])
    (x1 := [e]) (x2 := [z]) rfl rfl rfl rate
  refine ⟨M, ?_, e3, e4⟩
  rw [multiFull_eq, hmass, hrate, program_ok rk (given_mem hp (by simp)) e1, e2]

/-- The spin parameters of one component as a dictionary. -/
noncomputable def spinDict (suffix : String) (s : MultiSpin.Spins) : Dict String ℝ :=
  [("a_1_loc_" ++ suffix, s.a1.loc), ("a_1_scale_" ++ suffix, s.a1.scale), ("a_1_low_" ++ suffix, s.a1.low), ("a_1_high_" ++ suffix, s.a1.high),
    ("a_2_loc_" ++ suffix, s.a2.loc), ("a_2_scale_" ++ suffix, s.a2.scale), ("a_2_low_" ++ suffix, s.a2.low), ("a_2_high_" ++ suffix, s.a2.high),
    ("cos_tilt_zeta_" ++ suffix, s.zeta), ("cos_tilt_1_loc_" ++ suffix, s.tilt1Loc), ("cos_tilt_1_scale_" ++ suffix, s.tilt1Scale),
    ("cos_tilt_2_loc_" ++ suffix, s.tilt2Loc), ("cos_tilt_2_scale_" ++ suffix, s.tilt2Scale)]

/-- The parameters of the example of C62. -/
noncomputable def multiExample : Dict String ℝ :=
  massDict MultiSpin.example62.mass 1 ++ (spinDict "bpl1" MultiSpin.example62.bpl1 ++ (spinDict "bpl2" MultiSpin.example62.bpl2 ++
    (spinDict "n1" MultiSpin.example62.n1 ++ (spinDict "n2" MultiSpin.example62.n2 ++ [("z_max", 1.9), ("kappa", 2.7)]))))

theorem multiExample_nodup : (keys multiExample).Nodup := by
  have : keys multiExample = ["alpha1", "alpha2", "beta", "loc1", "loc2", "scale1", "scale2", "delta_m1", "delta_m2", "lambda_0", "lambda_1", "m1min", "m2min", "mmax", "mbreak", "log_rate"] ++
      (spinNames "bpl1" ++ (spinNames "bpl2" ++ (spinNames "n1" ++ (spinNames "n2" ++ ["z_max", "kappa"])))) := rfl
  rw [this]
  decide +kernel

example (v : Bool) : ∃ M, multiSpinMultiTiltFull Cosmo.planck2015 false v multiExample = .ok M ∧ IsLog (M.logProbChecked v (.many ([40, 0.9, 0.7, 0.6, 0.1, -0.3, 0.4].map fin))) := by
  have sub : ∀ {l : List (String × ℝ)}, (∀ nv ∈ l, nv ∈ multiExample) → Given multiExample l := given_of_mem multiExample_nodup
  obtain ⟨M, h1, h2, -⟩ := C63_multi_spin Cosmo.planck2015 false v multiExample (S := MultiSpin.example62) (rate := 1) (sub fun nv h => List.mem_append_left _ h) MultiSpin.example62_proper
    (sub fun nv h => List.mem_append_right _ (List.mem_append_left _ h)) (sub fun nv h => List.mem_append_right _ (List.mem_append_right _ (List.mem_append_left _ h)))
    (sub fun nv h => List.mem_append_right _ (List.mem_append_right _ (List.mem_append_right _ (List.mem_append_left _ h))))
    (sub fun nv h => List.mem_append_right _ (List.mem_append_right _ (List.mem_append_right _ (List.mem_append_right _ (List.mem_append_left _ h)))))
    (se := 1) (fun h => by cases h) (zmax := 1.9) (kappa := 2.7)
    (sub fun nv h => List.mem_append_right _ (List.mem_append_right _ (List.mem_append_right _ (List.mem_append_right _ (List.mem_append_right _ h)))))
    Cosmo.planck2015_proper (by norm_num) 40 0.9 0.7 0.6 0.1 (-0.3) 0 0.4
  exact ⟨M, h1, h2⟩

/-- **C63** (`BrokenPowerlawTwoPeakMultiSpinMultiTiltFull`, missing parameters). -/
theorem C63_multi_spin_missing (c : Cosmo.Cosmology) (ecc v : Bool) (p : Dict String ℝ) (n : String)
    (h : FirstMissing p (multiAllNames ecc ++ ["log_rate"]) n) : multiSpinMultiTiltFull c ecc v p = .error (.keyError n) := by
  rw [multiFull_eq]
  exact program_missing h (join_ok _ (by simp)) _

example : multiSpinMultiTiltFull Cosmo.planck2015 false true (massDict MultiSpin.example62.mass 1) = .error (.keyError "a_1_loc_bpl1") := by
  apply C63_multi_spin_missing
  exact ⟨["alpha1", "alpha2", "beta", "loc1", "loc2", "scale1", "scale2", "delta_m1", "delta_m2", "lambda_0", "lambda_1", "m1min", "m2min", "mmax", "mbreak"], _, rfl,
    by
      rw [show keys (massDict MultiSpin.example62.mass 1) = ["alpha1", "alpha2", "beta", "loc1", "loc2", "scale1", "scale2", "delta_m1", "delta_m2", "lambda_0", "lambda_1", "m1min", "m2min", "mmax",
        "mbreak", "log_rate"] from rfl]
      decide +kernel, by
      rw [show keys (massDict MultiSpin.example62.mass 1) = ["alpha1", "alpha2", "beta", "loc1", "loc2", "scale1", "scale2", "delta_m1", "delta_m2", "lambda_0", "lambda_1", "m1min", "m2min", "mmax",
        "mbreak", "log_rate"] from rfl]
      decide +kernel⟩

end GW.Full
