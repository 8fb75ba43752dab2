import Verif.Model.Joint
import Verif.Model.Mixture
import Verif.Model.Smoothed
import Verif.Model.MultiSpin
import Verif.Model.Spin
import Verif.Model.Beta
import Verif.Model.Cosmology
import Verif.Model.PyDict

/-!
# The named population models (gwkokab/models/hybrids)

`PowerlawPeak` (_powerlawpeak.py), `BrokenPowerlawTwoPeakFull` (_bp2pfull.py) and `BrokenPowerlawTwoPeakMultiSpinMultiTiltFull`
(_bp2pmultispinfull.py:745–843).  The distributions they put together are the models of the other files; numpyro's `Beta` and `HalfNormal` are transcribed
here as far as `log_prob` is concerned.  Hyper-parameters are scalar reals; samplers and `cdf` are not modelled here; neither is the validation of the
hyper-parameters themselves by numpyro.  Keyword arguments are evaluated in program order, so the first missing name raises.
-/

namespace GW.Full
open GW XR GW.PyDict GW.Joint

/-- Exceptions.  Source: gwkokab/models/hybrids/_bp2pfull.py lines 20–103. -/
inductive Err where
  | keyError (name : String)
  | joint (e : Joint.Err)
  | mixture (e : Mixture.Err)

/-- The flags `use_spin`, `use_redshift`, `use_tilt`, `use_eccentricity`, _powerlawpeak.py:21–24, _bp2pfull.py:21–24. -/
structure Flags where
  spin : Bool
  redshift : Bool
  tilt : Bool
  ecc : Bool

noncomputable section
open Classical

/-- The look-ups `params[name]` in program order: the first missing one raises.  Source: e.g. gwkokab/models/hybrids/_powerlawpeak.py lines 20–94. -/
def requireAll (params : Dict String ℝ) : List String → Except Err Unit
  | [] => .ok ()
  | n :: ns => match get? params n with
    | none => .error (.keyError n)
    | some _ => requireAll params ns

/-- The value of `params[name]` once it is known to be there.  Source: e.g. gwkokab/models/hybrids/_powerlawpeak.py lines 20–94. -/
def val (params : Dict String ℝ) (name : String) : ℝ := (get? params name).getD 0

/-- A distribution of a scalar event.  Source: shape of an argument of `JointDistribution`, gwkokab/models/utils/_joindistribution.py lines 103–124. -/
def scalar (logProb : XR → XR) (support : XR → Bool) : Base XR where
  shape := none
  logProb s := match s with | .one x => logProb x | .many _ => nan
  support s := match s with | .one x => support x | .many _ => false
  sample _ := .one nan

/-- A distribution of an event with two coordinates.
Source: shape of an argument of `JointDistribution`, gwkokab/models/utils/_joindistribution.py lines 103–124. -/
def pair (logProb : XR → XR → XR) (support : XR → XR → Bool) : Base XR where
  shape := some 2
  logProb s := match s with | .many [x, y] => logProb x y | _ => nan
  support s := match s with | .many [x, y] => support x y | _ => false
  sample _ := .many [nan, nan]

/-- A distribution of an event with six coordinates.
Source: shape of an argument of `JointDistribution`, gwkokab/models/utils/_joindistribution.py lines 103–124. -/
def six (logProb : XR → XR → XR → XR → XR → XR → XR) (support : XR → XR → XR → XR → XR → XR → Bool) : Base XR where
  shape := some 6
  logProb s := match s with | .many [a, b, c, d, e, f] => logProb a b c d e f | _ => nan
  support s := match s with | .many [a, b, c, d, e, f] => support a b c d e f | _ => false
  sample _ := .many [nan, nan, nan, nan, nan, nan]

/-! ## numpyro -/

/-- `gammaln`, idealised, for a positive argument.  Source: inside numpyro's `Beta`, used at gwkokab/models/spin/_models.py line 156. -/
def gammaln : XR → XR
  | fin a => fin (Real.log (Real.Gamma a))
  | _ => nan

/-- `Beta(c1, c0, validate_args).log_prob`: the Dirichlet log density of `(x, 1 - x)`.  Releases of numpyro differ in how they treat `0 · log 0` (here NaN); it
only occurs at `x = 0` and `x = 1`. -/
def betaDist (c1 c0 : XR) (validate : Bool) : Spin.Dist1 where
  logProb x := Mass.validated validate (Spin.interval 0 1 x)
    (((c1 - fin 1) * log x + (c0 - fin 1) * log (fin 1 - x)) - ((gammaln c1 + gammaln c0) - gammaln (c1 + c0)))
  support := Spin.interval 0 1

/-- `HalfNormal(scale, validate_args)`: the normal log density plus `log 2`, on the positive reals.
Source: used at gwkokab/models/hybrids/_powerlawpeak.py line 69. -/
def halfNormal (scale : ℝ) (validate : Bool) : Spin.Dist1 where
  logProb x := Mass.validated validate (decide (lt (fin 0) x)) (Spin.normalLogProb 0 scale x + fin (Real.log 2))
  support x := decide (lt (fin 0) x)

/-! ## The blocks -/

/-- `Independent(d, 1)` of two equal scalar distributions. -/
def twice (d : Spin.Dist1) (validate : Bool) : Base XR :=
  pair (fun x y => (Spin.independent (fun _ : Fin 2 => d) validate).logProb ![x, y]) fun x y => (Spin.independent (fun _ : Fin 2 => d) validate).support ![x, y]

/-- `SmoothedTwoComponentPrimaryMassRatio(...)`, _powerlawpeak.py:30–40. -/
def peakMass (v : Bool) (p : Dict String ℝ) : Mass.TwoComponent where
  alpha := val p "alpha"
  beta := val p "beta"
  delta := val p "delta"
  lambdaPeak := val p "lambda_peak"
  loc := val p "loc"
  mmax := val p "mmax"
  mmin := val p "mmin"
  scale := val p "scale"
  validate := v

/-- `BrokenPowerlawTwoPeak(...)`, _bp2pfull.py:30–47; the same arguments at _bp2pmultispinfull.py:751–765. -/
def brokenMass (v : Bool) (p : Dict String ℝ) : Mass.TwoPeak where
  alpha1 := val p "alpha1"
  alpha2 := val p "alpha2"
  beta := val p "beta"
  loc1 := val p "loc1"
  loc2 := val p "loc2"
  scale1 := val p "scale1"
  scale2 := val p "scale2"
  delta1 := val p "delta_m1"
  delta2 := val p "delta_m2"
  lambda0 := val p "lambda_0"
  lambda1 := val p "lambda_1"
  m1min := val p "m1min"
  m2min := val p "m2min"
  mmax := val p "mmax"
  mbreak := val p "mbreak"
  validate := v

/-- The spin arguments with one suffix, _bp2pmultispinfull.py:766–817. -/
def multiSpins (p : Dict String ℝ) (suffix : String) : MultiSpin.Spins where
  a1 := ⟨val p ("a_1_loc_" ++ suffix), val p ("a_1_scale_" ++ suffix), val p ("a_1_low_" ++ suffix), val p ("a_1_high_" ++ suffix)⟩
  a2 := ⟨val p ("a_2_loc_" ++ suffix), val p ("a_2_scale_" ++ suffix), val p ("a_2_low_" ++ suffix), val p ("a_2_high_" ++ suffix)⟩
  zeta := val p ("cos_tilt_zeta_" ++ suffix)
  tilt1Loc := val p ("cos_tilt_1_loc_" ++ suffix)
  tilt1Scale := val p ("cos_tilt_1_scale_" ++ suffix)
  tilt2Loc := val p ("cos_tilt_2_loc_" ++ suffix)
  tilt2Scale := val p ("cos_tilt_2_scale_" ++ suffix)

/-- `BrokenPowerlawTwoPeakMultiSpinMultiTilt(...)`, _bp2pmultispinfull.py:750–819. -/
def multiMass (v : Bool) (p : Dict String ℝ) : MultiSpin.Model where
  mass := brokenMass v p
  bpl1 := multiSpins p "bpl1"
  bpl2 := multiSpins p "bpl2"
  n1 := multiSpins p "n1"
  n2 := multiSpins p "n2"

/-- `PowerlawRedshift(z_max, kappa)`, _powerlawpeak.py:75–82, _bp2pfull.py:85–91, _bp2pmultispinfull.py:829–832; the default cosmology is a parameter. -/
def redshiftModel (c : Cosmo.Cosmology) (v : Bool) (p : Dict String ℝ) : Cosmo.Redshift := ⟨c, Cosmo.powerlawLogPsi (val p "kappa"), val p "z_max", v⟩

/-- The mass distributions as blocks, and the redshift.  Source: gwkokab/models/hybrids/_powerlawpeak.py line 86. -/
def peakBlock (d : Mass.TwoComponent) : Base XR := pair d.logProb d.support
/-- The mass block of gwkokab/models/hybrids/_bp2pfull.py lines 20–103. -/
def brokenBlock (d : Mass.TwoPeak) : Base XR := pair d.logProb d.support
/-- The six-dimensional block of gwkokab/models/hybrids/_bp2pmultispinfull.py lines 745–843. -/
def multiBlock (d : MultiSpin.Model) : Base XR := six d.logProb d.support
/-- The redshift block of gwkokab/models/hybrids/_bp2pfull.py lines 20–103. -/
def redshiftBlock (d : Cosmo.Redshift) : Base XR := scalar d.logProb d.support

/-- `Independent(BetaFromMeanVar([chi_mean, chi_mean], [chi_variance, chi_variance]), 1)`, _powerlawpeak.py:45–56. -/
def betaSpins (v : Bool) (p : Dict String ℝ) : Base XR :=
  let c := Beta.fromMeanVar (val p "chi_mean") (val p "chi_variance")
  twice (betaDist c.1 c.2 v) v

/-- `IndependentSpinOrientationGaussianIsotropic(zeta, scale1, scale2)`, _powerlawpeak.py:59–64; its support is the box `[-1, 1]²`. -/
def peakTilts (v : Bool) (p : Dict String ℝ) : Base XR :=
  pair (fun x y => Spin.independentSpinOrientation (val p "cos_tilt_zeta") (val p "cos_tilt_scale") (val p "cos_tilt_scale") v ![x, y])
    fun x y => Spin.interval (-1) 1 x && Spin.interval (-1) 1 y

/-- `Independent(TruncatedNormal([chi_loc, chi_loc], [chi_scale, chi_scale], low=0, high=1), 1)`, _bp2pfull.py:52–63. -/
def truncatedSpins (v : Bool) (p : Dict String ℝ) : Base XR :=
  twice (Spin.truncatedNormal (val p "chi_loc") (val p "chi_scale") (some 0) (some 1) v) v

/-- `MinimumTiltModel(zeta, loc, scale, minimum)`, _bp2pfull.py:66–73. -/
def minimumTilts (v : Bool) (p : Dict String ℝ) : Base XR :=
  let minimum := (get? p "cos_tilt_minimum").getD (-1)
  pair (fun x y => Spin.minimumTilt (val p "cos_tilt_zeta") (val p "cos_tilt_loc") (val p "cos_tilt_scale") minimum v ![x, y])
    fun x y => Spin.interval minimum 1 x && Spin.interval minimum 1 y

/-- `HalfNormal(eccentricity_scale)`, _powerlawpeak.py:69–72, _bp2pmultispinfull.py:824–826. -/
def halfNormalEcc (v : Bool) (p : Dict String ℝ) : Base XR :=
  let d := halfNormal (val p "eccentricity_scale") v
  scalar d.logProb d.support

/-- `TruncatedNormal(eccentricity_loc, eccentricity_scale, low, high)`, _bp2pfull.py:76–82. -/
def truncatedEcc (v : Bool) (p : Dict String ℝ) : Base XR :=
  let d := Spin.truncatedNormal (val p "eccentricity_loc") (val p "eccentricity_scale") (some ((get? p "eccentricity_low").getD 0)) (some ((get? p "eccentricity_high").getD 1)) v
  scalar d.logProb d.support

/-! ## Putting the blocks together -/

/-- A distribution as the only component of a `ScaledMixture`, its `log_prob` behind `@validate_sample`.
Source: gwkokab/models/hybrids/_powerlawpeak.py lines 89–94; gwkokab/models/utils/_joindistribution.py lines 132–148. -/
def component (v : Bool) (d : Joint.Dist XR) : Mixture.Comp (Slice XR) where
  logProb x := Mass.validated v ((d.support x).getD false) ((d.logProb x).getD nan)
  support x := (d.support x).getD false
  supportType := ""
  eventShape := d.shape.toList
  validateArgs := v
  cdf _ := nan

/-- _powerlawpeak.py:89–94, _bp2pfull.py:98–103, _bp2pmultispinfull.py:838–843: the rate. -/
def scaled (v : Bool) (logRate : ℝ) (d : Joint.Dist XR) : Except Err (Mixture.Mix (Slice XR)) :=
  match Mixture.mkMix [fin logRate] [component v d] (some (component v d).support) with
  | .ok m => .ok m
  | .error e => .error (.mixture e)

/-- `JointDistribution(*component_distributions)`.  Source: gwkokab/models/hybrids/_powerlawpeak.py line 86. -/
def join (ds : List (Base XR)) : Except Err (Joint.Dist XR) := match mkJoint (ds.map Joint.Dist.base) .none none with
  | .ok d => .ok d
  | .error e => .error (.joint e)

/-- _powerlawpeak.py:84–87, _bp2pfull.py:93–96: a joint distribution only when there is something to join. -/
def joinIfMany (ds : List (Base XR)) : Except Err (Joint.Dist XR) := match ds with
  | [d] => .ok (.base d)
  | ds => join ds

/-- `PowerlawPeak`, _powerlawpeak.py:20–94. -/
def powerlawPeak (c : Cosmo.Cosmology) (f : Flags) (v : Bool) (p : Dict String ℝ) : Except Err (Mixture.Mix (Slice XR)) := do
  requireAll p ["alpha", "beta", "delta", "lambda_peak", "loc", "mmax", "mmin", "scale"]
  if f.spin then requireAll p ["chi_mean", "chi_mean", "chi_variance", "chi_variance"]
  if f.tilt then requireAll p ["cos_tilt_zeta", "cos_tilt_scale", "cos_tilt_scale"]
  if f.ecc then requireAll p ["eccentricity_scale"]
  if f.redshift then requireAll p ["z_max", "kappa"]
  let d ← joinIfMany ([peakBlock (peakMass v p)] ++ (if f.spin then [betaSpins v p] else []) ++ (if f.tilt then [peakTilts v p] else []) ++
    (if f.ecc then [halfNormalEcc v p] else []) ++ (if f.redshift then [redshiftBlock (redshiftModel c v p)] else []))
  requireAll p ["log_rate"]
  scaled v (val p "log_rate") d

/-- `BrokenPowerlawTwoPeakFull`, _bp2pfull.py:20–103. -/
def brokenPowerlawTwoPeakFull (c : Cosmo.Cosmology) (f : Flags) (v : Bool) (p : Dict String ℝ) : Except Err (Mixture.Mix (Slice XR)) := do
  requireAll p ["alpha1", "alpha2", "beta", "loc1", "loc2", "scale1", "scale2", "delta_m1", "delta_m2", "lambda_0", "lambda_1", "m1min", "m2min", "mmax", "mbreak"]
  if f.spin then requireAll p ["chi_loc", "chi_loc", "chi_scale", "chi_scale"]
  if f.tilt then requireAll p ["cos_tilt_zeta", "cos_tilt_loc", "cos_tilt_scale"]
  if f.ecc then requireAll p ["eccentricity_loc", "eccentricity_scale"]
  if f.redshift then requireAll p ["z_max", "kappa"]
  let d ← joinIfMany ([brokenBlock (brokenMass v p)] ++ (if f.spin then [truncatedSpins v p] else []) ++ (if f.tilt then [minimumTilts v p] else []) ++
    (if f.ecc then [truncatedEcc v p] else []) ++ (if f.redshift then [redshiftBlock (redshiftModel c v p)] else []))
  requireAll p ["log_rate"]
  scaled v (val p "log_rate") d

/-- The four suffixes in the order in which each argument is looked up.  Source: gwkokab/models/hybrids/_bp2pmultispinfull.py lines 745–843. -/
def suffixes : List String := ["bpl1", "bpl2", "n1", "n2"]

/-- The spin arguments of _bp2pmultispinfull.py:766–817 in program order. -/
def multiNames : List String :=
  ["a_1_loc_", "a_2_loc_", "a_1_low_", "a_2_low_", "a_1_high_", "a_2_high_", "a_1_scale_", "a_2_scale_", "cos_tilt_1_loc_", "cos_tilt_1_scale_", "cos_tilt_2_loc_",
    "cos_tilt_2_scale_", "cos_tilt_zeta_"].flatMap fun n => suffixes.map (n ++ ·)

/-- `BrokenPowerlawTwoPeakMultiSpinMultiTiltFull`, _bp2pmultispinfull.py:745–843. -/
def multiSpinMultiTiltFull (c : Cosmo.Cosmology) (ecc : Bool) (v : Bool) (p : Dict String ℝ) : Except Err (Mixture.Mix (Slice XR)) := do
  requireAll p ["alpha1", "alpha2", "beta", "loc1", "loc2", "scale1", "scale2", "delta_m1", "delta_m2", "lambda_0", "lambda_1", "m1min", "m2min", "mmax", "mbreak"]
  requireAll p multiNames
  if ecc then requireAll p ["eccentricity_scale"]
  requireAll p ["z_max", "kappa"]
  let d ← join ([multiBlock (multiMass v p)] ++ (if ecc then [halfNormalEcc v p] else []) ++ [redshiftBlock (redshiftModel c v p)])
  requireAll p ["log_rate"]
  scaled v (val p "log_rate") d

end

end GW.Full
