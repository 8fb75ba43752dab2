import Verif.Model.MassModels
import Verif.Model.Numeric

/-!
# Mass models with Planck-taper smoothing (gwkokab/models/mass/_models.py, _bpls.py, gwkokab/models/hybrids/_utils.py)

Per event and per set of (scalar, finite) parameters.  The numerical normalisations are part of the model: the same trapezoid sums over the same grids.
-/

namespace GW.Mass
open GW XR GW.PowerLaw GW.Constraints GW.Num

noncomputable section
open Classical

/-- `jnp.where(delta <= 0.0, 1.0, delta)`. -/
def safeWidth (delta : ℝ) : ℝ := if delta ≤ 0 then 1 else delta

/-- The grid of mass-ratio normalisations `jnp.trapezoid(exp(log_prob_q_unnorm(m1, q)), qs, axis=1)`, one entry per `m1` of the grid.
Source: gwkokab/models/mass/_models.py lines 290–296, _bpls.py lines 281–287. -/
def zqTable (lq : XR → XR → XR) (m1s qs : List XR) : List XR := m1s.map fun m1 => trapezoid (qs.map fun q => exp (lq m1 q)) qs

/-- `log_Z_q` from the interpolated `_Z_q`: `where(_Z_q <= 0, 0.0, log(where(_Z_q <= 0, 1.0, _Z_q)))`. -/
def logZq (z : XR) : XR :=
  let bad := decide (le z (fin 0))
  select bad (fin 0) (log (select bad (fin 1) z))

/-- `SmoothedTwoComponentPrimaryMassRatio`, _models.py:167–343. -/
structure TwoComponent where
  alpha : ℝ
  beta : ℝ
  delta : ℝ
  lambdaPeak : ℝ
  loc : ℝ
  mmax : ℝ
  mmin : ℝ
  scale : ℝ
  validate : Bool

namespace TwoComponent

/-- `support`, _models.py:253, 299–301. -/
def support (d : TwoComponent) (m1 q : XR) : Bool := accepts (.massRatioSandwich d.mmin d.mmax) [m1, q]

/-- `_log_prob_m1_unnorm`, _models.py:303–320. -/
def m1Unnorm (d : TwoComponent) (m1 : XR) : XR :=
  let logSmoothing := logPlanck ((m1 - fin d.mmin) / fin (safeWidth d.delta))
  let logNormPl := logNorm (-d.alpha) d.mmin d.mmax
  let probNorm := normPdf m1 d.loc d.scale
  let lp := log (fin (1 - d.lambdaPeak) * pow m1 (-d.alpha) * exp (-logNormPl) + fin d.lambdaPeak * probNorm) + logSmoothing
  select (decide (d.delta ≤ 0)) ninf lp

/-- `_log_prob_q_unnorm`, _models.py:322–330 (behind `@validate_sample`). -/
def qUnnorm (d : TwoComponent) (m1 q : XR) : XR :=
  let m2 := m1 * q
  let logSmoothing := logPlanck ((m2 - fin d.mmin) / fin (safeWidth d.delta))
  let lp := fin d.beta * log q + logSmoothing
  validated d.validate (d.support m1 q) (select (decide (d.delta ≤ 0)) ninf lp)

/-- `self._logZ`, _models.py:263–284. -/
def logZ (d : TwoComponent) : XR :=
  let ms := linspace d.mmin (d.mmin + d.delta) 100
  let numerical := trapezoid (ms.map fun m => exp (d.m1Unnorm m)) ms
  let analytical := fin (1 - d.lambdaPeak) * exp (logNorm (-d.alpha) (d.mmin + d.delta) d.mmax - logNorm (-d.alpha) d.mmin d.mmax)
    + fin d.lambdaPeak * (ndtr ((fin d.mmax - fin d.loc) / fin d.scale) - ndtr ((fin d.mmin + fin d.delta - fin d.loc) / fin d.scale))
  log (numerical + analytical)

/-- `self._m1s` and `self._Z_q_given_m1`, _models.py:290–296. -/
def m1s (d : TwoComponent) : List XR := linspace d.mmin d.mmax 1000
/-- `self._Z_q_given_m1`, gwkokab/models/mass/_models.py lines 290–296. -/
def zq (d : TwoComponent) : List XR := zqTable d.qUnnorm d.m1s (linspace 0.005 1 500)

/-- `log_prob`, _models.py:332–340. -/
def logProb (d : TwoComponent) (m1 q : XR) : XR :=
  let lpM1 := d.m1Unnorm m1 - d.logZ
  let lpQ := d.qUnnorm m1 q - logZq (interp m1 d.m1s d.zq (fin 1) (fin 1))
  validated d.validate (d.support m1 q) (lpM1 + lpQ)

end TwoComponent

/-- `BrokenPowerlawTwoPeak`, _bpls.py:102–345. -/
structure TwoPeak where
  alpha1 : ℝ
  alpha2 : ℝ
  beta : ℝ
  loc1 : ℝ
  loc2 : ℝ
  scale1 : ℝ
  scale2 : ℝ
  delta1 : ℝ
  delta2 : ℝ
  lambda0 : ℝ
  lambda1 : ℝ
  m1min : ℝ
  m2min : ℝ
  mmax : ℝ
  mbreak : ℝ
  validate : Bool

namespace TwoPeak

/-- `support`: `mass_ratio_mass_sandwich(m2min, mmax)`, _bpls.py:262, 289–291. -/
def support (d : TwoPeak) (m1 q : XR) : Bool := accepts (.massRatioSandwich d.m2min d.mmax) [m1, q]

/-- `_log_prob_m1_unnorm`, _bpls.py:293–322. -/
def m1Unnorm (d : TwoPeak) (m1 : XR) : XR :=
  let logSmoothing := logPlanck ((m1 - fin d.m1min) / fin (safeWidth d.delta1))
  let bp := brokenLogProb m1 d.alpha1 d.alpha2 d.m1min d.mmax d.mbreak
  let n0 := truncnormLogpdf m1 d.loc1 d.scale1 (fin d.m1min) (fin d.mmax)
  let n1 := truncnormLogpdf m1 d.loc2 d.scale2 (fin d.m1min) (fin d.mmax)
  let lp := logSmoothing + log (fin d.lambda0 * exp bp + fin d.lambda1 * exp n0 + fin (1 - (d.lambda0 + d.lambda1)) * exp n1)
  select (decide (d.delta1 ≤ 0) || decide (lt m1 (fin d.m1min))) ninf lp

/-- `_log_prob_q_unnorm`, _bpls.py:324–335 (behind `@validate_sample`). -/
def qUnnorm (d : TwoPeak) (m1 q : XR) : XR :=
  let m2 := m1 * q
  let logSmoothing := logPlanck ((m2 - fin d.m2min) / fin (safeWidth d.delta2))
  let lp := fin d.beta * log q + logSmoothing
  validated d.validate (d.support m1 q) (select (decide (d.delta2 ≤ 0) || decide (lt m2 (fin d.m2min))) ninf lp)

/-- `self._logZ`, _bpls.py:271–279. -/
def logZ (d : TwoPeak) : XR :=
  let ms := linspace d.m1min d.mmax 1000
  log (trapezoid (ms.map fun m => exp (d.m1Unnorm m)) ms)

/-- `self._m1s` and `self._Z_q_given_m1`, _bpls.py:281–287. -/
def m1s (d : TwoPeak) : List XR := linspace d.m2min d.mmax 1000
/-- `self._Z_q_given_m1`, gwkokab/models/mass/_bpls.py lines 281–287. -/
def zq (d : TwoPeak) : List XR := zqTable d.qUnnorm d.m1s (linspace 0.005 1 500)

/-- `log_prob`, _bpls.py:337–345. -/
def logProb (d : TwoPeak) (m1 q : XR) : XR :=
  let lpM1 := d.m1Unnorm m1 - d.logZ
  let lpQ := d.qUnnorm m1 q - logZq (interp m1 d.m1s d.zq (fin 1) (fin 1))
  validated d.validate (d.support m1 q) (lpM1 + lpQ)

end TwoPeak

/-- `_SmoothedPowerlawMassRatioAndRest`, hybrids/_utils.py:81–208.  The wrapped `rest_dist` (primary mass and everything but the mass ratio) is given by its support check and its log density. -/
structure AndRest where
  restSupport : List XR → Bool
  restLogProb : List XR → XR
  beta : ℝ
  delta1 : ℝ
  delta2 : ℝ
  logRate : ℝ
  logZ : XR
  m1max : ℝ
  m1min : ℝ
  m2min : ℝ
  validate : Bool

namespace AndRest

/-- `support`: `all_constraint([rest_dist._support, unit_interval], [(0, n), n])`, hybrids/_utils.py:145–148: the event is `rest ++ [q]`. -/
def support (d : AndRest) (rest : List XR) (q : XR) : Bool := d.restSupport rest && (decide (le (fin 0) q) && decide (le q (fin 1)))

/-- `_log_prob_q_unnorm`, hybrids/_utils.py:174–188 (not behind `@validate_sample` here). -/
def qUnnorm (d : AndRest) (m1 q : XR) : XR :=
  let m2 := m1 * q
  let logSmoothing := logPlanck ((m2 - fin d.m2min) / fin (safeWidth d.delta2))
  let lp := fin d.beta * log q + logSmoothing
  select (decide (d.delta2 ≤ 0) || decide (lt m2 (fin d.m2min)) || decide (lt m1 m2) || decide (lt (fin d.m1max) m1) || logSmoothing.isNegInf) ninf lp

/-- `self._m1s` and `self._Z_q_given_m1`, hybrids/_utils.py:163–168. -/
def m1s (d : AndRest) : List XR := linspace d.m1min d.m1max 1000
/-- `self._Z_q_given_m1`, gwkokab/models/hybrids/_utils.py lines 163–168. -/
def zq (d : AndRest) : List XR := zqTable d.qUnnorm d.m1s (linspace 0.005 1 500)

/-- `log_prob` on the event `rest ++ [q]`, whose first coordinate is the primary mass, hybrids/_utils.py:190–208. -/
def logProb (d : AndRest) (rest : List XR) (q : XR) : XR :=
  let m1 := (rest ++ [q]).headD nan
  let logSmoothing := logPlanck ((m1 - fin d.m1min) / fin (safeWidth d.delta1))
  let restLp := d.restLogProb rest + logSmoothing - d.logZ
  let lq := d.qUnnorm m1 q
  let z := interp m1 d.m1s d.zq (fin 0) (fin 0)
  let v := fin d.logRate + restLp + lq - logZq z
  validated d.validate (d.support rest q) (select (decide (d.delta1 ≤ 0) || v.isNegInf) ninf v)

end AndRest

/-- The normalisation `logZ` computed by `NSmoothedPowerlawMSmoothedGaussian` (hybrids/_o3_n_pls_m_gs.py:179–186) and `NBrokenPowerlawMGaussian` (hybrids/_o4_n_bpls_m_gs.py:184–191) from the log density of
the primary-mass mixture. -/
def mixtureLogZ (massLogProb : XR → XR) (delta m1min m1max : ℝ) : XR :=
  let mm := linspace m1min m1max 1000
  let prob := mm.map fun m => select (decide (delta ≤ 0)) (fin 0) (exp (massLogProb m + logPlanck ((m - fin m1min) / fin (safeWidth delta))))
  log (trapezoid prob mm)

end

end GW.Mass
