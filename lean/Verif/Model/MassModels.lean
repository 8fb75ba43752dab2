import Verif.Model.PowerLaw
import Verif.Model.Constraints

/-!
# Mass models with closed-form normalisation (gwkokab/models/mass/_models.py, _bpls.py)

Per event.  Parameters are finite floats; event coordinates arbitrary floats.  `@validate_sample` is numpyro's: with `validate_args` the value is replaced
by `-inf` where the support check fails.
-/

namespace GW.Mass
open GW XR GW.PowerLaw GW.Constraints

noncomputable section
open Classical

/-- `@validate_sample`: `jnp.where(mask, log_prob, -inf)` if `validate_args`.  Source: gwkokab/models/mass/_models.py lines 84 and 164. -/
def validated (validate : Bool) (mask : Bool) (lp : XR) : XR := if validate then select mask lp ninf else lp

/-- The support check of a leaf constraint on an event of the right length.  Source: gwkokab/models/constraints.py lines 37–133. -/
def accepts (c : Leaf) (x : List XR) : Bool := match c.check x with
  | .ok b => b
  | .error _ => false

/-- `PowerlawPrimaryMassRatio`, _models.py:22–120. -/
structure PowerlawPMR where
  alpha : ℝ
  beta : ℝ
  mmin : ℝ
  mmax : ℝ
  validate : Bool

/-- `support`: `mass_ratio_mass_sandwich(mmin, mmax)`, _models.py:76, 81–83. -/
def PowerlawPMR.support (d : PowerlawPMR) (m1 q : XR) : Bool := accepts (.massRatioSandwich d.mmin d.mmax) [m1, q]

/-- `log_prob`, _models.py:85–99. -/
def PowerlawPMR.logProb (d : PowerlawPMR) (m1 q : XR) : XR :=
  let lpM1 := logProbX m1 (-d.alpha) (fin d.mmin) (fin d.mmax)
  let lpQ := select (decide (le m1 (fin d.mmin))) ninf (logProbX q d.beta (fin d.mmin / m1) (fin 1))
  validated d.validate (d.support m1 q) (lpM1 + lpQ)

/-- `sample`, _models.py:101–111, from the two uniform draws. -/
def PowerlawPMR.sample (d : PowerlawPMR) (u1 u2 : ℝ) : XR × XR :=
  let m1 := icdfX u1 (-d.alpha) (fin d.mmin) (fin d.mmax)
  let q := icdfX u2 d.beta (fin d.mmin / m1) (fin 1)
  (m1, q)

/-- `Wysocki2019MassModel`, _models.py:114–191. -/
structure Wysocki where
  alphaM : ℝ
  mmin : ℝ
  mmax : ℝ
  validate : Bool

/-- `support`: `mass_sandwich(mmin, mmax)`.  Source: gwkokab/models/mass/_models.py lines 155–162. -/
def Wysocki.support (d : Wysocki) (m1 m2 : XR) : Bool := accepts (.massSandwich d.mmin d.mmax) [m1, m2]

/-- `jax.scipy.stats.uniform.logpdf(x, loc, scale)`.  Source: gwkokab/models/mass/_models.py line 171. -/
def uniformLogpdf (x loc scale : XR) : XR :=
  select (decide (lt (loc + scale) x) || decide (lt x loc)) ninf (-(log scale))

/-- `log_prob`, _models.py:169–180. -/
def Wysocki.logProb (d : Wysocki) (m1 m2 : XR) : XR :=
  let lpM1 := logProbX m1 (-d.alphaM) (fin d.mmin) (fin d.mmax)
  let lpM2 := uniformLogpdf m2 (fin d.mmin) (m1 - fin d.mmin)
  validated d.validate (d.support m1 m2) (lpM1 + lpM2)

/-- `sample`, _models.py:182–189; `jrd.uniform(minval, maxval)` is `u * (maxval - minval) + minval`. -/
def Wysocki.sample (d : Wysocki) (u1 u2 : ℝ) : XR × XR :=
  let m1 := icdfX u1 (-d.alphaM) (fin d.mmin) (fin d.mmax)
  (m1, fin u2 * (m1 - fin d.mmin) + fin d.mmin)

/-- `_broken_powerlaw_log_prob`, _bpls.py:21–54. -/
def brokenLogProb (m1 : XR) (alpha1 alpha2 mmin mmax mbreak : ℝ) : XR :=
  let logNorm := logaddexp (-(logProbX (fin mbreak) (-alpha1) (fin mmin) (fin mbreak))) (-(logProbX (fin mbreak) (-alpha2) (fin mbreak) (fin mmax)))
  let lp := select (decide (lt m1 (fin mbreak))) (fin alpha1) (fin alpha2) * log (fin mbreak / m1)
  lp - logNorm

/-- `BrokenPowerlaw`, _bpls.py:57–100. -/
structure Broken where
  alpha1 : ℝ
  alpha2 : ℝ
  mbreak : ℝ
  mmax : ℝ
  mmin : ℝ
  validate : Bool

/-- `support`: `interval(mmin, mmax)`.  Source: gwkokab/models/mass/_bpls.py line 85. -/
def Broken.support (d : Broken) (m : XR) : Bool := decide (le (fin d.mmin) m) && decide (le m (fin d.mmax))

/-- `log_prob`, _bpls.py:95–99. -/
def Broken.logProb (d : Broken) (m : XR) : XR :=
  validated d.validate (d.support m) (brokenLogProb m d.alpha1 d.alpha2 d.mmin d.mmax d.mbreak)

end

end GW.Mass
