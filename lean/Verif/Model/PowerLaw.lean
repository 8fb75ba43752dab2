import Verif.Model.XRMath

/-!
# The doubly truncated power law (gwkokab/models/utils/_doubletruncpowerlaw.py)

Per array element.  The parameters `alpha`, `low`, `high` are finite floats (reals here); evaluation points are arbitrary floats (`XR`) in the density
and the cdf, and finite in the derivative rules.  `jnp.where` evaluates both branches; only the selected value matters here.
-/

namespace GW.PowerLaw
open GW XR

noncomputable section
open Classical

/-- `neq_neg1_alpha` (lines 17, 45, 105, 137, 221, 257): `alpha`, replaced by `0` when it equals `-1`. -/
def safeAlpha (alpha : ℝ) : ℝ := if alpha ≠ -1 then alpha else 0

/-- `neq_neg1_mask`.  Source: gwkokab/models/utils/_doubletruncpowerlaw.py lines 16–17. -/
def mask (alpha : ℝ) : Bool := decide (alpha ≠ -1)

/-- `doubly_truncated_power_law_log_norm_constant`, lines 14–30, for float bounds. -/
def logNormX (alpha : ℝ) (low high : XR) : XR :=
  let a := 1 + safeAlpha alpha
  select (mask alpha) (log ((pow high a - pow low a) / fin a)) (log (log high - log low))

/-- The same for finite bounds.  Source: gwkokab/models/utils/_doubletruncpowerlaw.py lines 15–29. -/
def logNorm (alpha low high : ℝ) : XR := logNormX alpha (fin low) (fin high)

/-- `doubly_truncated_power_law_log_prob`, lines 95–98. -/
def logProbX (x : XR) (alpha : ℝ) (low high : XR) : XR := fin alpha * log x - logNormX alpha low high

/-- The same for finite bounds.  Source: gwkokab/models/utils/_doubletruncpowerlaw.py lines 95–99. -/
def logProbFn (x : XR) (alpha low high : ℝ) : XR := logProbX x alpha (fin low) (fin high)

/-- `jnp.clip(x, 0.0, 1.0)`. -/
def clip01 (x : XR) : XR := XR.min (XR.max x (fin 0)) (fin 1)

/-- `doubly_truncated_power_law_cdf`, lines 101–122. -/
def cdf (x : XR) (alpha low high : ℝ) : XR :=
  let a := 1 + safeAlpha alpha
  let lowPow := pow (fin low) a
  clip01 (select (mask alpha) ((pow x a - lowPow) / (pow (fin high) a - lowPow))
    (log (x / fin low) / log (fin high / fin low)))

/-- `doubly_truncated_power_law_icdf`, lines 217–241, for float bounds. -/
def icdfX (q alpha : ℝ) (low high : XR) : XR :=
  let a := 1 + safeAlpha alpha
  let lowPow := pow low a
  let highPow := pow high a
  select (mask alpha) (pow (lowPow + fin q * (highPow - lowPow)) (1 / a)) (pow (high / low) q * low)

/-- The same for finite bounds.  Source: gwkokab/models/utils/_doubletruncpowerlaw.py lines 218–241. -/
def icdf (q : ℝ) (alpha low high : ℝ) : XR := icdfX q alpha (fin low) (fin high)

/-- The class `DoublyTruncatedPowerLaw`, lines 352–460: `log_prob` behind `@validate_sample` (numpyro: with `validate_args` the values outside
`interval(low, high)` get `-inf`). -/
structure Dist where
  alpha : ℝ
  low : ℝ
  high : ℝ
  validate : Bool

/-- `support`: `interval(low, high)`, lines 391, 399–401. -/
def Dist.support (d : Dist) (x : XR) : Bool := decide (le (fin d.low) x) && decide (le x (fin d.high))

/-- `log_prob`, lines 403–418. -/
def Dist.logProb (d : Dist) (x : XR) : XR :=
  let lp := logProbFn x d.alpha d.low d.high
  if d.validate then select (d.support x) lp ninf else lp

/-- `sample`, lines 454–460: the inverse cdf at the uniform draw `u`. -/
def Dist.sample (d : Dist) (u : ℝ) : XR := icdf u d.alpha d.low d.high

/-! ## Hand-written derivative rules -/

/-- `jnp.reciprocal`.  Source: gwkokab/models/utils/_doubletruncpowerlaw.py lines 53 and 230. -/
def recip (x : XR) : XR := fin 1 / x

/-- `alpha_tangent_variable` of the log-norm rule, lines 49–55. -/
def lnAlpha (low high alpha : ℝ) : XR :=
  let a := 1 + alpha
  let lowPow := pow (fin low) a
  let highPow := pow (fin high) a
  let r := -(recip (fin a))
  r + (highPow * log (fin high) - lowPow * log (fin low)) / (highPow - lowPow)

/-- `doubly_truncated_power_law_log_norm_constant_jvp` (the tangent), lines 33–92; `delta_eq_neg1 = 1e-5`. -/
def logNormJvp (alpha low high alphaT lowT highT : ℝ) : XR :=
  let delta : ℝ := 1 / 100000
  let na := safeAlpha alpha
  let alphaTangent := select (mask alpha) (lnAlpha low high na) ((lnAlpha low high (alpha - delta) + lnAlpha low high (alpha + delta)) * fin (1 / 2))
  let a := 1 + na
  let change := pow (fin high) a - pow (fin low) a
  let lowNeq := fin (-a) * pow (fin low) na / change
  let highNeq := fin a * pow (fin high) na / change
  let changeEq := log (fin high) - log (fin low)
  let lowEq := -(recip (fin low * changeEq))
  let highEq := recip (fin high * changeEq)
  let lowTangent := select (mask alpha) lowNeq lowEq
  let highTangent := select (mask alpha) highNeq highEq
  alphaTangent * fin alphaT + lowTangent * fin lowT + highTangent * fin highT

/-- `x_neq_neg1` of the cdf rule, lines 143–147. -/
def cX (x low high alpha : ℝ) : XR :=
  let a := 1 + alpha
  fin a * pow (fin x) alpha / (pow (fin high) a - pow (fin low) a)

/-- `alpha_neq_neg1` of the cdf rule, lines 149–161. -/
def cAlpha (x low high alpha : ℝ) : XR :=
  let a := 1 + alpha
  let lowPow := pow (fin low) a
  let highPow := pow (fin high) a
  let xPow := pow (fin x) a
  let term1 := (xPow * log (fin x) - lowPow * log (fin low)) / (highPow - lowPow)
  let term2 := ((xPow - lowPow) * (highPow * log (fin high) - lowPow * log (fin low))) / square (highPow - lowPow)
  term1 - term2

/-- `low_neq_neg1` of the cdf rule, lines 163–171. -/
def cLow (x low high alpha : ℝ) : XR :=
  let a := 1 + alpha
  let lowPow := pow (fin low) a
  let highPow := pow (fin high) a
  let xPow := pow (fin x) a
  let change := highPow - lowPow
  let term2 := fin a * pow (fin low) alpha / change
  let term1 := term2 * (xPow - lowPow) / change
  term1 - term2

/-- `high_neq_neg1` of the cdf rule, lines 173–182. -/
def cHigh (x low high alpha : ℝ) : XR :=
  let a := 1 + alpha
  let lowPow := pow (fin low) a
  let highPow := pow (fin high) a
  let xPow := pow (fin x) a
  let num := -(fin a * pow (fin high) alpha * (xPow - lowPow))
  num / square (highPow - lowPow)

/-- `x_eq_neg1`, lines 185–186. -/
def cXEq (x low high : ℝ) : XR := recip (fin x * (log (fin high) - log (fin low)))

/-- `low_eq_neg1`, lines 188–191. -/
def cLowEq (x low high : ℝ) : XR :=
  let L := log (fin high) - log (fin low)
  (log (fin x) - log (fin low)) / (square L * fin low) - recip (L * fin low)

/-- `high_eq_neg1`, lines 193–194. -/
def cHighEq (x low high : ℝ) : XR :=
  let L := log (fin high) - log (fin low)
  (log (fin x) - log (fin low)) / (square L * fin high)

/-- `doubly_truncated_power_law_cdf_jvp` (the tangent), lines 125–214; `delta_eq_neg1 = 10e-4`. -/
def cdfJvp (x alpha low high xT alphaT lowT highT : ℝ) : XR :=
  let delta : ℝ := 1 / 1000
  let na := safeAlpha alpha
  select (mask alpha) (cX x low high na) (cXEq x low high) * fin xT
    + select (mask alpha) (cAlpha x low high na) ((cAlpha x low high (alpha - delta) + cAlpha x low high (alpha + delta)) * fin (1 / 2)) * fin alphaT
    + select (mask alpha) (cLow x low high na) (cLowEq x low high) * fin lowT
    + select (mask alpha) (cHigh x low high na) (cHighEq x low high) * fin highT

/-- `x_neq_neg1` of the icdf rule, lines 261–272. -/
def iX (x low high alpha : ℝ) : XR :=
  let a := 1 + alpha
  let lowPow := pow (fin low) a
  let highPow := pow (fin high) a
  let change := highPow - lowPow
  change * pow (lowPow + fin x * change) (1 / a - 1) / fin a

/-- `alpha_neq_neg1` of the icdf rule, lines 274–288. -/
def iAlpha (x low high alpha : ℝ) : XR :=
  let a := 1 + alpha
  let lowPow := pow (fin low) a
  let highPow := pow (fin high) a
  let factor0 := lowPow + fin x * (highPow - lowPow)
  let term1 := pow factor0 (1 / a)
  let term2 := (lowPow * log (fin low) + fin x * (highPow * log (fin high) - lowPow * log (fin low))) / (fin a * factor0)
  let term3 := log factor0 / square (fin a)
  term1 * (term2 - term3)

/-- `low_neq_neg1` of the icdf rule, lines 290–302. -/
def iLow (x low high alpha : ℝ) : XR :=
  let a := 1 + alpha
  let lowPow := pow (fin low) a
  let highPow := pow (fin high) a
  (fin 1 - fin x) * pow (fin low) alpha * pow (lowPow + fin x * (highPow - lowPow)) (1 / a - 1)

/-- `high_neq_neg1` of the icdf rule, lines 304–316. -/
def iHigh (x low high alpha : ℝ) : XR :=
  let a := 1 + alpha
  let lowPow := pow (fin low) a
  let highPow := pow (fin high) a
  fin x * pow (fin high) alpha * pow (lowPow + fin x * (highPow - lowPow)) (1 / a - 1)

/-- `dx_eq_neg1`, lines 319–320. -/
def iXEq (x low high : ℝ) : XR := fin low * pow (fin high / fin low) x * (log (fin high) - log (fin low))

/-- `low_eq_neg1`, lines 322–326. -/
def iLowEq (x low high : ℝ) : XR :=
  let r := fin high / fin low
  pow r x - (fin high * fin x * pow r (x - 1)) / fin low

/-- `high_eq_neg1`, lines 328–329. -/
def iHighEq (x low high : ℝ) : XR := fin x * pow (fin high / fin low) (x - 1)

/-- `doubly_truncated_power_law_icdf_jvp` (the tangent), lines 244–349; `delta_eq_neg1 = 10e-4`. -/
def icdfJvp (x alpha low high xT alphaT lowT highT : ℝ) : XR :=
  let delta : ℝ := 1 / 1000
  let na := safeAlpha alpha
  select (mask alpha) (iX x low high na) (iXEq x low high) * fin xT
    + select (mask alpha) (iAlpha x low high na) ((iAlpha x low high (alpha - delta) + iAlpha x low high (alpha + delta)) * fin (1 / 2)) * fin alphaT
    + select (mask alpha) (iLow x low high na) (iLowEq x low high) * fin lowT
    + select (mask alpha) (iHigh x low high na) (iHighEq x low high) * fin highT

end

end GW.PowerLaw
