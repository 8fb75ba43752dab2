import Verif.Model.Numeric
import Verif.Model.MassModels

/-!
# Spin distributions and truncated-normal mixtures (gwkokab/models/spin/_models.py, gwkokab/models/sundry/_models.py)

One batch element; parameters are finite floats, events arbitrary floats.  numpyro's `Uniform`, `Normal`, truncated normals, `Independent`, `CategoricalProbs`
and `MixtureGeneral`, and `jax.scipy.stats.truncnorm`, are transcribed from the libraries as far as `log_prob` is concerned; their samplers are not
modelled.
-/

namespace GW.Spin
open GW XR GW.Num GW.Mass

noncomputable section
open Classical

/-- The covariance matrix passed to `MultivariateNormal` by `GaussianSpinModel`, spin/_models.py:74–79; coordinates `(chi_eff, chi_p)`. -/
def gaussianCovariance (sigmaEff sigmaP rho : ℝ) : Matrix (Fin 2) (Fin 2) ℝ :=
  !![sigmaEff ^ 2, rho * sigmaEff * sigmaP; rho * sigmaEff * sigmaP, sigmaP ^ 2]

/-! ## numpyro components -/

/-- A one-dimensional distribution: `log_prob` and the check of its support.  Source: gwkokab/models/sundry/_models.py lines 240–258. -/
structure Dist1 where
  logProb : XR → XR
  support : XR → Bool

/-- `constraints.interval(low, high)`, closed at both ends.  Source: gwkokab/models/sundry/_models.py lines 267–270. -/
def interval (low high : ℝ) (x : XR) : Bool := decide (le (fin low) x) && decide (le x (fin high))

/-- `Uniform(low, high, validate_args)`.  Source: used at gwkokab/models/sundry/_models.py line 240. -/
def uniform (low high : ℝ) (validate : Bool) : Dist1 where
  logProb x := validated validate (interval low high x) (-(log (fin (high - low))))
  support := interval low high

/-- `Normal(loc, scale).log_prob`.  Source: inside numpyro's `TruncatedNormal`, used at gwkokab/models/sundry/_models.py line 249. -/
def normalLogProb (loc scale : ℝ) (x : XR) : XR :=
  let normalizeTerm := log (fin (Real.sqrt (2 * Real.pi)) * fin scale)
  let valueScaled := (x - fin loc) / fin scale
  fin (-1 / 2) * square valueScaled - normalizeTerm

/-- `Normal(loc, scale).cdf`.  Source: inside numpyro's `TruncatedNormal`, used at gwkokab/models/sundry/_models.py line 249. -/
def normalCdf (loc scale : ℝ) (x : ℝ) : XR := ndtr ((fin x - fin loc) / fin scale)

/-- The support check of `TruncatedNormal`: `interval`, `greater_than`, `less_than` or `real`.
Source: used at gwkokab/models/sundry/_models.py line 249. -/
def tnSupport (low high : Option ℝ) (x : XR) : Bool := match low, high with
  | some a, some b => interval a b x
  | some a, none => decide (lt (fin a) x)
  | none, some b => decide (lt x (fin b))
  | none, none => x.isFinite

/-- The term `log(mass)` subtracted by the truncated distributions of numpyro; `sign` picks the tail in which the difference is accurate.
Source: used at gwkokab/models/sundry/_models.py line 249. -/
def tnLogMass (loc scale : ℝ) (low high : Option ℝ) : XR := match low, high with
  | some a, some b =>
    let sign : ℝ := if a ≤ loc then 1 else -1
    log (fin sign * (normalCdf loc scale (loc - sign * (loc - b)) - normalCdf loc scale (loc - sign * (loc - a))))
  | some a, none =>
    let sign : ℝ := if a ≤ loc then 1 else -1
    log (fin sign * (fin (if a ≤ loc then 1 else 0) - normalCdf loc scale (loc - sign * (loc - a))))
  | none, some b => log (normalCdf loc scale b)
  | none, none => fin 0

/-- `TruncatedNormal(loc, scale, low=low, high=high, validate_args)`.  Source: used at gwkokab/models/sundry/_models.py line 249. -/
def truncatedNormal (loc scale : ℝ) (low high : Option ℝ) (validate : Bool) : Dist1 where
  logProb x := validated validate (tnSupport low high x) (normalLogProb loc scale x - tnLogMass loc scale low high)
  support := tnSupport low high

/-- An event distribution with what `MixtureGeneral` looks at.  Source: gwkokab/models/sundry/_models.py lines 259–275. -/
structure Comp (n : Nat) where
  logProb : (Fin n → XR) → XR
  support : (Fin n → XR) → Bool
  validate : Bool

/-- `Independent(d, 1)`: the sum of the log densities of the coordinates, all of them in their supports. -/
def independent {n : Nat} (d : Fin n → Dist1) (validate : Bool) : Comp n where
  logProb x := validated validate ((List.ofFn fun i => (d i).support (x i)).all id) (sum (List.ofFn fun i => (d i).logProb (x i)))
  support x := (List.ofFn fun i => (d i).support (x i)).all id
  validate := validate

/-- `MixtureGeneral.component_log_probs` for one component when a mixture support is given.
Source: used at gwkokab/models/sundry/_models.py line 259. -/
def masked {n : Nat} (c : Comp n) (x : Fin n → XR) : XR := if c.validate then c.logProb x else select (c.support x) (c.logProb x) ninf

/-- `log_softmax(logits)`.  Source: inside `CategoricalProbs`, used at gwkokab/models/sundry/_models.py line 259. -/
def logSoftmax (l : List XR) : List XR := l.map fun t => t - logsumexp l

/-- `MixtureGeneral(CategoricalProbs(stack((1 - zeta, zeta))), [c1, c2], support=any_constraint(...)).log_prob`; the clipping of
the log probabilities at the lowest float (a probability of exactly zero) is not modelled.
Source: gwkokab/models/sundry/_models.py lines 259–275. -/
def mixture {n : Nat} (zeta : ℝ) (c1 c2 : Comp n) (support : (Fin n → XR) → Bool) (validate : Bool) (x : Fin n → XR) : XR :=
  let logits := [log (fin (1 - zeta)), log (fin zeta)]
  let s := List.zipWith (· + ·) (logSoftmax logits) [masked c1 x, masked c2 x]
  validated validate (support x) (logsumexp (s.map fun t => if t.isNegInf then ninf else t))

/-- `TwoTruncatedNormalMixture`, sundry/_models.py:21–87. -/
def twoTruncatedNormalMixture (high1 : Option ℝ) (loc1 : ℝ) (low1 : Option ℝ) (scale1 : ℝ) (high2 : Option ℝ) (loc2 : ℝ) (low2 : Option ℝ) (scale2 zeta : ℝ)
    (validate : Bool) (x : XR) : XR :=
  let t1 := truncatedNormal loc1 scale1 low1 high1 validate
  let t2 := truncatedNormal loc2 scale2 low2 high2 validate
  let c (t : Dist1) : Comp 1 := ⟨fun x => t.logProb (x 0), fun x => t.support (x 0), validate⟩
  mixture zeta (c t1) (c t2) (fun x => t1.support (x 0) || t2.support (x 0)) validate fun _ => x

/-- `NDTwoTruncatedNormalMixture` with `batch_dim = 1`, sundry/_models.py:90–175. -/
def ndTwoTruncatedNormalMixture {n : Nat} (high1 loc1 low1 scale1 high2 loc2 low2 scale2 : Fin n → ℝ) (zeta : ℝ) (validate : Bool) (x : Fin n → XR) : XR :=
  mixture zeta (independent (fun i => truncatedNormal (loc1 i) (scale1 i) (some (low1 i)) (some (high1 i)) validate) validate)
    (independent (fun i => truncatedNormal (loc2 i) (scale2 i) (some (low2 i)) (some (high2 i)) validate) validate)
    (fun x => (List.ofFn fun i => interval (low1 i) (high1 i) (x i)).all id || (List.ofFn fun i => interval (low2 i) (high2 i) (x i)).all id) validate x

/-- `NDIsotropicAndTruncatedNormalMixture` with `batch_dim = 1` and both Gaussian bounds given, sundry/_models.py:178–275. -/
def ndIsotropicMixture {n : Nat} (zeta : ℝ) (loc scale isoLow isoHigh gaussLow gaussHigh : Fin n → ℝ) (validate : Bool) (x : Fin n → XR) : XR :=
  mixture zeta (independent (fun i => uniform (isoLow i) (isoHigh i) validate) validate)
    (independent (fun i => truncatedNormal (loc i) (scale i) (some (gaussLow i)) (some (gaussHigh i)) validate) validate)
    (fun x => (List.ofFn fun i => interval (isoLow i) (isoHigh i) (x i)).all id || (List.ofFn fun i => interval (gaussLow i) (gaussHigh i) (x i)).all id)
    validate x

/-- `IndependentSpinOrientationGaussianIsotropic`, spin/_models.py:84–126. -/
def independentSpinOrientation (zeta scale1 scale2 : ℝ) (validate : Bool) : (Fin 2 → XR) → XR :=
  ndIsotropicMixture zeta (fun _ => 1) ![scale1, scale2] (fun _ => -1) (fun _ => 1) (fun _ => -1) (fun _ => 1) validate

/-- `MinimumTiltModel`, spin/_models.py:159–199, with scalar parameters. -/
def minimumTilt (zeta loc scale minimum : ℝ) (validate : Bool) : (Fin 2 → XR) → XR :=
  ndIsotropicMixture zeta (fun _ => loc) (fun _ => scale) (fun _ => minimum) (fun _ => 1) (fun _ => minimum) (fun _ => 1) validate

/-- `MinimumTiltModelExtended`, spin/_models.py:202–249. -/
def minimumTiltExtended (zeta loc1 loc2 scale1 scale2 minimum1 minimum2 : ℝ) (validate : Bool) : (Fin 2 → XR) → XR :=
  ndIsotropicMixture zeta ![loc1, loc2] ![scale1, scale2] ![minimum1, minimum2] (fun _ => 1) ![minimum1, minimum2] (fun _ => 1) validate

/-! ## `jax.scipy.stats.truncnorm` and the skew normal -/

/-- `_log_diff(x, y)`: `logsumexp([x, y], b=[1, -1])`, idealised as `log(exp x - exp y)`.
Source: inside `jax.scipy.stats.truncnorm`, used at gwkokab/models/spin/_models.py lines 308–325. -/
def logDiff (x y : XR) : XR := log (exp x - exp y)

/-- `_log_gauss_mass(a, b)`.  Source: inside `jax.scipy.stats.truncnorm`, used at gwkokab/models/spin/_models.py lines 308–325. -/
def logGaussMass (a b : XR) : XR :=
  if le b (fin 0) then logDiff (logNdtr b) (logNdtr a)
  else if lt (fin 0) a then logDiff (logNdtr (-a)) (logNdtr (-b))
  else log1p (-(ndtr a) - ndtr (-b))

/-- `jax.scipy.stats.norm.logpdf`.  Source: inside `jax.scipy.stats.truncnorm`, used at gwkokab/models/spin/_models.py lines 308–325. -/
def normLogpdf (x loc scale : XR) : XR :=
  -((log (fin (2 * Real.pi) * square scale) + square (x - loc) / square scale) / fin 2)

/-- `truncnorm.logpdf(x, a, b, loc, scale)`.  Source: used at gwkokab/models/spin/_models.py line 325. -/
def truncnormLogpdfScipy (x a b loc scale : XR) : XR :=
  let val := normLogpdf x loc scale - logGaussMass a b
  let xs := (x - loc) / scale
  let val := select (decide (lt xs a) || decide (lt b xs)) ninf val
  select (decide (le b a)) nan val

/-- `truncnorm.logcdf(x, a, b, loc, scale)`; the last value is the default of `jnp.select`.  Source: used at gwkokab/models/spin/_models.py line 308. -/
def truncnormLogcdf (x a b loc scale : XR) : XR :=
  let x := (x - loc) / scale
  let logcdf := logGaussMass a x - logGaussMass a b
  let logsf := logGaussMass x b - logGaussMass a b
  let r := select (decide (le b x)) (fin 0) (select (decide (le x a)) ninf
    (select (decide (lt (fin (-1 / 10)) logcdf)) (log1p (-(exp logsf))) (select (decide (lt a x)) logcdf (fin 0))))
  select (decide (le b a)) nan r

/-- `truncnorm.sf`: `exp(logcdf(-x, -b, -a, -loc, scale))`.  Source: used at gwkokab/models/spin/_models.py line 314. -/
def truncnormSf (x a b loc scale : XR) : XR := exp (truncnormLogcdf (-x) (-b) (-a) (-loc) scale)

/-- `GWTC4EffectiveSpinSkewNormalModel.log_prob`, spin/_models.py:304–335. -/
def skewLogProb (loc scale epsilon : ℝ) (validate : Bool) (value : XR) : XR :=
  let loc := fin loc
  let scale1 := fin scale * (fin 1 + fin epsilon)
  let scale2 := fin scale * (fin 1 - fin epsilon)
  let normalization := (fin 1 + fin epsilon) * exp (truncnormLogcdf loc (-(fin 1 + loc) / scale1) ((fin 1 - loc) / scale1) loc scale1) +
    (fin 1 - fin epsilon) * truncnormSf loc (-(fin 1 + loc) / scale2) ((fin 1 - loc) / scale2) loc scale2
  let factor := fin 1 + select (decide (le value loc)) (fin 1) (fin (-1)) * fin epsilon
  let scale := fin scale * factor
  let unnorm := log factor + truncnormLogpdfScipy value (-(fin 1 + loc) / scale) ((fin 1 - loc) / scale) loc scale
  validated validate (interval (-1) 1 value) (unnorm - log normalization)

end

end GW.Spin
