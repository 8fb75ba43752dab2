import Verif.Model.XRMath

/-!
# Beta distribution parameters (gwkokab/utils/math.py, gwkokab/models/spin/_models.py, gwkanal/utils/checks.py)

Per array element; inputs are finite floats.
-/

namespace GW.Beta
open GW XR

noncomputable section
open Classical

/-- `beta_dist_concentrations_to_mean_variance(alpha, beta, loc, scale)`, utils/math.py:17–59. -/
def toMeanVar (alpha beta loc scale : ℝ) : XR × XR :=
  let s := fin alpha + fin beta
  let p := fin alpha * fin beta
  let mean := fin alpha / s
  let variance := s + fin 1
  let variance := square s * variance
  let variance := p / variance
  (fin loc + fin scale * mean, pow (fin scale) 2 * variance)

/-- `beta_dist_mean_variance_to_concentrations(mean, variance, loc, scale)`, utils/math.py:62–100. -/
def toConc (mean variance loc scale : ℝ) : XR × XR :=
  let low := fin loc
  let high := fin loc + fin scale
  let ml := fin mean - low
  let mh := fin mean - high
  let shared := (ml * mh + fin variance) / (fin scale * fin variance)
  (-ml * shared, mh * shared)

/-- The concentrations of `BetaFromMeanVar(mean, variance)`, spin/_models.py:129–156. -/
def fromMeanVar (mean variance : ℝ) : XR × XR :=
  let m := fin mean
  let v := fin variance
  ((square m * (fin 1 - m) - m * v) / v, (m * square (fin 1 - m) - (fin 1 - m) * v) / v)

/-- `check_min_concentration_for_beta_dist(loc, var, alpha_min=, beta_min=)`, gwkanal/utils/checks.py:11–53. -/
def check (loc var alphaMin betaMin : ℝ) : Bool :=
  let l := fin loc
  let v := fin var
  let a := decide (lt (v * (fin alphaMin + l)) (square l * (fin 1 - l)))
  let b := decide (lt (v * (fin betaMin + fin 1 - l)) (l * square (fin 1 - l)))
  a && b

end

end GW.Beta
