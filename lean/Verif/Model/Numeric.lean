import Verif.Model.XRMath
import Mathlib.Probability.Distributions.Gaussian.Real

/-!
# Numerical helpers (gwkokab/utils/math.py, gwkokab/utils/kernel.py and the jnp / quadax functions they use)

One-dimensional arrays are lists of floats.
-/

namespace GW.Num
open GW XR

noncomputable section
open Classical

/-- `log_planck_taper_window(x)`, utils/kernel.py:10–41. -/
def logPlanck (x : XR) : XR :=
  let inv1 := select (eqc x 0) (fin 0) (fin 1 / select (eqc x 0) (fin 1) x)
  let inv2 := select (eqc x 1) (fin 0) (fin 1 / select (eqc x 1) (fin 1) (x - fin 1))
  let inside := -(softplus (inv1 + inv2))
  select (decide (le x (fin 0))) ninf (select (decide (lt x (fin 1))) inside (fin 0))

/-- `logsubexp(a, b)`, utils/math.py:124–142. -/
def logsubexp (a b : XR) : XR := a + log1p (-(exp (b - a)))

/-- The standard normal distribution function on floats (`jax.scipy.special.ndtr`): the standard Gaussian mass below `x`.
Source: gwkokab/utils/math.py line 191, gwkokab/models/mass/_models.py lines 280–281. -/
def ndtr : XR → XR
  | nan => nan
  | fin x => fin ((ProbabilityTheory.gaussianReal 0 1).real (Set.Iic x))
  | pinf => fin 1
  | ninf => fin 0

/-- `jax.scipy.special.log_ndtr`, idealised as the exact logarithm of `ndtr`.  Source: gwkokab/utils/math.py lines 189–190. -/
def logNdtr (x : XR) : XR := log (ndtr x)

/-- `truncnorm_logpdf(xx, loc, scale, low, high)`, utils/math.py:145–199. -/
def truncnormLogpdf (xx : XR) (loc scale : ℝ) (low high : XR) : XR :=
  let safeScale : ℝ := if scale ≤ 0 then 1 else scale
  let zz := (xx - fin loc) / fin safeScale
  let aa := (low - fin loc) / fin safeScale
  let bb := (high - fin loc) / fin safeScale
  let logPdf := fin (-1 / 2) * (square zz + fin (Real.log (2 * Real.pi))) - log (fin safeScale)
  let logNorm :=
    if le bb (fin 0) then logsubexp (logNdtr bb) (logNdtr aa)
    else if lt (fin 0) aa then logsubexp (logNdtr (-aa)) (logNdtr (-bb))
    else if lt (fin 0) bb then log1p (-(ndtr aa) - ndtr (-bb))
    else nan
  let logPdf := logPdf - logNorm
  select (decide (lt xx low) || decide (lt high xx) || decide (scale ≤ 0)) ninf logPdf

/-- `jax.scipy.stats.norm.pdf(x, loc, scale)`: `exp` of `-(log(2 pi scale^2) + (x - loc)^2 / scale^2) / 2`.
Source: gwkokab/models/mass/_models.py lines 303–320. -/
def normPdf (x : XR) (loc scale : ℝ) : XR :=
  let v := square (fin scale)
  exp (-((log (fin (2 * Real.pi) * v) + square (x - fin loc) / v) / fin 2))

/-- The summands `(x[i+1] - x[i]) * (y[i+1] + y[i])` of the trapezoid rule.  Source: gwkokab/models/mass/_models.py lines 266–276. -/
def trapTerms : List XR → List XR → List XR
  | y0 :: y1 :: ys, x0 :: x1 :: xs => (x1 - x0) * (y1 + y0) :: trapTerms (y1 :: ys) (x1 :: xs)
  | _, _ => []

/-- `jnp.trapezoid(y, x)`: `0.5 * (dx * (y[1:] + y[:-1])).sum()`.  Source: gwkokab/models/mass/_models.py lines 266 and 296. -/
def trapezoid (y x : List XR) : XR := fin (1 / 2) * sum (trapTerms y x)

/-- Running sums, `jnp.cumsum`.  Source: inside `quadax.cumulative_trapezoid`, used at gwkokab/cosmology/_cosmology.py lines 63–68. -/
def cumsumFrom (acc : XR) : List XR → List XR
  | [] => []
  | x :: xs => (acc + x) :: cumsumFrom (acc + x) xs

/-- `quadax.cumulative_trapezoid(y, x=x, initial=0.0)` in one dimension: `concatenate([0], cumsum(d * (y[1:] + y[:-1]) / 2))`; this is also `cumtrapz(y, x[:, None])`
of utils/math.py:103–121 for one-dimensional `y`. -/
def cumTrapezoid (y x : List XR) : List XR := fin 0 :: cumsumFrom (fin 0) ((trapTerms y x).map fun t => t / fin 2)

/-- `jnp.linspace(start, stop, n)` for `n ≥ 2`: `start * (1 - t) + stop * t` with `t = i / (n - 1)`, the last entry being `stop` itself.
Source: gwkokab/models/mass/_models.py lines 290–291. -/
def linspace (start stop : ℝ) (n : ℕ) : List XR :=
  (List.range n).map fun i => if i + 1 = n then fin stop else fin (start * (1 - i / (n - 1 : ℕ)) + stop * (i / (n - 1 : ℕ)))

/-- `jnp.searchsorted(a, x, side="right")` for a sorted array: the number of entries `≤ x`.
Source: inside `jnp.interp`, used at gwkokab/models/mass/_models.py line 336. -/
def searchRight (a : List XR) (x : XR) : ℕ := a.countP fun t => decide (le t x)

/-- `jnp.interp(x, xp, fp, left, right)` (jax/_src/numpy/lax_numpy.py): the index is `clip(searchsorted(xp, x, "right"), 1, len(xp) - 1)`; equal neighbouring
abscissae give `fp[i-1]` (the code uses a tolerance of one unit in the last place of epsilon; exact equality here); outside the grid `left` / `right`. -/
def interp (x : XR) (xp fp : List XR) (left right : XR) : XR :=
  let n := xp.length
  let i := Nat.min (Nat.max (searchRight xp x) 1) (n - 1)
  let df := fp.getD i nan - fp.getD (i - 1) nan
  let dx := xp.getD i nan - xp.getD (i - 1) nan
  let delta := x - xp.getD (i - 1) nan
  let dx0 := eqc dx 0
  let f := select dx0 (fp.getD (i - 1) nan) (fp.getD (i - 1) nan + delta / select dx0 (fin 1) dx * df)
  let f := select (decide (lt x (xp.getD 0 nan))) left f
  select (decide (lt (xp.getD (n - 1) nan) x)) right f

/-- `jnp.interp(x, xp, fp)` with the default ends `fp[0]`, `fp[-1]`.  Source: gwkokab/cosmology/_cosmology.py lines 103–111. -/
def interpDefault (x : XR) (xp fp : List XR) : XR := interp x xp fp (fp.getD 0 nan) (fp.getD (fp.length - 1) nan)

/-! ## `cumtrapz` in several dimensions -/

/-- One pass `cumulative_trapezoid(y, x=x[..., k], axis=k, initial=0.0)` on a `D`-dimensional array, as a function of the multi-index; finite entries.
Source: gwkokab/utils/math.py line 120. -/
def cumAxis {D : ℕ} (k : Fin D) (x y : (Fin D → ℕ) → ℝ) (idx : Fin D → ℕ) : ℝ :=
  ((List.range (idx k)).map fun j =>
    (x (Function.update idx k (j + 1)) - x (Function.update idx k j)) * (y (Function.update idx k (j + 1)) + y (Function.update idx k j)) / 2).sum

/-- `cumtrapz(y, x)`, utils/math.py:103–121: the passes for `index = 0, …, D - 1` in order; `x idx k` is `x[idx][k]`. -/
def cumtrapz {D : ℕ} (y : (Fin D → ℕ) → ℝ) (x : (Fin D → ℕ) → Fin D → ℝ) : (Fin D → ℕ) → ℝ :=
  (List.finRange D).foldl (fun acc k => cumAxis k (fun i => x i k) acc) y

end

end GW.Num
