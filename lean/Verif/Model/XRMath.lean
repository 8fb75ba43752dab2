import Verif.Model.XR
import Mathlib.Analysis.SpecialFunctions.Pow.Real
import Mathlib.Analysis.SpecialFunctions.Sqrt
import Mathlib.Analysis.SpecialFunctions.Trigonometric.Inverse
import Mathlib.Analysis.SpecialFunctions.Complex.Arg

/-!
# More elementary functions on idealised floats

The `jnp` functions used by the conversions and the mass models, on `XR` (see `Model/XR.lean` for the conventions).
-/

namespace GW
namespace XR

noncomputable section
open Classical

/-- `jnp.power(x, p)` for a finite exponent: a negative base needs an integer exponent; `0 ** negative = inf`.
Source: e.g. gwkokab/models/redshift/_models.py lines 229–230. -/
def pow (x : XR) (p : ℝ) : XR :=
  match x with
  | nan => if p = 0 then fin 1 else nan
  | fin a =>
    if 0 < a then fin (a ^ p)
    else if a = 0 then (if 0 < p then fin 0 else if p = 0 then fin 1 else pinf)
    else if ∃ k : ℤ, p = k then fin (a ^ p) else nan
  | pinf => if 0 < p then pinf else if p = 0 then fin 1 else fin 0
  | ninf => if p = 0 then fin 1 else if p < 0 then fin 0 else if ∃ k : ℤ, p = 2 * k then pinf
      else if ∃ k : ℤ, p = 2 * k + 1 then ninf else pinf

/-- `jnp.sqrt`.  Source: e.g. gwkokab/models/transformations.py line 359. -/
def sqrt : XR → XR
  | nan => nan
  | fin a => if 0 ≤ a then fin (Real.sqrt a) else nan
  | pinf => pinf
  | ninf => nan

/-- `jnp.abs`.  Source: e.g. gwkokab/models/transformations.py line 281. -/
def abs : XR → XR
  | nan => nan
  | fin a => fin |a|
  | pinf => pinf
  | ninf => pinf

/-- `jnp.minimum`: NaN propagates.  Source: e.g. gwkanal/core/population.py line 178. -/
def min (x y : XR) : XR := -(max (-x) (-y))

/-- `jnp.square`.  Source: e.g. gwkokab/models/transformations.py line 354. -/
def square (x : XR) : XR := x * x

/-- `x == a` for a float `x` and a literal `a`.  Source: e.g. gwkokab/models/utils/_doubletruncpowerlaw.py line 16. -/
def eqc (x : XR) (a : ℝ) : Bool := match x with
  | fin b => decide (b = a)
  | _ => false

/-- `jnp.where(c, a, b)`.  Source: e.g. gwkokab/models/mass/_models.py lines 90 and 320. -/
def select (c : Bool) (a b : XR) : XR := if c then a else b

/-- `jnp.logaddexp`: `max + log1p(exp(-|a - b|))`, and `a + b` when the difference is NaN.  Source: e.g. gwkokab/models/mass/_bpls.py line 43. -/
def logaddexp (a b : XR) : XR :=
  let delta := a - b
  if delta.isNan then a + b else XR.max a b + log1p (exp (-(abs delta)))

/-- `jax.nn.softplus(x) = logaddexp(x, 0)`. -/
def softplus (x : XR) : XR := logaddexp x (fin 0)

/-- `jnp.cos`, `jnp.sin`: NaN at infinities.  Source: e.g. gwkokab/utils/transformations.py lines 345–346. -/
def cos : XR → XR
  | fin a => fin (Real.cos a)
  | _ => nan
/-- `jnp.sin`: NaN at infinities, e.g. gwkokab/utils/transformations.py line 346. -/
def sin : XR → XR
  | fin a => fin (Real.sin a)
  | _ => nan

/-- `jnp.arccos`: NaN outside `[-1, 1]`. -/
def arccos : XR → XR
  | fin a => if -1 ≤ a ∧ a ≤ 1 then fin (Real.arccos a) else nan
  | _ => nan

/-- `jnp.arctan2(y, x)` for finite arguments: the argument of `x + i y`, with `arctan2(0, 0) = 0`.  Infinite arguments are not modelled
(NaN here). -/
def arctan2 : XR → XR → XR
  | fin y, fin x => fin (Complex.arg ⟨x, y⟩)
  | _, _ => nan

end

end XR
end GW
