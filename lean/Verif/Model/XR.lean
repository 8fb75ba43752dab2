import Mathlib.Analysis.SpecialFunctions.Log.Basic
import Mathlib.Analysis.SpecialFunctions.Exp

/-!
# Idealised IEEE-754 numbers

`XR` is the number type used to model JAX float arrays (per element) wherever the gwkokab code branches on,
masks, or can produce infinities and NaN.  It follows the IEEE-754 / XLA rules for special values; on finite
values the arithmetic is exact real arithmetic.

Simplifications (stated in DESIGN.md): no rounding, no overflow or underflow, no signed zero
(so `1/0` is modelled as `+inf`, the value for a positive zero denominator).
-/

namespace GW

/-- A floating-point number: a finite real, `+inf`, `-inf` or NaN.
Source: the floats of every `jax.Array` of the code, e.g. the results of gwkokab/inference/poissonlikelihood_flowMC.py lines 72–121. -/
inductive XR where
  | fin (x : ℝ)
  | pinf
  | ninf
  | nan

namespace XR

noncomputable section
open Classical

/-- Literals `0`, `1` and real constants of the code, e.g. gwkokab/models/mass/_models.py lines 90–96. -/
instance : Zero XR := ⟨fin 0⟩
instance : One XR := ⟨fin 1⟩
instance : Coe ℝ XR := ⟨fin⟩

/-- IEEE addition.  Source: e.g. gwkokab/inference/poissonlikelihood_flowMC.py lines 100–121. -/
def add : XR → XR → XR
  | nan, _ => nan
  | _, nan => nan
  | fin a, fin b => fin (a + b)
  | fin _, pinf => pinf
  | fin _, ninf => ninf
  | pinf, fin _ => pinf
  | ninf, fin _ => ninf
  | pinf, pinf => pinf
  | ninf, ninf => ninf
  | pinf, ninf => nan
  | ninf, pinf => nan

/-- IEEE negation.  Source: e.g. gwkokab/models/redshift/_models.py line 40. -/
def neg : XR → XR
  | nan => nan
  | fin a => fin (-a)
  | pinf => ninf
  | ninf => pinf

/-- `±inf` times a finite number: by the sign of that number, NaN for zero.  Source: e.g. gwkokab/poisson_mean/_neural_vt.py lines 73–95. -/
def mulInf (a : ℝ) : XR := if 0 < a then pinf else if a < 0 then ninf else nan

/-- IEEE multiplication (`0 * inf = nan`).  Source: e.g. gwkokab/poisson_mean/_neural_vt.py lines 73–95. -/
def mul : XR → XR → XR
  | nan, _ => nan
  | _, nan => nan
  | fin a, fin b => fin (a * b)
  | fin a, pinf => mulInf a
  | fin a, ninf => neg (mulInf a)
  | pinf, fin b => mulInf b
  | ninf, fin b => neg (mulInf b)
  | pinf, pinf => pinf
  | ninf, ninf => pinf
  | pinf, ninf => ninf
  | ninf, pinf => ninf

/-- IEEE division with an unsigned (positive) zero.  Source: e.g. gwkokab/models/spin/_models.py line 154. -/
def div : XR → XR → XR
  | nan, _ => nan
  | _, nan => nan
  | fin a, fin b => if b = 0 then mulInf a else fin (a / b)
  | fin _, pinf => fin 0
  | fin _, ninf => fin 0
  | pinf, fin b => if 0 ≤ b then pinf else ninf
  | ninf, fin b => if 0 ≤ b then ninf else pinf
  | pinf, pinf => nan
  | ninf, ninf => nan
  | pinf, ninf => nan
  | ninf, pinf => nan

/-- The operators `+`, `-`, `*`, `/` on arrays, e.g. gwkokab/models/spin/_models.py line 154. -/
instance : Add XR := ⟨add⟩
instance : Neg XR := ⟨neg⟩
instance : Sub XR := ⟨fun a b => add a (neg b)⟩
instance : Mul XR := ⟨mul⟩
instance : Div XR := ⟨div⟩

/-- `jnp.exp`.  Source: e.g. gwkokab/poisson_mean/_neural_vt.py lines 73–89. -/
def exp : XR → XR
  | nan => nan
  | fin a => fin (Real.exp a)
  | pinf => pinf
  | ninf => fin 0

/-- `jnp.log`: NaN for negative input, `-inf` at zero.  Source: e.g. gwkokab/models/transformations.py line 281. -/
def log : XR → XR
  | nan => nan
  | fin a => if 0 < a then fin (Real.log a) else if a = 0 then ninf else nan
  | pinf => pinf
  | ninf => nan

/-- `jnp.log1p`.  Source: e.g. gwkokab/models/redshift/_models.py line 40. -/
def log1p (x : XR) : XR := log (fin 1 + x)

/-- `jnp.isneginf`.  Source: gwkokab/poisson_mean/_injection_based.py lines 81–113. -/
def isNegInf : XR → Bool
  | ninf => true
  | _ => false

/-- `jnp.isnan`.  Source: gwkokab/poisson_mean/_injection_based.py lines 81 and 106. -/
def isNan : XR → Bool
  | nan => true
  | _ => false

/-- `jnp.isfinite`.  Source: gwkokab/inference/poissonlikelihood_flowMC.py line 135. -/
def isFinite : XR → Bool
  | fin _ => true
  | _ => false

/-- IEEE `<` (false as soon as one side is NaN).  Source: e.g. gwkokab/utils/math.py line 196. -/
def lt : XR → XR → Prop
  | nan, _ => False
  | _, nan => False
  | fin a, fin b => a < b
  | fin _, pinf => True
  | fin _, ninf => False
  | pinf, _ => False
  | ninf, ninf => False
  | ninf, _ => True

/-- IEEE `<=` (false as soon as one side is NaN).  Source: e.g. gwkokab/utils/math.py line 196. -/
def le : XR → XR → Prop
  | nan, _ => False
  | _, nan => False
  | fin a, fin b => a ≤ b
  | fin _, pinf => True
  | fin _, ninf => False
  | pinf, pinf => True
  | pinf, _ => False
  | ninf, _ => True

/-- `jnp.maximum` / one step of `jnp.max`: NaN propagates.  Source: e.g. gwkokab/models/hybrids/_bp2pmultispinfull.py lines 469–480. -/
def max : XR → XR → XR
  | nan, _ => nan
  | _, nan => nan
  | fin a, fin b => fin (Max.max a b)
  | fin _, pinf => pinf
  | fin a, ninf => fin a
  | pinf, _ => pinf
  | ninf, y => y

/-- `jnp.sum` over a one-dimensional array.  Source: e.g. gwkokab/poisson_mean/_neural_vt.py lines 76 and 95. -/
def sum (xs : List XR) : XR := xs.foldr (· + ·) 0

/-- `jnp.nan_to_num(x, nan=…, posinf=…, neginf=…)`.  Source: gwkokab/inference/poissonlikelihood_flowMC.py lines 114–119. -/
def nanToNum (n p m : XR) : XR → XR
  | nan => n
  | pinf => p
  | ninf => m
  | fin a => fin a

/-- `jax.nn.logsumexp(a, where=w)` along one axis (jax/_src/ops/special.py): masked maximum with
initial value `-inf`, replaced by 0 when it is not finite, then `log(sum(exp(a - amax), where=w)) + amax`.
The array and its mask are given as a list of pairs `(a_i, w_i)`.  Source: gwkokab/poisson_mean/_injection_based.py lines 85–113. -/
def logsumexpWhere (aw : List (XR × Bool)) : XR :=
  let kept := (aw.filter (·.2)).map (·.1)
  let amax := kept.foldr max ninf
  let amax := if amax.isFinite then amax else fin 0
  log (sum (kept.map fun a => exp (a - amax))) + amax

/-- `jax.nn.logsumexp(a)` without a mask.  Source: e.g. gwkokab/poisson_mean/_neural_vt.py lines 74–93. -/
def logsumexp (a : List XR) : XR := logsumexpWhere (a.map fun x => (x, true))

end
end XR
end GW
