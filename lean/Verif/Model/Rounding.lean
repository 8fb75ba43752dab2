import Verif.Model.Conversions
import Verif.Model.Constraints
import Verif.Model.PowerLaw
import Verif.Model.Numeric

/-!
# The same formulas in rounded arithmetic

`Model/XR.lean` computes with exact reals on finite values.  Here the formulas of the code are written once more with every operation followed by a
rounding to a binary floating-point format, as the hardware does it: `fl` is the rounding, `a + b` becomes `add fl a b`, and so on.

Simplifications: every operation, also `exp`, `log1p`, `sqrt` and `power`, returns the nearest representable number (XLA guarantees this for
`+`, `-`, `*`, `/` and `sqrt`; its elementary functions may be off by a few units in the last place); how ties are broken is left open (only symmetrically in the sign); subnormal
numbers are kept (not flushed to zero); zero has no sign; XLA does not fuse or reorder operations.
-/

namespace GW.Rounding
open GW XR

noncomputable section
open Classical

/-- A binary floating-point format: `p` significant bits, and the exponents of the last bit of the smallest and of the largest numbers.
Source: the `dtype` of every array; single precision unless JAX_ENABLE_X64 is set, e.g. gwkokab/utils/math.py lines 145–199 leave it to JAX. -/
structure Format where
  p : ℕ
  emin : ℤ
  emax : ℤ

/-- `float32`, the default of JAX.  Source: the arrays of gwkokab/utils/transformations.py lines 10–432 when 64-bit mode is off. -/
def single : Format := ⟨24, -149, 104⟩
/-- `float64`.  Source: the arrays of gwkokab/utils/transformations.py lines 10–432 when 64-bit mode is on. -/
def double : Format := ⟨53, -1074, 971⟩

/-- The finite numbers of the format: an integer of at most `p` bits times a power of two.
Source: the finite floats of the arrays of gwkokab/utils/transformations.py lines 10–432. -/
def Format.Mem (f : Format) (x : ℝ) : Prop :=
  ∃ n k : ℤ, |n| < 2 ^ f.p ∧ f.emin ≤ k ∧ k ≤ f.emax ∧ x = n * (2 : ℝ) ^ k

/-- From this magnitude on a result overflows to infinity: half a unit above the largest finite number (IEEE-754, round to nearest).
Source: the arithmetic of gwkokab/utils/transformations.py lines 10–432. -/
def Format.limit (f : Format) : ℝ := (2 ^ f.p - 1 / 2) * (2 : ℝ) ^ f.emax

/-- `fl` rounds to a nearest number of the format and overflows to the infinities; which of two equally near numbers is taken is left open,
except that the choice does not depend on the sign (as with ties to even).
Source: the arithmetic of gwkokab/utils/transformations.py lines 10–432. -/
structure Nearest (f : Format) (fl : ℝ → XR) : Prop where
  inside : ∀ x, |x| < f.limit → ∃ y, fl x = fin y ∧ f.Mem y ∧ ∀ z, f.Mem z → |x - y| ≤ |x - z|
  above : ∀ x, f.limit ≤ x → fl x = pinf
  below : ∀ x, x ≤ -f.limit → fl x = ninf
  odd : ∀ x, fl (-x) = -(fl x)

/-- The format has at least three bits and holds `1/4`, `1/2`, `1`, `2`, `3`, `4`, `7` exactly, like `single` and `double`.
Source: the literals of gwkokab/utils/transformations.py lines 10–432. -/
def Format.Usable (f : Format) : Prop := 3 ≤ f.p ∧ f.emin ≤ -2 ∧ 0 ≤ f.emax

/-- Rounding of a result; infinities and NaN stay.  Source: as above. -/
def rd (fl : ℝ → XR) : XR → XR
  | fin x => fl x
  | y => y

/-- Rounded `+`, `-`, `*`, `/`, e.g. gwkokab/utils/transformations.py lines 12–36. -/
def add (fl : ℝ → XR) (a b : XR) : XR := rd fl (a + b)
/-- Rounded `-`, e.g. gwkokab/utils/transformations.py line 103. -/
def sub (fl : ℝ → XR) (a b : XR) : XR := rd fl (a - b)
/-- Rounded `*`, e.g. gwkokab/utils/transformations.py line 15. -/
def mul (fl : ℝ → XR) (a b : XR) : XR := rd fl (a * b)
/-- Rounded `/`, e.g. gwkokab/utils/transformations.py line 36. -/
def div (fl : ℝ → XR) (a b : XR) : XR := rd fl (a / b)
/-- Rounded `jnp.power` for a finite exponent (NaN for an infinite one, which is not modelled), e.g. gwkokab/utils/transformations.py line 77. -/
def power (fl : ℝ → XR) (a b : XR) : XR :=
  match b with
  | fin e => rd fl (XR.pow a e)
  | _ => nan

/-! ## gwkokab/utils/transformations.py -/

/-- Lines 10–15. -/
def m1TimesM2 (fl : ℝ → XR) (m1 m2 : XR) : XR := mul fl m1 m2

/-- Lines 18–23. -/
def totalMass (fl : ℝ → XR) (m1 m2 : XR) : XR := add fl m1 m2

/-- Lines 26–36. -/
def massRatio (fl : ℝ → XR) (m1 m2 : XR) : XR :=
  let safeM1 := select (eqc m1 0) (fin 1) m1
  select (eqc m1 0) pinf (div fl m2 safeM1)

/-- Lines 66–77. -/
def symmetricMassRatio (fl : ℝ → XR) (m1 m2 : XR) : XR :=
  let M := totalMass fl m1 m2
  mul fl (m1TimesM2 fl m1 m2) (power fl M (fin (-2)))

/-- Lines 94–105. -/
def deltaM (fl : ℝ → XR) (m1 m2 : XR) : XR :=
  let diff := sub fl m1 m2
  let M := totalMass fl m1 m2
  select (eqc M 0) pinf (div fl diff M)

/-- Lines 122–133. -/
def etaToDeltaM (fl : ℝ → XR) (eta : XR) : XR := rd fl (sqrt (sub fl (fin 1) (mul fl eta (fin 4))))

/-- Lines 136–147. -/
def mDetZToMSource (fl : ℝ → XR) (mDet z : XR) : XR :=
  let safe := select (eqc z (-1)) (fin 1) (add fl (fin 1) z)
  select (eqc z (-1)) pinf (div fl mDet safe)

/-- Lines 150–159. -/
def mSourceZToMDet (fl : ℝ → XR) (mSource z : XR) : XR := mul fl mSource (add fl (fin 1) z)

/-- Lines 162–167. -/
def m1QToM2 (fl : ℝ → XR) (m1 q : XR) : XR := mul fl m1 q

/-- Lines 184–189. -/
def chiCostiltToChiz (fl : ℝ → XR) (chi costilt : XR) : XR := mul fl chi costilt

/-- Lines 192–211. -/
def chiMinus (fl : ℝ → XR) (m1 m2 chi1z chi2z : XR) : XR :=
  let M := totalMass fl m1 m2
  let diff := sub fl (mul fl m1 chi1z) (mul fl m2 chi2z)
  select (eqc M 0) pinf (div fl diff M)

/-- Lines 214–231. -/
def chiEff (fl : ℝ → XR) (m1 m2 chi1z chi2z : XR) : XR :=
  let M := totalMass fl m1 m2
  let dot := add fl (mul fl m1 chi1z) (mul fl m2 chi2z)
  select (eqc M 0) pinf (div fl dot M)

/-- Lines 294–318.  The literal `-0.6` is itself rounded. -/
def mcEtaToM1M2 (fl : ℝ → XR) (Mc eta : XR) : XR × XR :=
  let deltaSq := sub fl (fin 1) (mul fl (fin 4) eta)
  let deltaSq := XR.max deltaSq (fin 0)
  let delta := rd fl (sqrt deltaSq)
  let half := mul fl (mul fl (fin (1 / 2)) Mc) (power fl eta (fl (-(6 / 10))))
  let m2 := mul fl half (sub fl (fin 1) delta)
  let m1 := mul fl half (add fl (fin 1) delta)
  (m1, m2)

/-- Lines 400–405. -/
def sinTilt (fl : ℝ → XR) (costilt : XR) : XR := rd fl (sqrt (sub fl (fin 1) (mul fl costilt costilt)))

/-- Lines 408–432. -/
def chiP (fl : ℝ → XR) (a1 cosTilt1 a2 cosTilt2 q : XR) : XR :=
  XR.max (mul fl a1 (sinTilt fl cosTilt1))
    (mul fl (mul fl (mul fl (div fl (add fl (fin 3) (mul fl (fin 4) q)) (add fl (fin 4) (mul fl (fin 3) q))) q) a2) (sinTilt fl cosTilt2))

/-! ## The other formulas -/

/-- The support check of mass-ratio models: gwkokab/models/constraints.py lines 105–111. -/
def massRatioSandwich (fl : ℝ → XR) (mmin mmax : ℝ) (m1 q : XR) : Bool := Constraints.sandwichMask mmin mmax m1 (mul fl m1 q)

/-- `jax.nn.softplus(x) = logaddexp(x, 0)` with every step rounded: `max(x, 0) + log1p(exp(-|x - 0|))`.
Source: gwkokab/utils/kernel.py lines 36–37. -/
def softplus (fl : ℝ → XR) (x : XR) : XR :=
  let delta := sub fl x (fin 0)
  if delta.isNan then add fl x (fin 0)
  else add fl (XR.max x (fin 0)) (rd fl (log1p (rd fl (XR.exp (-(XR.abs delta))))))

/-- `log_planck_taper_window(x)`, gwkokab/utils/kernel.py lines 10–41. -/
def logPlanck (fl : ℝ → XR) (x : XR) : XR :=
  let inv1 := select (eqc x 0) (fin 0) (div fl (fin 1) (select (eqc x 0) (fin 1) x))
  let inv2 := select (eqc x 1) (fin 0) (div fl (fin 1) (select (eqc x 1) (fin 1) (sub fl x (fin 1))))
  let inside := -(softplus fl (add fl inv1 inv2))
  select (decide (le x (fin 0))) ninf (select (decide (lt x (fin 1))) inside (fin 0))

/-- `logsubexp(a, b)`, gwkokab/utils/math.py lines 124–142. -/
def logsubexp (fl : ℝ → XR) (a b : XR) : XR := add fl a (rd fl (log1p (-(rd fl (XR.exp (sub fl b a))))))

/-- `truncnorm_logpdf(xx, loc, scale, low, high)`, gwkokab/utils/math.py lines 145–199; `ndtr` and `log_ndtr` correctly rounded. -/
def truncnormLogpdf (fl : ℝ → XR) (xx : XR) (loc scale : ℝ) (low high : XR) : XR :=
  let safeScale : ℝ := if scale ≤ 0 then 1 else scale
  let zz := div fl (sub fl xx (fin loc)) (fin safeScale)
  let aa := div fl (sub fl low (fin loc)) (fin safeScale)
  let bb := div fl (sub fl high (fin loc)) (fin safeScale)
  let logPdf := sub fl (mul fl (fin (-1 / 2)) (add fl (mul fl zz zz) (fl (Real.log (2 * Real.pi))))) (rd fl (XR.log (fin safeScale)))
  let logNorm :=
    if le bb (fin 0) then logsubexp fl (rd fl (Num.logNdtr bb)) (rd fl (Num.logNdtr aa))
    else if lt (fin 0) aa then logsubexp fl (rd fl (Num.logNdtr (-aa))) (rd fl (Num.logNdtr (-bb)))
    else if lt (fin 0) bb then rd fl (log1p (sub fl (-(rd fl (Num.ndtr aa))) (rd fl (Num.ndtr (-bb)))))
    else nan
  let logPdf := sub fl logPdf logNorm
  select (decide (lt xx low) || decide (lt high xx) || decide (scale ≤ 0)) ninf logPdf

/-- `doubly_truncated_power_law_icdf`, gwkokab/models/utils/_doubletruncpowerlaw.py lines 217–241, which `sample` (lines 454–460) evaluates at
the uniform draw `q`. -/
def icdf (fl : ℝ → XR) (q alpha low high : ℝ) : XR :=
  let a := add fl (fin 1) (fin (PowerLaw.safeAlpha alpha))
  let lowPow := power fl (fin low) a
  let highPow := power fl (fin high) a
  select (PowerLaw.mask alpha)
    (power fl (add fl lowPow (mul fl (fin q) (sub fl highPow lowPow))) (div fl (fin 1) a))
    (mul fl (power fl (div fl (fin high) (fin low)) (fin q)) (fin low))

end

end GW.Rounding
