import Verif.Model.XRMath
import Mathlib.MeasureTheory.Integral.IntervalIntegral.Basic
import Mathlib.Analysis.SpecialFunctions.Complex.Log
import Mathlib.Analysis.SpecialFunctions.Trigonometric.Arctan

/-!
# Joint prior of the effective and the precessing spin (gwkokab/poisson_mean/_analytic_spin_prior.py)

`prior_chieff_chip_isotropic`, lines 248–256, with `I1`–`I4`, `F`, `G`, `g` (lines 25–141), for scalars.  `Li2` (lines 239–245) is
`scipy.special.spence(1 - z)` (the module imports NumPy, so the JAX branch `jaxspence` of lines 144–236 is never taken), idealised as the exact
dilogarithm of a complex number.
-/

namespace GW.SpinPriorJoint
open GW XR MeasureTheory

noncomputable section
open Classical

/-- `Li2(z)`, lines 239–245: the dilogarithm `-∫₀¹ log(1 - t z) / t dt`, principal branch. -/
def li2C (z : ℂ) : ℂ := -∫ t in (0 : ℝ)..1, Complex.log (1 - t * z) / t

/-- `g(x, alpha, beta)`, lines 123–141, for finite arguments.  `np.nan_to_num` is the identity: `g_regular` (Lemmas/SpinPriorJoint) shows that the
selected branch never divides by zero or takes the logarithm of zero. -/
def g (x alpha beta : ℝ) : ℂ :=
  let x' : ℝ := if x = 0 ∧ beta = 0 then 0.01 else x
  let w : ℂ := alpha + Complex.I - beta * Complex.I
  if x = 0 ∧ beta = 0 then 0
  else if |beta| < 1 then
    Complex.log (x' - beta * Complex.I) * Complex.log ((alpha - x' + Complex.I) / w) + li2C ((x' - beta * Complex.I) / w)
  else if beta = 1 ∧ alpha ≤ 0 then
    0.5 * Complex.log (x' - alpha - Complex.I) ^ 2 + li2C (-alpha / (x' - alpha - Complex.I))
  else Complex.log w * Complex.log (alpha - x' + Complex.I) - li2C ((alpha - x' + Complex.I) / w)

/-- `G(x, alpha, beta)`, lines 110–120. -/
def G (x alpha beta : ℝ) : ℝ :=
  let pre : ℝ := if 0 ≤ x then 1 else -1
  let alpha' := if 0 ≤ x then alpha else -alpha
  let x' := if 0 ≤ x then x else -x
  pre * (g x' alpha' beta + g x' alpha' (-beta) + -g 0 alpha' beta + -g 0 alpha' (-beta)).im

/-- `F(x, a, b, c, d)`, lines 104–107, on finite arguments with `b, d ≠ 0`. -/
def FReal (x a b c d : ℝ) : ℝ :=
  G (x / b) (a / b) (c / b) + Real.log (b ^ 2 / d ^ 2) * (Real.arctan ((x - a) / b) + Real.arctan (a / b))

/-- `F(x, a, b, c, d)`, lines 104–107.  Whenever an argument is not finite or a divisor is zero the caller's `np.where` discards the value, which is
NaN here. -/
def F : XR → XR → XR → XR → XR → XR
  | fin x, fin a, fin b, fin c, fin d => if b = 0 ∨ d = 0 then nan else fin (FReal x a b c d)
  | _, _, _, _, _ => nan

/-- `(4 + 3 * q) / (3 + 4 * q)`.  Source: gwkokab/poisson_mean/_analytic_spin_prior.py lines 27, 38, 61, 72. -/
def kap (q : XR) : XR := (fin 4 + fin 3 * q) / (fin 3 + fin 4 * q)

/-- `np.sqrt(q**2 - ((4 + 3 * q) / (3 + 4 * q)) ** 2 * chip**2)`.  Source: gwkokab/poisson_mean/_analytic_spin_prior.py lines 27, 31, 61, 84. -/
def rootQ (chip q : XR) : XR := sqrt (square q - square (kap q) * square chip)

/-- `np.sqrt(1 - chip**2)`.  Source: gwkokab/poisson_mean/_analytic_spin_prior.py lines 28, 32, 45, 60. -/
def rootOne (chip : XR) : XR := sqrt (fin 1 - square chip)

/-- `q >= (4 + 3 * q) * chip / (3 + 4 * q)`.  Source: gwkokab/poisson_mean/_analytic_spin_prior.py lines 35, 69, 92. -/
def condQ (chip q : XR) : Bool := decide (le ((fin 4 + fin 3 * q) * chip / (fin 3 + fin 4 * q)) q)

/-- `I1(chieff, chip, q)`, lines 25–41. -/
def I1 (chieff chip q : XR) : XR :=
  let hi := min (rootQ chip q) ((fin 1 + q) * chieff + rootOne chip)
  let lo := max (-rootQ chip q) ((fin 1 + q) * chieff - rootOne chip)
  let t := F hi ((fin 1 + q) * chieff) chip (kap q * chip) q - F lo ((fin 1 + q) * chieff) chip (kap q * chip) q
  select (decide (lt (fin 0) chip) && condQ chip q && decide (le lo hi)) ((fin 1 + q) / (fin 8 * q) * t) (fin 0)

/-- `I2(chieff, chip, q)`, lines 44–55. -/
def I2 (chieff chip q : XR) : XR :=
  let hi := min q ((fin 1 + q) * chieff + rootOne chip)
  let lo := max (-q) ((fin 1 + q) * chieff - rootOne chip)
  let t := F hi ((fin 1 + q) * chieff) chip (fin 0) q - F lo ((fin 1 + q) * chieff) chip (fin 0) q
  select (decide (lt (fin 0) chip) && decide (lt chip (fin 1)) && decide (le lo hi)) (-(fin 1 + q) / (fin 8 * q) * t) (fin 0)

/-- `I3(chieff, chip, q)`, lines 58–78. -/
def I3 (chieff chip q : XR) : XR :=
  let hi := min (rootOne chip) ((fin 1 + q) * chieff + rootQ chip q)
  let lo := max (-rootOne chip) ((fin 1 + q) * chieff - rootQ chip q)
  let t := F hi ((fin 1 + q) * chieff) (kap q * chip) chip (fin 1) - F lo ((fin 1 + q) * chieff) (kap q * chip) chip (fin 1)
  select (decide (lt (fin 0) chip) && condQ chip q && decide (lt lo hi))
    ((fin 1 + q) / (fin 8 * q) * (fin 4 + fin 3 * q) / (fin 3 + fin 4 * q) * t) (fin 0)

/-- `I4(chieff, chip, q)`, lines 81–101. -/
def I4 (chieff chip q : XR) : XR :=
  let hi := min (fin 1) ((fin 1 + q) * chieff + rootQ chip q)
  let lo := max (fin (-1)) ((fin 1 + q) * chieff - rootQ chip q)
  let t := F hi ((fin 1 + q) * chieff) (kap q * chip) (fin 0) (fin 1) - F lo ((fin 1 + q) * chieff) (kap q * chip) (fin 0) (fin 1)
  select (decide (lt (fin 0) chip) && condQ chip q && decide (lt lo hi))
    (-(fin 1 + q) / (fin 8 * q) * (fin 4 + fin 3 * q) / (fin 3 + fin 4 * q) * t) (fin 0)

/-- `prior_chieff_chip_isotropic(chieff, chip, q, amax)`, lines 248–256. -/
def jointPrior (chieff chip q amax : XR) : XR :=
  let chieff := chieff / amax
  let chip := chip / amax
  (I1 chieff chip q + I2 chieff chip q + I3 chieff chip q + I4 chieff chip q) / square amax

end

end GW.SpinPriorJoint
