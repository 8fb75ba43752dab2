import Verif.Model.XRMath
import Mathlib.MeasureTheory.Integral.IntervalIntegral.Basic

/-!
# Effective-spin prior of isotropic spins (gwkokab/poisson_mean/_analytic_spin_prior.py)

`chi_effective_prior_from_isotropic_spins`, lines 259–323, for scalars.  `Li2` (lines 239–245) is `scipy.special.spence(1 - z)`; for the real arguments that occur
only its real part is used, idealised as the exact dilogarithm.  The joint prior of two effective spins is in `Verif.Model.SpinPriorJoint`.
-/

namespace GW.SpinPrior
open GW XR MeasureTheory

noncomputable section
open Classical

/-- The real part of the dilogarithm of a real number, `-∫₀ˣ log|1 - t| / t dt`.  Source: gwkokab/poisson_mean/_analytic_spin_prior.py lines 239–245. -/
def dilog (x : ℝ) : ℝ := -∫ t in (0 : ℝ)..x, Real.log |1 - t| / t

/-- `Li2(x + 0j).real`, lines 239–245; NaN at infinities (the value there never reaches the result). -/
def li2 : XR → XR
  | fin x => fin (dilog x)
  | _ => nan

/-- `x == 1` added as a number.  Source: gwkokab/poisson_mean/_analytic_spin_prior.py lines 307–319. -/
def isOne (x : XR) : XR := if eqc x 1 then fin 1 else fin 0

/-- `lower`, lines 297–304, from `chi_eff ≥ 0`; `big` is the largest float (`nan_to_num`). -/
def lower (big : ℝ) (q maxPrimary secondaryRatio : XR) : XR :=
  ((fin 4 - log (square q) - log (abs (fin 1 / square secondaryRatio - fin 1)))
    + nanToNum (fin 0) (fin big) (fin (-big)) (log (abs (fin 1 - secondaryRatio) / (fin 1 + secondaryRatio)) + (li2 (-secondaryRatio) - li2 secondaryRatio))
      / secondaryRatio) / (fin 4 * maxPrimary)

/-- `upper`, lines 307–319. -/
def upper (amax chiEff q maxPrimary maxSecondary maxDifference primaryRatio secondaryRatio : XR) : XR :=
  let primaryTerm := log (abs (fin 1 / primaryRatio - fin 1) + isOne primaryRatio)
  let secondaryTerm := log (abs (fin 1 / secondaryRatio - fin 1) + isOne secondaryRatio)
  (fin 2 * (amax - chiEff) + maxDifference * log q + (chiEff - maxSecondary) * secondaryTerm + (chiEff - maxPrimary) * primaryTerm
    + chiEff * log primaryRatio * (primaryTerm - log q) + chiEff * (li2 (fin 1 - primaryRatio) - li2 secondaryRatio))
    / (fin 4 * maxPrimary * maxSecondary)

/-- `chi_effective_prior_from_isotropic_spins(chi_eff, q, amax)`, lines 259–323. -/
def chiEffPrior (big : ℝ) (chiEff q amax : XR) : XR :=
  let chiEff := abs chiEff
  let maxPrimary := amax / (fin 1 + q)
  let maxSecondary := q * amax / (fin 1 + q)
  let maxDifference := amax * (fin 1 - q) / (fin 1 + q)
  let secondaryRatio := maxSecondary / chiEff
  let primaryRatio := maxPrimary / chiEff
  select (decide (lt chiEff maxDifference)) (lower big q maxPrimary secondaryRatio)
    (select (decide (lt chiEff amax)) (upper amax chiEff q maxPrimary maxSecondary maxDifference primaryRatio secondaryRatio) (fin 0))

end

end GW.SpinPrior
