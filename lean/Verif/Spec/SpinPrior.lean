import Mathlib.MeasureTheory.Measure.Lebesgue.Basic
import Mathlib.MeasureTheory.Measure.WithDensity
import Mathlib.Analysis.SpecialFunctions.Log.Basic
import Mathlib.MeasureTheory.Integral.Bochner.Basic

/-!
# Effective spin of two isotropic spins: specification

Two spin magnitudes uniform on `[0, amax]` and two tilt cosines uniform on `[-1, 1]`, all independent, give the effective spin
`(a₁ c₁ + q a₂ c₂) / (1 + q)`.
-/

namespace GW.SpinPriorSpec
open MeasureTheory Set

noncomputable section

/-- The uniform probability measure on `[a, b]`. -/
def uniform (a b : ℝ) : Measure ℝ := (ENNReal.ofReal (b - a))⁻¹ • volume.restrict (Icc a b)

/-- The effective spin of `((a₁, c₁), (a₂, c₂))` at mass ratio `q`. -/
def chiEff (q : ℝ) (w : (ℝ × ℝ) × ℝ × ℝ) : ℝ := (w.1.1 * w.1.2 + q * (w.2.1 * w.2.2)) / (1 + q)

/-- The law of the spins: independent uniform magnitudes and isotropic directions. -/
def spins (amax : ℝ) : Measure ((ℝ × ℝ) × ℝ × ℝ) :=
  ((uniform 0 amax).prod (uniform (-1) 1)).prod ((uniform 0 amax).prod (uniform (-1) 1))

open Classical in
/-- Density of the aligned component `k a c` of one spin, with `m = k amax` its largest value. -/
def aligned (m u : ℝ) : ℝ := if |u| ≤ m then -Real.log (|u| / m) / (2 * m) else 0

/-- Density of the effective spin: the convolution of the densities of its two terms. -/
def chiEffDensity (q amax x : ℝ) : ℝ := ∫ y, aligned (q * amax / (1 + q)) y * aligned (amax / (1 + q)) (x - y)

end

end GW.SpinPriorSpec
