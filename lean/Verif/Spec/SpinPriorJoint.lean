import Verif.Spec.SpinPrior
import Mathlib.Analysis.Real.Sqrt

/-!
# Effective and precessing spin of two isotropic spins: specification

With the spins of `Verif.Spec.SpinPrior`, the precessing spin is the larger of `a₁ sin θ₁` and `(3 + 4 q) / (4 + 3 q) · q a₂ sin θ₂`.
-/

namespace GW.SpinPriorSpec
open MeasureTheory Set

noncomputable section
open Classical

/-- The precessing spin of `((a₁, c₁), (a₂, c₂))` at mass ratio `q`. -/
def chiP (q : ℝ) (w : (ℝ × ℝ) × ℝ × ℝ) : ℝ :=
  max (w.1.1 * √(1 - w.1.2 ^ 2)) ((3 + 4 * q) / (4 + 3 * q) * q * w.2.1 * √(1 - w.2.2 ^ 2))

/-- Joint density of the aligned part `z` and the in-plane part `r` of an isotropic spin vector whose length is uniform on `[0, m]`. -/
def halfPlane (m z r : ℝ) : ℝ := if 0 < r ∧ z ^ 2 + r ^ 2 ≤ m ^ 2 then r / (2 * m * (z ^ 2 + r ^ 2)) else 0

/-- Density of the aligned part `z` together with the event that the in-plane part is below `R`. -/
def below (m z R : ℝ) : ℝ := ∫ r in Ioo 0 R, halfPlane m z r

/-- Joint density of the effective spin `x` and the precessing spin `p`.  One of the two in-plane parts is the larger one and equals `p` (first term: that
of the primary, second term: that of the secondary, whose in-plane part then is `κ p` with `κ = (4 + 3 q) / (3 + 4 q)`), the other one is below it, and the
aligned parts add up to `(1 + q) x`. -/
def jointDensity (q amax x p : ℝ) : ℝ :=
  let k := (4 + 3 * q) / (3 + 4 * q)
  (1 + q) * ∫ y, halfPlane amax ((1 + q) * x - y) p * below (q * amax) y (k * p)
    + k * (below amax ((1 + q) * x - y) p * halfPlane (q * amax) y (k * p))

end

end GW.SpinPriorSpec
