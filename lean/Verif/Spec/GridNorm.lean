import Verif.Spec.SmoothedDensity

/-!
# Accuracy of the tabulated normalisations

The largest densities of the primary-mass laws, and the error bounds in terms of them.
-/

namespace GW.Hybrids
open MeasureTheory

noncomputable section

/-- A value no density of a primary-mass law exceeds: the larger end of a power law, the largest of both ends and the break of a broken power law, the top of a normal law. -/
def Law.peak : Law → ℝ
  | powerlaw alpha low high => max (low ^ alpha) (high ^ alpha) / ∫ t in low..high, t ^ alpha
  | broken alpha1 alpha2 mbreak mmin mmax =>
    max 1 (max ((mmin / mbreak) ^ (-alpha1)) ((mmax / mbreak) ^ (-alpha2))) / ∫ t in mmin..mmax, brokenShape alpha1 alpha2 mbreak t
  | normal loc scale low high => Spin.normalDensity loc scale loc / ∫ y in Spin.bounds low high, Spin.normalDensity loc scale y
  | _ => 0

/-- The weighted peaks of the primary-mass laws. -/
def peakMixture (weights : List ℝ) (laws : List (List Law)) : ℝ := weighted weights (laws.map fun ls => match ls with
  | L :: _ => L.peak
  | [] => 0)

namespace Smoothing

/-- The exact total of a primary-mass density under the window. -/
def exactMassTotal (s : Smoothing) (f : ℝ → ℝ) : ℝ := ∫ m in s.m1min..s.m1max, f m * s.window m

/-- The exact total of the mass-ratio curve. -/
def exactRatioTotal (s : Smoothing) (m : ℝ) : ℝ := ∫ q in (0 : ℝ)..1, s.ratioCurve m q

/-- The error of the mass-ratio totals: a quarter to a third of a per cent, and two thousandths per smoothing width of the mass range, times the largest power of the mass ratio. -/
def ratioError (s : Smoothing) : ℝ := max 1 ((s.m2min / s.m1max) ^ s.beta) * (0.003 + 0.002 * ((s.m1max - s.m1min) / s.width2))

end Smoothing

end

end GW.Hybrids
