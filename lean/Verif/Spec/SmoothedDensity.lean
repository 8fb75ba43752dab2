import Verif.Spec.HybridDensity
import Verif.Spec.Planck
import Verif.Model.PyDict

/-!
# What the smoothed multi-component models should be

A mixture of components (primary mass and everything but the mass ratio), its primary-mass distribution smoothed at the lower end and normalised, times a
smoothed power law in the mass ratio.  Integrals over grids are those the documentation describes.  Nothing here refers to how the code computes.
-/

namespace GW.Hybrids
open MeasureTheory

noncomputable section
open Classical

/-- The hyper-parameters all components share. -/
structure Smoothing where
  /-- Slope of the mass ratio. -/
  beta : ℝ
  /-- Width of the smoothing of the primary mass. -/
  width1 : ℝ
  /-- Width of the smoothing of the secondary mass. -/
  width2 : ℝ
  logRate : ℝ
  m1max : ℝ
  m1min : ℝ
  m2min : ℝ

namespace Smoothing

/-- Positive ordered masses and positive widths. -/
def Proper (s : Smoothing) : Prop := 0 < s.m1min ∧ s.m1min < s.m1max ∧ 0 < s.m2min ∧ 0 < s.width1 ∧ 0 < s.width2

/-- The window on the primary mass. -/
def window (s : Smoothing) (m : ℝ) : ℝ := planckTaper ((m - s.m1min) / s.width1)

/-- The smoothed power law in the mass ratio, not normalised. -/
def ratioCurve (s : Smoothing) (m q : ℝ) : ℝ := q ^ s.beta * planckTaper ((m * q - s.m2min) / s.width2)

/-- The total of a primary-mass density under the window, on 1000 points. -/
def massTotal (s : Smoothing) (f : ℝ → ℝ) : ℝ := trapz (fun m => f m * s.window m) s.m1min s.m1max 1000

/-- `Z m` is the total of the mass-ratio curve of `m`: on 500 points between 0.005 and 1, interpolated between 1000 primary masses; one where there is none. -/
def IsRatioTotal (s : Smoothing) (Z : ℝ → ℝ) : Prop :=
  (∀ m, 0 < Z m) ∧ ∀ m, s.m1min ≤ m → m ≤ s.m1max →
    ∃ v, 0 ≤ v ∧ Interpolates (fun m => trapz (s.ratioCurve m) 0.005 1 500) s.m1min s.m1max 1000 m v ∧ Z m = if v ≤ 0 then 1 else v

/-- The merger-rate density; `rest` is the density of the mixture over the primary mass and the rest. -/
def density (s : Smoothing) (total : ℝ) (ratioTotal : ℝ → ℝ) (rest m q : ℝ) : ℝ :=
  if (s.m1min ≤ m ∧ m ≤ s.m1max) ∧ 0 ≤ q ∧ q ≤ 1 then
    Real.exp s.logRate * (rest * s.window m / total) * (s.ratioCurve m q / ratioTotal m)
  else 0

/-- The values of `NSmoothedPowerlawMSmoothedGaussian`: one minimum mass and one width for both masses. -/
structure OfO3 (s : Smoothing) (params : PyDict.Dict String ℝ) : Prop where
  beta : PyDict.get? params "beta" = some s.beta
  width1 : PyDict.get? params "delta_m" = some s.width1
  width2 : PyDict.get? params "delta_m" = some s.width2
  logRate : PyDict.get? params "log_rate" = some s.logRate
  m1max : PyDict.get? params "mmax" = some s.m1max
  m1min : PyDict.get? params "mmin" = some s.m1min
  m2min : PyDict.get? params "mmin" = some s.m2min

/-- The values of `NBrokenPowerlawMGaussian`. -/
structure OfO4 (s : Smoothing) (params : PyDict.Dict String ℝ) : Prop where
  beta : PyDict.get? params "beta" = some s.beta
  width1 : PyDict.get? params "delta_m1" = some s.width1
  width2 : PyDict.get? params "delta_m2" = some s.width2
  logRate : PyDict.get? params "log_rate" = some s.logRate
  m1max : PyDict.get? params "m1max" = some s.m1max
  m1min : PyDict.get? params "m1min" = some s.m1min
  m2min : PyDict.get? params "m2min" = some s.m2min

end Smoothing

/-- A weighted sum. -/
def weighted (weights values : List ℝ) : ℝ := (List.zipWith (· * ·) weights values).sum

/-- The mixture of the laws of the primary mass, which come first in each component. -/
def massMixture (dV : ℝ → ℝ) (weights : List ℝ) (laws : List (List Law)) (m : ℝ) : ℝ :=
  weighted weights (laws.map fun ls => match ls with
    | L :: _ => L.density dV [m]
    | [] => 0)

/-- The mixture of the components. -/
def restMixture (dV : ℝ → ℝ) (weights : List ℝ) (laws : List (List Law)) (x : List ℝ) : ℝ := weighted weights (laws.map fun ls => productDensity dV ls x)

end

end GW.Hybrids
