import Mathlib.Probability.Distributions.Gaussian.Real
import Mathlib.MeasureTheory.Integral.Pi

/-! Densities named in the statements about spin distributions. -/

namespace GW.Spin
open MeasureTheory ProbabilityTheory

noncomputable section
open Classical

/-- The uniform density on `[low, high]`. -/
def uniformDensity (low high x : ℝ) : ℝ := if low ≤ x ∧ x ≤ high then 1 / (high - low) else 0

/-- The normal density with mean `loc` and standard deviation `scale`. -/
def normalDensity (loc scale x : ℝ) : ℝ := gaussianPDFReal loc (scale ^ 2).toNNReal x

/-- The normal density restricted to the set `S` and divided by its mass there. -/
def restrictedNormal (loc scale : ℝ) (S : Set ℝ) (x : ℝ) : ℝ := if x ∈ S then normalDensity loc scale x / ∫ y in S, normalDensity loc scale y else 0

/-- The reals allowed by optional bounds: closed if both are given, open otherwise. -/
def bounds (low high : Option ℝ) : Set ℝ := match low, high with
  | some a, some b => Set.Icc a b
  | some a, none => Set.Ioi a
  | none, some b => Set.Iio b
  | none, none => Set.univ

end

end GW.Spin
