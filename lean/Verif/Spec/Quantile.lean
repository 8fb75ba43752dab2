import Mathlib.Data.Real.Basic

/-! # Quantiles of a sample -/

namespace GW.Scripts

/-- `v` is the `p`-quantile of the numbers `data`: in increasing order, position `p (N - 1)` counted from zero, with linear interpolation between the two
neighbours if it is not a whole number. -/
def IsQuantile (data : List ℝ) (p v : ℝ) : Prop :=
  ∃ s : List ℝ, s.Perm data ∧ s.Pairwise (· ≤ ·) ∧ ∃ (i : ℕ) (t : ℝ), 0 ≤ t ∧ t < 1 ∧ p * ((data.length : ℝ) - 1) = i + t ∧
    ∃ a, s[i]? = some a ∧ (t = 0 ∧ v = a ∨ ∃ b, s[i + 1]? = some b ∧ v = (1 - t) * a + t * b)

/-- The five curves of one parameter: for each level the quantiles of the samples at every grid point. -/
def IsBands (marginal : List (List ℝ)) (curves : List (List ℝ)) : Prop :=
  List.Forall₂ (fun p curve => List.Forall₂ (fun line v => IsQuantile line p v) marginal curve) [0.05, 0.25, 0.5, 0.75, 0.95] curves

end GW.Scripts
