import Mathlib.Analysis.SpecialFunctions.Exp
import Mathlib.Algebra.BigOperators.Group.Finset.Basic
import Mathlib.Analysis.SpecialFunctions.Pow.Real

/-! The Planck taper window as written in the documentation of `log_planck_taper_window`, and the textbook notions used to state the smoothed mass models. -/

namespace GW

/-- `0` up to the lower edge, `1` from the upper edge on, `1 / (1 + exp(1/x + 1/(x-1)))` in between. -/
noncomputable def planckTaper (x : ℝ) : ℝ :=
  if x ≤ 0 then 0 else if 1 ≤ x then 1 else 1 / (1 + Real.exp (1 / x + 1 / (x - 1)))

/-- The `i`-th of `n` equally spaced points from `a` to `b`. -/
noncomputable def node (a b : ℝ) (n i : ℕ) : ℝ := a + (b - a) * (i / (n - 1 : ℕ))

/-- The trapezoid estimate of `∫ f` over `[a, b]` with `n` equally spaced points. -/
noncomputable def trapz (f : ℝ → ℝ) (a b : ℝ) (n : ℕ) : ℝ :=
  ∑ j ∈ Finset.range (n - 1), (node a b n (j + 1) - node a b n j) * (f (node a b n (j + 1)) + f (node a b n j)) / 2

/-- `v` is the linear interpolation at `x` of `f` tabulated on `n` equally spaced points from `a` to `b`. -/
def Interpolates (f : ℝ → ℝ) (a b : ℝ) (n : ℕ) (x v : ℝ) : Prop :=
  ∃ i, i + 1 < n ∧ node a b n i ≤ x ∧ x ≤ node a b n (i + 1) ∧
    v = f (node a b n i) + (x - node a b n i) / (node a b n (i + 1) - node a b n i) * (f (node a b n (i + 1)) - f (node a b n i))

/-- The shape of a broken power law, `1` at the break. -/
noncomputable def brokenShape (alpha1 alpha2 mbreak m : ℝ) : ℝ := (m / mbreak) ^ (-(if m < mbreak then alpha1 else alpha2))

end GW
