import Verif.Spec.RoundedLikelihood

/-! # A posterior sample as the computer sees it -/

namespace GW.RoundedLikelihood
open GW XR Rounding

/-- One sample as the computer sees it: the model gives `-inf` or a float, the log reference prior is a float, and their difference is at most `B` in size. -/
structure Sample (f : Format) (B : ℝ) (lp : XR) (ref : XR) : Prop where
  density : Weight f lp
  reference : ∃ r, ref = fin r ∧ f.Mem r
  bound : ∀ a r, lp = fin a → ref = fin r → |a - r| ≤ B

end GW.RoundedLikelihood
