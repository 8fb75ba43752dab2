import Verif.Model.XR

/-! # Log densities that are nearly the same -/

namespace GW.Robust
open GW XR

/-- `y` is off from `x` by at most `e`: both are finite and that close, or both are `-inf`. -/
def Within (e : ℝ) (x y : XR) : Prop := (x = ninf ∧ y = ninf) ∨ ∃ a b : ℝ, x = fin a ∧ y = fin b ∧ |b - a| ≤ e

end GW.Robust
