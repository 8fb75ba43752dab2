import Verif.Model.RoundedLikelihood
import Verif.Spec.XR

/-!
# What a rounded log likelihood should be
-/

namespace GW.RoundedLikelihood
open GW XR Rounding

/-- A log weight a float can hold: `-inf` or a finite number of the format. -/
def Weight (f : Format) (x : XR) : Prop := x = ninf ∨ ∃ a, x = fin a ∧ f.Mem a

/-- The number of finite entries. -/
noncomputable def finites (xs : List XR) : ℕ := (xs.filter XR.isFinite).length

/-- The largest entry is the finite number `M`. -/
def Largest (xs : List XR) (M : ℝ) : Prop := fin M ∈ xs ∧ ∀ x ∈ xs, XR.le x (fin M)

/-- `log Σ exp x` in exact arithmetic. -/
noncomputable def exactLog (xs : List XR) : ℝ := Real.log (xs.map expR).sum

/-- Precision to spare on both ends of the exponents, as `single` and `double` have. -/
def Wide (f : Format) : Prop := f.Usable ∧ f.emin + 2 * f.p ≤ 0 ∧ (f.p : ℤ) + 3 ≤ f.emax

end GW.RoundedLikelihood
