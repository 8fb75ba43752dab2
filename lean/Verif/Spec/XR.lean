import Verif.Model.XR

/-! Vocabulary for statements about log densities. -/

namespace GW
namespace XR

/-- The non-negative weight of a log value: `exp`, with `-inf ↦ 0` (only used for values in `[-inf, inf)`). -/
noncomputable def expR : XR → ℝ
  | fin a => Real.exp a
  | _ => 0

/-- A proper log value: finite or `-inf`. -/
def IsLog (x : XR) : Prop := x ≠ nan ∧ x ≠ pinf

end XR
end GW
