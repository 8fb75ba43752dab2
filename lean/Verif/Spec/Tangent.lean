import Verif.Model.XR
import Mathlib.Analysis.Calculus.Deriv.Basic

/-! What it means for a JVP rule to be right: it returns the derivative of the primal function along the tangent direction. -/

namespace GW
open XR Filter Topology

/-- Near `t = 0` the float-valued curve `g` is finite, and the float `v` is its derivative at `0`. -/
def IsTangent (g : ℝ → XR) (v : XR) : Prop :=
  ∃ (G : ℝ → ℝ) (r : ℝ), v = fin r ∧ (∀ᶠ t in 𝓝 0, g t = fin (G t)) ∧ HasDerivAt G r 0

/-- The derivative is unique. -/
theorem IsTangent.unique {g : ℝ → XR} {v w : XR} (hv : IsTangent g v) (hw : IsTangent g w) : v = w := by
  obtain ⟨G, r, rfl, hG, hr⟩ := hv
  obtain ⟨H, s, rfl, hH, hs⟩ := hw
  have : G =ᶠ[𝓝 0] H := by
    filter_upwards [hG, hH] with t h1 h2
    rw [h1] at h2
    injection h2
  rw [(hr.congr_of_eventuallyEq this.symm).unique hs]

end GW
