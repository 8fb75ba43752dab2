import Verif.Model.Transforms
import Mathlib.Analysis.Calculus.FDeriv.Basic
import Mathlib.LinearAlgebra.Determinant

/-!
# What it means for a transform to invert, and for its log-determinant to be right
-/

namespace GW.Transforms
open GW XR GW.Constraints Topology

/-- A finite event. -/
def toXR {ι : Type} (x : ι → ℝ) : ι → XR := fun i => fin (x i)

/-- The constraint accepts the finite event `x`. -/
def Accepts {n : Nat} (c : Leaf) (x : Fin n → ℝ) : Prop := c.check (List.ofFn fun i => fin (x i)) = .ok true

/-- On the points `D` the transform gives a finite point that its codomain accepts and that its inverse sends back; on the points `C` the inverse
gives a finite point that the domain accepts and that the transform sends back. -/
structure InvertsOn {n : Nat} (T : Transform n) (D C : (Fin n → ℝ) → Prop) : Prop where
  fwd_ok : ∀ x, D x → ∃ y, T.fwd (toXR x) = toXR y ∧ Accepts T.codomain y ∧ T.inv (toXR y) = toXR x
  inv_ok : ∀ y, C y → ∃ x, T.inv (toXR y) = toXR x ∧ Accepts T.domain x ∧ T.fwd (toXR x) = toXR y

/-- The full claim: on every finite point of the declared domain and codomain. -/
def Inverts {n : Nat} (T : Transform n) : Prop := InvertsOn T (Accepts T.domain) (Accepts T.codomain)

/-- `v` is the logarithm of the absolute Jacobian determinant of `T` at the finite point `x` (with coordinates indexed by `ι`): near `x` the
transform is a real map, differentiable at `x`, and `v` is `log |det|` of its derivative (`-inf` when that vanishes). -/
def IsLogDetAt {ι : Type} [Fintype ι] (T : (ι → XR) → ι → XR) (x : ι → ℝ) (v : XR) : Prop :=
  ∃ (g : (ι → ℝ) → ι → ℝ) (g' : (ι → ℝ) →L[ℝ] (ι → ℝ)),
    (∀ᶠ x' in 𝓝 x, T (toXR x') = toXR (g x')) ∧ HasFDerivAt g g' x ∧ v = XR.log (fin |LinearMap.det (g' : (ι → ℝ) →ₗ[ℝ] (ι → ℝ))|)

/-- The block map with the parts `T i`: coordinate `(i, j)` of the result is coordinate `j` of `T i` applied to block `i`. -/
def blockMap {ι : Type} {k : ι → Nat} (T : (i : ι) → (Fin (k i) → XR) → Fin (k i) → XR) (x : ((i : ι) × Fin (k i)) → XR) :
    ((i : ι) × Fin (k i)) → XR := fun p => T p.1 (fun j => x ⟨p.1, j⟩) p.2

end GW.Transforms
