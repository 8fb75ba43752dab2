import Verif.Model.Monk
import Verif.Spec.Sage
import Verif.Spec.Analytic
import Mathlib.LinearAlgebra.Matrix.PosDef

/-! Vocabulary for the statements about a whole analysis of Gaussian events. -/

namespace GW.Monk
open Matrix

variable {d : ℕ}

/-- The HDF5 group holds this mean and this covariance. -/
def Holds (g : Events.Group) (m : Fin d → ℝ) (S : Matrix (Fin d) (Fin d) ℝ) : Prop :=
  g.mean = some (List.ofFn fun i => XR.fin (m i)) ∧ g.cov = some (List.ofFn fun i => List.ofFn fun j => XR.fin (S i j))

/-- The file has the right extension, and its groups whose name starts with `event_` hold these Gaussians, in this order. -/
def FileHolds (filename : String) (file : List (String × Events.Group)) (evs : List ((Fin d → ℝ) × Matrix (Fin d) (Fin d) ℝ)) : Prop :=
  (".hdf5".toList <:+ filename.toList ∨ ".h5".toList <:+ filename.toList) ∧
    List.Forall₂ (fun kg e => Holds kg.2 e.1 e.2) (file.filter fun kg => "event_".toList.isPrefixOf kg.1.toList) evs

/-- `m'`, `L'` is the Laplace proposal for the event `N(m, S)` when the log density of the population has gradient `g` and Hessian `H` at `m`: one Newton step,
if the precision is positive definite, and the event itself otherwise. -/
def IsProposal (m : Fin d → ℝ) (S : Matrix (Fin d) (Fin d) ℝ) (g : Fin d → ℝ) (H : Matrix (Fin d) (Fin d) ℝ) (m' : Fin d → ℝ) (L' : Matrix (Fin d) (Fin d) ℝ) : Prop :=
  L'.det ≠ 0 ∧ ((S⁻¹ - H).PosDef → m' = m + (S⁻¹ - H)⁻¹.mulVec g ∧ L' * L'ᵀ = (S⁻¹ - H)⁻¹) ∧ (¬ (S⁻¹ - H).PosDef → m' = m ∧ L' * L'ᵀ = S)

/-- The importance weights of the draws `m' + L' e`: population density times event over proposal. -/
noncomputable def weights (ρ : (Fin d → ℝ) → ℝ) (m : Fin d → ℝ) (S : Matrix (Fin d) (Fin d) ℝ) (m' : Fin d → ℝ) (L' : Matrix (Fin d) (Fin d) ℝ)
    (draws : List (Fin d → ℝ)) : List ℝ :=
  draws.map fun e => ρ (m' + L'.mulVec e) * gauss m S (m' + L'.mulVec e) / gauss m' (L' * L'ᵀ) (m' + L'.mulVec e)

end GW.Monk
