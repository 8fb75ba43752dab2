import Verif.Model.Ppd

/-!
# Vocabulary for posterior predictive densities

A point of the grid is described by an assignment `σ` of a grid index to every axis number, axes numbered as in the parameter list.
-/

namespace GW.Ppd

/-- The `i`-th of evenly spaced points, the first and the last of which are the ends of the range. -/
noncomputable def gridAt (d : Domain) (i : Nat) : ℝ := d.start + (d.stop - d.start) * i / (d.points - 1 : ℕ)

/-- The trapezoidal rule for the values `f` at the points of a grid: the width of every interval times the mean of the values at its ends. -/
noncomputable def trapezoidal (d : Domain) (f : Nat → ℝ) : ℝ :=
  ∑ t ∈ Finset.range (d.points - 1), (gridAt d (t + 1) - gridAt d t) * ((f t + f (t + 1)) / 2)

/-- Integrate a function of assignments over the axes `0, …, P-1` except `k`, by the trapezoidal rule on each axis' own grid. -/
noncomputable def integrateOut (k : Nat) (domains : List Domain) (f : (Nat → Nat) → ℝ) : (Nat → Nat) → ℝ :=
  domains.zipIdx.foldl (fun F p => if p.2 = k then F else fun σ => trapezoidal p.1 fun t => F (Function.update σ p.2 t)) f

/-- The point of the grid with index `σ i` on axis `i`. -/
noncomputable def gridPoint (domains : List Domain) (σ : Nat → Nat) : List ℝ := domains.zipIdx.map fun p => gridAt p.1 (σ p.2)

/-- Columns of a row that are kept when the columns of the set `S` are removed. -/
def keepColumns {V} (S : List Nat) (row : List V) : List V := (row.zipIdx.filter fun p => p.2 ∉ S).map (·.1)

end GW.Ppd
