import Verif.Spec.Ppd

/-!
# Specification: the marginal density of one posterior sample
-/

namespace GW.Ppd

/-- The density of parameter `k` at the `t`-th point of its grid, for posterior sample `s`: the density of an event integrated over the grids of all the
other parameters. -/
noncomputable def sampleMarginal (k : Nat) (domains : List Domain) (density : Nat → List ℝ → ℝ) (s t : Nat) : ℝ :=
  integrateOut k domains (fun σ => density s (gridPoint domains σ)) (fun i => if i = k then t else 0)

end GW.Ppd
