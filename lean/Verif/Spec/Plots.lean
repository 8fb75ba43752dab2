import Verif.Model.Plots
import Verif.Spec.Quantile

/-! # What plots of chains and of classes of points should show -/

namespace GW.Plots

noncomputable section

/-- The values of parameter `j` along a chain. -/
def trace (rows : List (List ℝ)) (j : ℕ) : List ℝ := rows.map fun r => r.getD j 0

/-- The values of parameter `j` of all chains at step `t`. -/
def atStep (chains : List (List (List ℝ))) (j t : ℕ) : List ℝ := chains.map fun rows => (rows.getD t []).getD j 0

/-- The band across the chains: at every step the areas between the 5% and 95% and between the 25% and 75% quantiles of the values of all chains, and their
mean. -/
def IsBandAcross (chains : List (List (List ℝ))) (T j : ℕ) (marks : List Mark) : Prop :=
  ∃ q5 q25 q75 q95 mean : ℕ → ℝ, marks = [.area ((List.range T).map q5) ((List.range T).map q95), .area ((List.range T).map q25) ((List.range T).map q75),
      .line ((List.range T).map mean)] ∧
    ∀ t < T, Scripts.IsQuantile (atStep chains j t) 0.05 (q5 t) ∧ Scripts.IsQuantile (atStep chains j t) 0.25 (q25 t) ∧
      Scripts.IsQuantile (atStep chains j t) 0.75 (q75 t) ∧ Scripts.IsQuantile (atStep chains j t) 0.95 (q95 t) ∧
      mean t = (atStep chains j t).sum / chains.length

/-- The effective sample size of parameter `j`, per draw. -/
def essPerDraw (ess : List (List ℝ) → ℝ) (chains : List (List (List ℝ))) (draws j : ℕ) : ℝ := ess (chains.map fun rows => trace rows j) / draws

/-- The coloured points of a picture. -/
def Picture.points {C} (p : Picture C) : List ((ℝ × ℝ) × C) := p.groups.flatMap fun g => g.points.map fun q => (q, g.colour)

/-- What can be seen of a picture: the coloured points, and the labels if there is a legend. -/
def Picture.visible {C} (p : Picture C) : List ((ℝ × ℝ) × C) × Option (List (Option String)) :=
  (p.points, if p.legend then some (p.groups.map fun g => g.label) else none)

end
end GW.Plots
