import Verif.Props.SpinPrior
import Verif.Props.InjectionPrior

/-!
# C61: the effective-spin prior inside the injection prior
-/

namespace GW.SpinPrior
open GW XR MeasureTheory Set SpinPriorSpec

/-- **C61** With the closed form as its effective-spin prior (called with its default `amax = 1`), the injection conversion of C47 uses the density
of the effective spin, at the effective spin of the injection, at every injection except the two singular cases. -/
theorem C61_injection (e : Injections.Env) (big : ℝ) (he : e.chiEffOnly = fun x q => chiEffPrior big x q (fin 1)) (ps : List String) (hp : "chi_p" ∉ ps)
    (m1 m2 a1 a2 c1 c2 : ℝ) (hm2 : 0 < m2) (hm : m2 ≤ m1)
    (hs : |chiEff (m2 / m1) ((a1, c1), (a2, c2))| ≠ m2 / m1 * 1 / (1 + m2 / m1)) (h0 : chiEff (m2 / m1) ((a1, c1), (a2, c2)) ≠ 0) :
    Injections.Effective e ps m1 m2 a1 a2 c1 c2 (chiEffDensity (m2 / m1) 1 (chiEff (m2 / m1) ((a1, c1), (a2, c2)))) := by
  have h1 : 0 < m1 := hm2.trans_le hm
  have hsum : m1 + m2 ≠ 0 := by linarith
  have hx : Conv.chiEffFromTilts (fin m1) (fin m2) (fin a1) (fin a2) (fin c1) (fin c2) = fin (chiEff (m2 / m1) ((a1, c1), (a2, c2))) := by
    simp only [Conv.chiEffFromTilts, Conv.chiEff, Conv.chiCostiltToChiz, Conv.totalMass, mul_fin_fin, add_fin_fin, div_fin_of_ne _ hsum, eqc_fin_of_ne hsum, select_false, chiEff]
    congr 1
    field_simp
  simp only [Injections.Effective, hp, if_false, he, hx]
  exact C61_density_partial ⟨div_pos hm2 h1, (div_le_one h1).2 hm, one_pos⟩ big _ (fun h => absurd h hs) fun h => absurd h h0

/-- A 30 + 15 injection with aligned unit and half spins. -/
example : |chiEff (15 / 30 : ℝ) ((1, 1), (1 / 2, 1))| ≠ 15 / 30 * 1 / (1 + 15 / 30) ∧ chiEff (15 / 30 : ℝ) ((1, 1), (1 / 2, 1)) ≠ 0 := by
  norm_num [chiEff, abs_of_pos]

end GW.SpinPrior
