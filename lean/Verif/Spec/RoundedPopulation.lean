import Verif.Spec.RoundedPowerLaw
import Verif.Model.RoundedPopulation

/-!
# What the rounded log density of a population of power laws should be
-/

namespace GW.RoundedPowerLaw
open GW XR Rounding

noncomputable section
open Classical

/-- The rate density of the population at `m`: the sum over the components whose support contains `m` of the rate times `m ^ alpha` divided by its integral. -/
def rateDensity (cs : List Component) (m : ℝ) : ℝ :=
  (cs.map fun c => if c.low ≤ m ∧ m ≤ c.high then Real.exp c.logRate * (m ^ c.alpha / ∫ t in c.low..c.high, t ^ c.alpha) else 0).sum

/-- What is asked of a component whose support contains `m`: nothing overflows or underflows, the bounds are not too close for the precision, the error of its
density is at most `E` units and its log rate density at most `B` in size. -/
structure Component.Fine (f : Format) (E B m : ℝ) (c : Component) : Prop where
  slope : f.Mem c.alpha
  pos : 0 < c.low
  lt : c.low < c.high
  range : InRange f c.alpha c.low c.high
  apart : 64 * amplification c.alpha c.low c.high ≤ 2 ^ f.p
  size : 3 * (|c.alpha| * (|Real.log m| + 1)) + 2 * |Real.log (mass c.alpha c.low c.high)| + 2 ≤ (2 : ℝ) ^ f.emax
  error : 6 * (|c.alpha| * (|Real.log m| + 1)) + 3 * |Real.log (mass c.alpha c.low c.high)| + 14 * amplification c.alpha c.low c.high ≤ E
  value : |c.logRate + (c.alpha * Real.log m - Real.log (mass c.alpha c.low c.high))| ≤ B

end
end GW.RoundedPowerLaw
