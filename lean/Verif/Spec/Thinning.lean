import Verif.Model.Thinning
import Mathlib.MeasureTheory.Measure.Lebesgue.Basic
import Mathlib.MeasureTheory.Integral.Bochner.Set

/-! # What a synthetic catalogue of detected events is -/

namespace GW.Population
open GW XR MeasureTheory

noncomputable section
open Classical

/-- A uniform number on `[0, 1)`. -/
def unif : Measure ℝ := volume.restrict (Set.Ico 0 1)

/-- The detection probability (up to a constant) of an event whose log selection is `x`: zero unless it is a number. -/
def weight : XR → ℝ
  | fin a => Real.exp a
  | _ => 0

/-- The probability that an event drawn from the finite pool `rows` lies in `A`, if each row is taken in proportion to its detection
probability. -/
def poolLaw {α} (logSelection : α → XR) (rows : List α) (A : Set α) : ℝ :=
  (rows.map fun r => if r ∈ A then weight (logSelection r) else 0).sum / (rows.map fun r => weight (logSelection r)).sum

/-- The law of detected events: the population `P` weighted with the detection probability. -/
def detectedLaw {α} [MeasurableSpace α] (P : Measure α) (logSelection : α → XR) (A : Set α) : ℝ :=
  (∫ x in A, weight (logSelection x) ∂P) / ∫ x, weight (logSelection x) ∂P

/-- A pair of masses with the heavier one first. -/
def ordered {β} (x : ℝ × ℝ × β) : ℝ × ℝ × β := (max x.1 x.2.1, min x.1 x.2.1, x.2.2)

end
end GW.Population
