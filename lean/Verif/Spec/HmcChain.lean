import Verif.Spec.Hmc
import Verif.Spec.Analytic
import Mathlib.Probability.Independence.Basic
import Mathlib.MeasureTheory.Measure.Lebesgue.Basic
import Mathlib.MeasureTheory.Measure.WithDensity

/-! The randomness of a Hamiltonian Monte Carlo chain. -/

namespace GW.Hmc
open MeasureTheory ProbabilityTheory

noncomputable section

variable {n : Nat} {Ω : Type} [MeasurableSpace Ω]

/-- A start `X`, and for every key a standard normal vector `N key` and a uniform number `U key` in `[0, 1)`.  The start and what different keys give have nothing
to do with each other; nothing is said about the vector and the number that the same key gives. -/
structure Draws (P : Measure Ω) (X : Ω → Vec n) (N : Key → Ω → Vec n) (U : Key → Ω → ℝ) : Prop where
  start : Measurable X
  normal : ∀ k, Measurable (N k)
  uniform : ∀ k, Measurable (U k)
  normalLaw : ∀ k, P.map (N k) = volume.withDensity fun z => ENNReal.ofReal (stdNormal z)
  uniformLaw : ∀ k, P.map (U k) = volume.restrict (Set.Ico 0 1)
  indep : iIndepFun (fun (o : Option Key) ω => o.elim (X ω, (0 : ℝ)) fun k => (N k ω, U k ω)) P

/-- `X` has the density `exp(logpdf)`, up to a constant. -/
def HasTarget (P : Measure Ω) (logpdf : Vec n → XR) (X : Ω → Vec n) : Prop :=
  ∃ c : ENNReal, P.map X = volume.withDensity fun x => c * ENNReal.ofReal (XR.expR (logpdf x))

end

end GW.Hmc
