import Verif.Model.Hmc
import Verif.Spec.XR

/-! Vocabulary for the HMC kernel. -/

namespace GW.Hmc
open Matrix

noncomputable section

variable {n : Nat}

/-- One leapfrog step of size `ε`: half a kick, a drift, half a kick. -/
def oneStep (velocity gradU : Vec n → Vec n) (ε : ℝ) (s : Vec n × Vec n) : Vec n × Vec n :=
  let p := s.2 - (ε / 2) • gradU s.1
  let x := s.1 + ε • velocity p
  (x, p - (ε / 2) • gradU x)

/-- Momentum flip. -/
def flip (s : Vec n × Vec n) : Vec n × Vec n := (s.1, -s.2)

/-- The unnormalised joint density of position and momentum, `exp(-H)`: the target density times that of a normal momentum with covariance `mass`. -/
def weight (mass : Matrix (Fin n) (Fin n) ℝ) (logpdf : Vec n → XR) (s : Vec n × Vec n) : ℝ :=
  XR.expR (logpdf s.1) * Real.exp (-(1 / 2 * (s.2 ⬝ᵥ (mass⁻¹.mulVec s.2))))

end

end GW.Hmc
