import Mathlib.Analysis.SpecialFunctions.Pow.Real

/-! Textbook cosmology: the Friedmann equation and the comoving-distance integrand. -/

namespace GW

/-- `E(z)^2` for the density parameters. -/
def friedmann (omegaL omegaK omegaM omegaR z : ℝ) : ℝ := omegaL + omegaK * (1 + z) ^ 2 + omegaM * (1 + z) ^ 3 + omegaR * (1 + z) ^ 4

/-- `dDc/dz = (c / H0) / E(z)`. -/
noncomputable def comovingRate (c H0 omegaL omegaK omegaM omegaR z : ℝ) : ℝ := c / H0 / Real.sqrt (friedmann omegaL omegaK omegaM omegaR z)

end GW
