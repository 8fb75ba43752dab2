import Verif.Model.FullModels

/-!
# The eccentricity model (gwkanal/ecc_matters/common.py)
-/

namespace GW.Full
open GW XR GW.Joint

noncomputable section
open Classical

/-- `EccentricityMattersModel(log_rate, alpha_m, mmin, mmax, loc, scale, low, high, validate_args=)`, gwkanal/ecc_matters/common.py lines 15–40.  The
argument is not passed on to `JointDistribution` (lines 27–34), so that object follows numpyro's global setting `isGlobal`; `None` means the global
setting everywhere.  The hyper-parameters are keyword arguments, so none can be missing here. -/
def eccentricityMatters (isGlobal : Bool) (validateArgs : Option Bool) (logRate alphaM mmin mmax loc scale low high : ℝ) : Except Err (Mixture.Mix (Slice XR)) := do
  let v := validateArgs.getD isGlobal
  let mass : Mass.Wysocki := ⟨alphaM, mmin, mmax, v⟩
  let ecc := Spin.truncatedNormal loc scale (some low) (some high) v
  let d ← join [pair mass.logProb mass.support, scalar ecc.logProb ecc.support]
  scaled isGlobal logRate d

end

end GW.Full

namespace GW.Mixture
open GW XR

noncomputable section

/-- A component as numpyro builds it from an unchecked log density and a support: `@validate_sample` masks the density when `validate_args` is set.
Source: the component distributions of gwkokab/models/hybrids/_npowerlawmgaussian.py lines 600–620, as seen by gwkokab/models/utils/_scaledmixture.py lines 151–161. -/
def asBuilt {α : Type} (validate : Bool) (c : (α → XR) × (α → Bool)) : Comp α where
  logProb x := Mass.validated validate (c.2 x) (c.1 x)
  support := c.2
  supportType := ""
  eventShape := []
  validateArgs := validate
  cdf _ := nan

end

end GW.Mixture
