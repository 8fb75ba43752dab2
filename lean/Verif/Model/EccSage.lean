import Verif.Model.HybridSage
import Verif.Model.EccMatters

/-!
# The `ecc_matters` analysis of discrete data

What `EccentricityMattersCore` (`/repo/src/gwkanal/ecc_matters/sage.py`) hands to `Sage.__init__`, with the simplifications of `Model/HybridSage`.
-/

namespace GW.Full
open GW XR GW.PyDict GW.Joint
open GW.Likelihood (FRow)
open GW.Hybrids (Settings)

noncomputable section
open Classical

/-- `parameters`.  Source: gwkanal/ecc_matters/sage.py lines 21–23; gwkanal/ecc_matters/monk.py lines 15–17. -/
def eccColumns : List String := ["mass_1_source", "mass_2_source", "eccentricity"]

/-- `model_parameters`.  Source: gwkanal/ecc_matters/sage.py lines 25–27; gwkanal/ecc_matters/monk.py lines 19–21. -/
def eccModelParameters : List String := ["log_rate", "alpha_m", "mmin", "mmax", "loc", "scale", "low", "high"]

/-- A number among the keyword arguments.  Source: gwkanal/ecc_matters/common.py lines 15–26. -/
def numberOf (kw : Sage.Kwargs) (name : String) : Option ℝ :=
  match kw name with
  | some (some (fin x)) => some x
  | _ => none

/-- `EccentricityMattersModel(**params, validate_args=…)` as the likelihood uses it; a missing argument is a `TypeError`.  `validation` is numpyro's global setting.
The other keyword arguments would be a `TypeError` too; `model_parameters` are the only ones the analysis passes.
Source: gwkanal/ecc_matters/common.py lines 15–41. -/
def eccSageModel (validation : Bool) (feasible : List FRow → Nat → FRow) (v : Option Bool) (kw : Sage.Kwargs) : Likelihood.Model FRow where
  logProb row :=
    match (do
      let logRate ← numberOf kw "log_rate"
      let alphaM ← numberOf kw "alpha_m"
      let mmin ← numberOf kw "mmin"
      let mmax ← numberOf kw "mmax"
      let loc ← numberOf kw "loc"
      let scale ← numberOf kw "scale"
      let low ← numberOf kw "low"
      let high ← numberOf kw "high"
      some (eccentricityMatters validation v logRate alphaM mmin mmax loc scale low high)) with
    | some (.ok M) => M.logProbChecked (v.getD validation) (.many row)
    | _ => nan
  feasible := feasible

/-- The analysis without events: no constants (gwkanal/core/guru.py lines 380–389) and no where-functions.
Source: gwkanal/ecc_matters/sage.py lines 20–27, 50–67 and 80–97. -/
def eccInputs (s : Settings) : Sage.Inputs where
  params := s.params
  extra := []
  model := eccSageModel s.validation s.feasible
  whereFns := none
  data := []
  refs := []
  nBuckets := s.nBuckets
  threshold := s.threshold
  rate := fun _ => nan
  tObs := s.tObs

/-- The analysis of Gaussian events, before the numbers of draws and the rate estimator are set: `EccentricityMattersMonk`; the likelihood calls the model
without `validate_args`.  The cosmology and the largest double are not used.  Source: gwkanal/ecc_matters/monk.py lines 14–50. -/
def eccMonkInputs {d : ℕ} (s : Hybrids.MonkSettings d) : Monk.Inputs d where
  params := s.params
  extra := []
  model := fun kw x => (eccSageModel s.validation s.feasible none kw).logProb ((List.ofFn x).map fin)
  grad := s.grad
  hess := s.hess
  rate := fun _ => nan
  filename := s.filename
  file := s.file
  tObs := s.tObs
  seed := s.seed
  nSamples := 0
  minErr := s.minErr
  nMaxSteps := s.nMaxSteps

end
end GW.Full
