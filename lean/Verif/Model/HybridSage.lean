import Verif.Model.Sage
import Verif.Model.Monk
import Verif.Model.HybridAnalyses
import Verif.Model.HybridDensity

/-!
# The `n_pls_m_gs` analyses

What `NPowerlawMGaussianCore` (`/repo/src/gwkanal/n_pls_m_gs/sage.py`) hands to `Sage.__init__`: the constants, the model and the where-functions.  The model
is called with keyword arguments, as the likelihood does: the component numbers and the flags are read off the keyword arguments, everything else is a
hyper-parameter.

Simplifications: hyper-parameters are real numbers or `None` (a value that is not a finite float is treated like `None`, which no prior produces); an
exception of the model gives NaN; the feasible point of the support is an arbitrary function (property C07 shows it has no effect).
-/

namespace GW.Hybrids
open GW XR GW.PyDict GW.Joint
open GW.Likelihood (FRow)

noncomputable section
open Classical

/-- The keyword argument of `NPowerlawMGaussian` for each flag.  Source: gwkokab/models/hybrids/_npowerlawmgaussian.py lines 403–423. -/
def flagName : Flag → String
  | .betaSpin => "use_beta_spin_magnitude"
  | .spinMixture => "use_spin_magnitude_mixture"
  | .spinX => "use_truncated_normal_spin_x"
  | .spinY => "use_truncated_normal_spin_y"
  | .spinZ => "use_truncated_normal_spin_z"
  | .chiEffMixture => "use_chi_eff_mixture"
  | .chiEffSkew => "use_skew_normal_chi_eff"
  | .chiP => "use_truncated_normal_chi_p"
  | .tilt => "use_tilt"
  | .eccentricity => "use_eccentricity_mixture"
  | .redshift => "use_redshift"
  | .cosIota => "use_cos_iota"
  | .phi12 => "use_phi_12"
  | .polarization => "use_polarization_angle"
  | .rightAscension => "use_right_ascension"
  | .sinDeclination => "use_sin_declination"
  | .detectionTime => "use_detection_time"
  | .phi1 => "use_phi_1"
  | .phi2 => "use_phi_2"
  | .phiOrb => "use_phi_orb"
  | .meanAnomaly => "use_mean_anomaly"

/-- The flags in the dictionary `constants`, with their keys.  Source: gwkanal/n_pls_m_gs/sage.py lines 161–179. -/
def constantFlags : List (Flag × String) :=
  [(.betaSpin, "use_beta_spin_magnitude"), (.spinMixture, "use_spin_magnitude_mixture"), (.spinX, "use_truncated_normal_spin_x"),
   (.spinY, "use_truncated_normal_spin_y"), (.spinZ, "use_truncated_normal_spin_z"), (.chiEffMixture, "use_chi_eff_mixture"),
   (.chiEffSkew, "use_skew_normal_chi_eff"), (.chiP, "use_truncated_normal_chi_p"), (.tilt, "use_tilt"), (.eccentricity, "use_eccentricity_mixture"),
   (.redshift, "use_redshift"), (.cosIota, "use_cos_iota"), (.phi12, "use_phi_12"), (.polarization, "use_polarization_angle"),
   (.rightAscension, "use_right_ascension"), (.sinDeclination, "use_sin_declination"), (.detectionTime, "use_detection_time")]

/-- `constants`; `True` and `False` are the numbers one and zero.  Source: gwkanal/n_pls_m_gs/sage.py lines 157–180. -/
def sageExtra (o : Flag → Bool) (Npl Ng : Nat) : Dict String (Option ℚ) :=
  [("N_pl", some (Npl : ℚ)), ("N_g", some (Ng : ℚ))] ++ constantFlags.map fun f => (f.2, some (if o f.1 then 1 else 0))

/-- A flag among the keyword arguments, `False` if it is not there.  Source: gwkokab/models/hybrids/_npowerlawmgaussian.py lines 403–423. -/
def flagOf (kw : Sage.Kwargs) (f : Flag) : Bool := decide (kw (flagName f) = some (some (fin 1)))

/-- A component number among the keyword arguments.  Source: gwkokab/models/hybrids/_npowerlawmgaussian.py lines 401–402. -/
def countOf (kw : Sage.Kwargs) (name : String) : Nat :=
  match kw name with
  | some (some (fin x)) => ⌊x⌋₊
  | _ => 0

/-- `**params`: the hyper-parameters among the keyword arguments; `names` are the names the analysis passes (`model_parameters`).
Source: gwkokab/models/hybrids/_npowerlawmgaussian.py lines 424–427. -/
def hyperParameters (names : List String) (kw : Sage.Kwargs) : Dict String ℝ :=
  names.filterMap fun n => match kw n with
    | some (some (fin x)) => some (n, x)
    | _ => none

/-- `NPowerlawMGaussian(**constants, **params, validate_args=…)` as the likelihood uses it; `c` is the default cosmology, `big` the largest float, and
`validation` the default of `validate_args` (`enable_validation()`, gwkanal/n_pls_m_gs/sage.py line 656).
Source: gwkokab/models/hybrids/_npowerlawmgaussian.py lines 400–620. -/
def sageModel (c : Cosmo.Cosmology) (big : ℝ) (validation : Bool) (names : List String) (feasible : List FRow → Nat → FRow) (v : Option Bool)
    (kw : Sage.Kwargs) : Likelihood.Model FRow where
  logProb row :=
    match populationModel c big (v.getD validation) (flagOf kw) (countOf kw "N_pl") (countOf kw "N_g") (hyperParameters names kw) with
    | .ok M => M.logProbChecked (v.getD validation) (.many row)
    | .error _ => nan
  feasible := feasible

/-- What the analysis is given besides the data: the prior table, the bucket settings, the observing time and the defaults of the libraries.
Source: gwkanal/n_pls_m_gs/sage.py lines 76–114. -/
structure Settings where
  params : Dict String (Guru.PVal XR)
  cosmology : Cosmo.Cosmology
  big : ℝ
  validation : Bool
  feasible : List FRow → Nat → FRow
  nBuckets : Option Nat
  threshold : ℚ
  tObs : ℝ

/-- The analysis without events: `NPowerlawMGaussianCore(N_pl, N_g, …)` without beta spins, so that `where_fns_list` returns `None`.
Source: gwkanal/n_pls_m_gs/sage.py lines 26–31 and 70–71, 136–154. -/
def sageInputs (s : Settings) (o : Flag → Bool) (Npl Ng : Nat) : Sage.Inputs where
  params := s.params
  extra := sageExtra o Npl Ng
  model := sageModel s.cosmology s.big s.validation (sageModelParameters o Npl Ng) s.feasible
  whereFns := none
  data := []
  refs := []
  nBuckets := s.nBuckets
  threshold := s.threshold
  rate := fun _ => nan
  tObs := s.tObs

/-- What the analysis of Gaussian events is given: as above, the derivatives JAX computes, the file, the seed and the settings of the likelihood.
Source: gwkanal/n_pls_m_gs/monk.py lines 22–85. -/
structure MonkSettings (d : ℕ) where
  params : Dict String (Guru.PVal XR)
  cosmology : Cosmo.Cosmology
  big : ℝ
  validation : Bool
  feasible : List FRow → Nat → FRow
  grad : Sage.Kwargs → (Fin d → ℝ) → Fin d → ℝ
  hess : Sage.Kwargs → (Fin d → ℝ) → Matrix (Fin d) (Fin d) ℝ
  filename : String
  file : List (String × Events.Group)
  tObs : ℝ
  seed : ℕ
  minErr : ℝ
  nMaxSteps : ℕ

/-- The analysis of Gaussian events, before the numbers of draws and the rate estimator are set: `NPowerlawMGaussianMonk`; the likelihood calls the model
without `validate_args`; the declared names and the columns are those of the discrete analysis, word for word.
Source: gwkanal/n_pls_m_gs/monk.py lines 15–477. -/
def monkInputs {d : ℕ} (s : MonkSettings d) (o : Flag → Bool) (Npl Ng : Nat) : Monk.Inputs d where
  params := s.params
  extra := sageExtra o Npl Ng
  model := fun kw x => (sageModel s.cosmology s.big s.validation (sageModelParameters o Npl Ng) s.feasible none kw).logProb ((List.ofFn x).map fin)
  grad := s.grad
  hess := s.hess
  rate := fun _ => nan
  filename := s.filename
  file := s.file
  tObs := s.tObs
  seed := s.seed
  nSamples := 0
  minErr := s.minErr
  nMaxSteps := s.nMaxSteps

end

end GW.Hybrids
