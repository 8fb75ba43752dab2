import Verif.Model.HybridSage
import Verif.Model.SmoothedDensity

/-!
# The smoothed analyses

What `NSmoothedPowerlawMSmoothedGaussianCore` (`/repo/src/gwkanal/o3_n_pls_m_gs/sage.py`) and `NBrokenPowerlawMGaussianCore`
(`/repo/src/gwkanal/o4_n_bpls_m_gs/sage.py`) hand to `Sage.__init__`, with the simplifications of `Model/HybridSage`.
-/

namespace GW.Hybrids
open GW XR GW.PyDict GW.Joint
open GW.Likelihood (FRow)

noncomputable section
open Classical

/-- The two analyses: gwkanal/o3_n_pls_m_gs/sage.py lines 59–60 and gwkanal/o4_n_bpls_m_gs/sage.py lines 59–60. -/
inductive Smoother
  | o3 | o4

/-- The keyword argument with the number of power laws.  Source: gwkokab/models/hybrids/_o3_n_pls_m_gs.py line 110; gwkokab/models/hybrids/_o4_n_bpls_m_gs.py line 113. -/
def Smoother.body : Smoother → String
  | .o3 => "N_pl"
  | .o4 => "N_bpl"

/-- The flags that are keyword arguments of the models.  Source: gwkokab/models/hybrids/_o3_n_pls_m_gs.py lines 112–119; gwkokab/models/hybrids/_o4_n_bpls_m_gs.py lines 115–122. -/
def smoothedFlags : List Flag := [.betaSpin, .spinMixture, .chiEffMixture, .chiEffSkew, .chiP, .tilt, .eccentricity, .redshift]

/-- The flags in the dictionary `constants`, with their keys.  Source: gwkanal/o3_n_pls_m_gs/sage.py lines 131–138; gwkanal/o4_n_bpls_m_gs/sage.py lines 131–138. -/
def smoothedConstants : List (Flag × String) :=
  [(.betaSpin, "use_beta_spin_magnitude"), (.spinMixture, "use_spin_magnitude_mixture"), (.chiEffMixture, "use_chi_eff_mixture"),
   (.chiEffSkew, "use_skew_normal_chi_eff"), (.chiP, "use_truncated_normal_chi_p"), (.tilt, "use_tilt"), (.eccentricity, "use_eccentricity_mixture"),
   (.redshift, "use_redshift")]

/-- The key of the number of power laws in `constants`.  Source: gwkanal/o3_n_pls_m_gs/sage.py line 129; gwkanal/o4_n_bpls_m_gs/sage.py line 129. -/
def Smoother.bodyKey : Smoother → String
  | .o3 => "N_pl"
  | .o4 => "N_bpl"

/-- `constants`; `True` and `False` are the numbers one and zero.  Source: gwkanal/o3_n_pls_m_gs/sage.py lines 126–139; gwkanal/o4_n_bpls_m_gs/sage.py lines 126–139. -/
def smoothedExtra (a : Smoother) (o : Flag → Bool) (Nb Ng : Nat) : Dict String (Option ℚ) :=
  [(a.bodyKey, some (Nb : ℚ)), ("N_g", some (Ng : ℚ))] ++ smoothedConstants.map fun f => (f.2, some (if o f.1 then 1 else 0))

/-- `model_parameters`.  Source: gwkanal/o3_n_pls_m_gs/sage.py lines 160–340; gwkanal/o4_n_bpls_m_gs/sage.py lines 160–344. -/
def Smoother.parameters (a : Smoother) (o : Flag → Bool) (Nb Ng : Nat) : List String := match a with
  | .o3 => o3ModelParameters o Nb Ng
  | .o4 => o4ModelParameters o Nb Ng

/-- The model.  Source: gwkanal/o3_n_pls_m_gs/sage.py line 110; gwkanal/o4_n_bpls_m_gs/sage.py line 110. -/
def Smoother.population (a : Smoother) (c : Cosmo.Cosmology) (big : ℝ) (v : Bool) (use : Flag → Bool) (Nb Ng : Nat) (params : Dict String ℝ) :
    Except BuildErr Mass.AndRest := match a with
  | .o3 => o3Population c big v use Nb Ng params
  | .o4 => o4Population c big v use Nb Ng params

/-- A flag among the keyword arguments; the models have no others.  Source: gwkokab/models/hybrids/_o3_n_pls_m_gs.py lines 112–119. -/
def smoothedFlagOf (kw : Sage.Kwargs) (f : Flag) : Bool := decide (f ∈ smoothedFlags) && flagOf kw f

/-- The model called with the keyword arguments, as the likelihood uses it: the last entry of a row is the mass ratio.
Source: gwkokab/models/hybrids/_o3_n_pls_m_gs.py lines 109–208; gwkokab/models/hybrids/_o4_n_bpls_m_gs.py lines 112–213; gwkokab/models/hybrids/_utils.py lines 190–208. -/
def smoothedSageModel (a : Smoother) (c : Cosmo.Cosmology) (big : ℝ) (validation : Bool) (names : List String) (feasible : List FRow → Nat → FRow) (v : Option Bool)
    (kw : Sage.Kwargs) : Likelihood.Model FRow where
  logProb row :=
    match a.population c big (v.getD validation) (smoothedFlagOf kw) (countOf kw a.body) (countOf kw "N_g") (hyperParameters names kw) with
    | .ok d => d.logProb row.dropLast (row.getLastD nan)
    | .error _ => nan
  feasible := feasible

/-- The word for the power laws in the names the check reads.  Source: gwkanal/o3_n_pls_m_gs/sage.py lines 37–42; gwkanal/o4_n_bpls_m_gs/sage.py lines 37–42. -/
def Smoother.kind : Smoother → String
  | .o3 => "pl"
  | .o4 => "bpl"

/-- `positive_concentration`: the conjunction of the checks of the primary spins of all components.  Simplification: a missing or infinite number, with which
the code raises or the priors reject, counts as a failed check.
Source: gwkanal/o3_n_pls_m_gs/sage.py lines 32–52; gwkanal/o4_n_bpls_m_gs/sage.py lines 32–52; gwkanal/utils/checks.py lines 11–53. -/
def positiveConcentration (a : Smoother) (names : List String) (kw : Sage.Kwargs) : Bool :=
  match positiveConcentrationReads a.kind (countOf kw a.body) (countOf kw "N_g") (hyperParameters names kw) with
  | .ok l => l.all fun p => Beta.check p.1 p.2 1 1
  | .error _ => false

/-- The analysis without events; `where_fns_list` gives the check of the spins if they have beta laws, else `None`.
Source: gwkanal/o3_n_pls_m_gs/sage.py lines 25–56 and 108–124; gwkanal/o4_n_bpls_m_gs/sage.py lines 25–56 and 108–124. -/
def smoothedInputs (a : Smoother) (s : Settings) (o : Flag → Bool) (Nb Ng : Nat) : Sage.Inputs where
  params := s.params
  extra := smoothedExtra a o Nb Ng
  model := smoothedSageModel a s.cosmology s.big s.validation (a.parameters o Nb Ng) s.feasible
  whereFns := if o .betaSpin then some [positiveConcentration a (a.parameters o Nb Ng)] else none
  data := []
  refs := []
  nBuckets := s.nBuckets
  threshold := s.threshold
  rate := fun _ => nan
  tObs := s.tObs

end
end GW.Hybrids
