import Verif.Model.HybridDensity
import Verif.Model.Smoothed

/-!
# The smoothed hybrid models as distributions

`NSmoothedPowerlawMSmoothedGaussian` (_o3_n_pls_m_gs.py) and `NBrokenPowerlawMGaussian` (_o4_n_bpls_m_gs.py): `Model/Hybrids` says which classes are
called with which arguments, `Model/HybridDensity` what distributions these are, and `Model/Smoothed` has the wrapper for the mass ratio.
Hyper-parameters are scalar reals; their validation by numpyro is not modelled, neither are samplers.
-/

namespace GW.Hybrids
open GW XR GW.PyDict GW.Joint

noncomputable section
open Classical

/-- `MixtureGeneral(CategoricalProbs(weights), components, support=…).log_prob`: log weights normalised by `log_softmax`, each component masked by its own
support unless it validates its arguments, then `logsumexp`.  The clipping of the log of a weight that is exactly zero is not modelled.
Source: gwkokab/models/hybrids/_o3_n_pls_m_gs.py lines 171–177 and 188–195; gwkokab/models/hybrids/_o4_n_bpls_m_gs.py lines 176–182 and 193–200. -/
def generalMixture {α : Type} (v : Bool) (weights : List ℝ) (cs : List (Mixture.Comp α)) (supp : α → Bool) (x : α) : XR :=
  let logits := weights.map fun w => XR.log (fin w)
  let s := List.zipWith (· + ·) (Spin.logSoftmax logits) (cs.map fun c => Mixture.compTerm (some supp) c x)
  Mass.validated v (supp x) (logsumexp (s.map fun t => if t.isNegInf then ninf else t))

/-- Which popped hyper-parameter is which argument of `_SmoothedPowerlawMassRatioAndRest`.
Source: gwkokab/models/hybrids/_o3_n_pls_m_gs.py lines 197–208; gwkokab/models/hybrids/_o4_n_bpls_m_gs.py lines 202–213. -/
structure Arguments where
  beta : String
  delta1 : String
  delta2 : String
  logRate : String
  m1max : String
  m1min : String
  m2min : String

/-- _o3_n_pls_m_gs.py:197–208. -/
def o3Arguments : Arguments := ⟨"beta", "delta_m", "delta_m", "log_rate", "mmax", "mmin", "mmin"⟩

/-- _o4_n_bpls_m_gs.py:202–213. -/
def o4Arguments : Arguments := ⟨"beta", "delta_m1", "delta_m2", "log_rate", "m1max", "m1min", "m2min"⟩

/-- A popped hyper-parameter.  Source: gwkokab/models/hybrids/_o3_n_pls_m_gs.py lines 124–128; gwkokab/models/hybrids/_o4_n_bpls_m_gs.py lines 127–133. -/
def Smoothed.num (s : Smoothed) (name : String) : ℝ := (get? s.shared name).getD 0

/-- The log density of the mixture of the primary masses, on `interval(m1min, m1max)`; _o3_n_pls_m_gs.py:171–177, _o4_n_bpls_m_gs.py:176–182. -/
def Smoothed.massLogProb (c : Cosmo.Cosmology) (big : ℝ) (v : Bool) (a : Arguments) (s : Smoothed) (m : XR) : XR :=
  generalMixture v s.weights (s.masses.map fun f => Full.component v (.base (block c big v f)))
    (fun x => match x with
      | .one m => Spin.interval (s.num a.m1min) (s.num a.m1max) m
      | .many _ => false) (.one m)

/-- The whole distribution: components, mass mixture and its normalisation, mixture of the primary mass and the rest, wrapper for the mass ratio;
_o3_n_pls_m_gs.py:136–208, _o4_n_bpls_m_gs.py:141–213.  `MixtureGeneral` refuses components of different event shapes. -/
def Smoothed.dist (c : Cosmo.Cosmology) (big : ℝ) (v : Bool) (a : Arguments) (s : Smoothed) : Except Full.Err Mass.AndRest :=
  match joinAll c big v s.components with
  | .error e => .error e
  | .ok ds =>
    if ds.any fun d => ds.any fun e => decide (d.shape ≠ e.shape) then .error (.mixture .shapeMismatch)
    else
      let supp : Slice XR → Bool := fun x => ds.any fun d => (d.support x).getD false
      .ok {
        restSupport := fun r => supp (.many r)
        restLogProb := fun r => generalMixture v s.weights (ds.map (Full.component v)) supp (.many r)
        beta := s.num a.beta
        delta1 := s.num a.delta1
        delta2 := s.num a.delta2
        logRate := s.num a.logRate
        logZ := Mass.mixtureLogZ (s.massLogProb c big v a) (s.num a.delta1) (s.num a.m1min) (s.num a.m1max)
        m1max := s.num a.m1max
        m1min := s.num a.m1min
        m2min := s.num a.m2min
        validate := v }

/-- The look-ups, then the distribution.  Source: gwkokab/models/hybrids/_o3_n_pls_m_gs.py lines 109–208. -/
def smoothedPopulation (c : Cosmo.Cosmology) (big : ℝ) (v : Bool) (a : Arguments) (built : Except Err Smoothed) : Except BuildErr Mass.AndRest :=
  match built with
  | .error e => .error (.lookup e)
  | .ok s => match s.dist c big v a with
    | .error e => .error (.build e)
    | .ok d => .ok d

/-- `NSmoothedPowerlawMSmoothedGaussian(…)` as a distribution, _o3_n_pls_m_gs.py:109–208. -/
def o3Population (c : Cosmo.Cosmology) (big : ℝ) (v : Bool) (use : Flag → Bool) (Npl Ng : Nat) (params : Dict String ℝ) : Except BuildErr Mass.AndRest :=
  smoothedPopulation c big v o3Arguments (nSmoothedPowerlawMSmoothedGaussian use Npl Ng params)

/-- `NBrokenPowerlawMGaussian(…)` as a distribution, _o4_n_bpls_m_gs.py:112–213. -/
def o4Population (c : Cosmo.Cosmology) (big : ℝ) (v : Bool) (use : Flag → Bool) (Nbpl Ng : Nat) (params : Dict String ℝ) : Except BuildErr Mass.AndRest :=
  smoothedPopulation c big v o4Arguments (nBrokenPowerlawMGaussian use Nbpl Ng params)

end

end GW.Hybrids
