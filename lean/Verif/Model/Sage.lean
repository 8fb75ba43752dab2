import Verif.Model.Guru
import Verif.Model.Likelihood
import Verif.Model.MassModels

/-!
# The discrete-data analysis, from its inputs to the function handed to the sampler

Model of `Sage.run`, `/repo/src/gwkanal/core/sage.py`, up to the call of the driver, with the two likelihoods it can be given
(`flowMC_poisson_likelihood`, `numpyro_poisson_likelihood`).  The pieces are the models of the other files: `Guru.setup`, `Joint.mkJoint`,
`Lazy.mkLazy`, `Likelihood.readData`, `Likelihood.Setup`.

Simplifications: the files are read already (processed prior table, posterior samples, rate estimator); the population model is an arbitrary function of
its keyword arguments and of `validate_args`, and likewise the where-functions; a constant is the real number of its rational value; log messages and the
two JSON files are not modelled.  An error raised when the sampler first evaluates the function is reported by `run`.
-/

namespace GW.Sage
open GW PyDict Joint
open GW.Lazy (Marg LazyJoint mkLazy kwargs)
open GW.Guru (PVal)
open GW.Likelihood (FRow)

/-- Keyword arguments: absent, `None`, or a number.  Source: gwkanal/core/sage.py lines 227–231. -/
abbrev Kwargs := String → Option (Option XR)

/-- The inputs of an analysis: the processed prior table, the constants of the model, the population model (by `validate_args`), the where-functions, the
samples and log reference priors of the events, the bucket settings, and the rate estimator with its observing time.
Source: gwkanal/core/sage.py lines 32–60 and 164–181. -/
structure Inputs where
  params : Dict String (PVal XR)
  extra : Dict String (Option ℚ)
  model : Option Bool → Kwargs → Likelihood.Model FRow
  whereFns : Option (List (Kwargs → Bool))
  data : List (Jenks.Arr FRow)
  refs : List (Jenks.Arr FRow)
  nBuckets : Option Nat
  threshold : ℚ
  rate : (Likelihood.Model FRow → XR)
  tObs : ℝ

/-- What can stop the run: a prior table that is refused, marginals that do not make a joint, data that is refused, and a name that is both a constant and
sampled (`dist_fn(**constants, **mapped_params)`, gwkokab/inference/poissonlikelihood_flowMC.py line 78). -/
inductive Err where
  | priors (e : Tools.Err)
  | joint
  | data (e : Jenks.Err)
  | repeatedKeyword
deriving DecidableEq

/-- The prior distribution as the likelihood uses it.  Source: gwkokab/inference/poissonlikelihood_flowMC.py lines 111 and 129. -/
structure Prior where
  logProb : List XR → XR
  support : List XR → Bool

/-- `log_prob` and `support.check` of a joint distribution built with `validate_args=True`.  Source: gwkokab/models/utils/_joindistribution.py lines 132–148
and gwkokab/models/utils/_lazyjointdistribution.py lines 219–243 (`@validate_sample`). -/
noncomputable def checkedPrior (support : List XR → Option Bool) (logProb : List XR → Option XR) : Prior :=
  ⟨fun x => Mass.validated true ((support x).getD false) ((logProb x).getD .nan), fun x => (support x).getD false⟩

/-- The marginals as distributions, `none` if one of them is a partial.  Source: gwkanal/core/guru.py lines 315–319. -/
def allDists : List (Marg XR) → Option (List (Base XR))
  | [] => some []
  | .dist b :: ms => (allDists ms).map (b :: ·)
  | .part _ :: _ => none

/-- The prior built by `classify_model_parameters`.  Source: gwkanal/core/guru.py lines 314–333. -/
noncomputable def prior (s : Guru.Setup XR) : Except Err Prior :=
  match s.lazy with
  | none =>
    match allDists s.marginals with
    | none => .error .joint
    | some bs =>
      match mkJoint (bs.map Dist.base) .none none with
      | .error _ => .error .joint
      | .ok d => .ok (checkedPrior (fun x => d.support (.many x)) fun x => d.logProb (.many x))
  | some (deps, order) =>
    match mkLazy s.marginals (some deps) order none none with
    | .error _ => .error .joint
    | .ok d => .ok (checkedPrior d.support d.logProb)

/-- `**constants, **mapped_params` as the callee sees it: `args` are the numbers, the constants bound to `None` come on top.
Source: gwkokab/inference/poissonlikelihood_flowMC.py line 78. -/
def kwargsOf (constants : Dict String (Option ℚ)) (args : List (String × XR)) : Kwargs := fun n =>
  match get? args n with
  | some v => some (some v)
  | none => if get? constants n = some none then some none else none

/-- A constant as the float the model receives.  Source: gwkanal/core/guru.py lines 151–152. -/
noncomputable def num (q : ℚ) : XR := .fin (q : ℝ)

/-- The constants that are numbers.  Source: gwkanal/core/guru.py lines 287, 334. -/
noncomputable def numbers (constants : Dict String (Option ℚ)) : List (String × XR) :=
  constants.filterMap fun p => p.2.map fun q => (p.1, num q)

/-- The likelihood closure.  Source: gwkanal/core/sage.py lines 183–198; `log_constants` is increased by `n_events * np.log(T_obs)` in line 183. -/
noncomputable def closure (inp : Inputs) (validate : Option Bool) (s : Guru.Setup XR) (pr : Prior) (logConstants : ℝ) : Likelihood.Setup FRow where
  distFn := fun args => inp.model validate (kwargsOf s.constants args)
  priorLogProb := pr.logProb
  priorSupport := pr.support
  variablesIndex := s.index
  logConstants := .fin logConstants + .fin inp.data.length * XR.log (.fin inp.tObs)
  poissonMean := inp.rate
  whereFns := inp.whereFns.map fun fns => fns.map fun f args => f (kwargsOf s.constants args)
  constants := numbers s.constants

/-- The sites of the independent variables: one `numpyro.sample` per distribution.  Source: gwkokab/inference/poissonlikelihood_numpyro.py lines 101–106 and 124–127. -/
noncomputable def sitesInd : Nat → List (Marg XR) → List XR → XR
  | _, [], _ => 0
  | i, .dist b :: ms, x => b.logProb (.one (x.getD i .nan)) + sitesInd (i + 1) ms x
  | i, .part _ :: ms, x => sitesInd (i + 1) ms x

/-- The sites of the lazy variables in the given order; a dependency that has not been sampled yet is still a pair of name and partial, which no
distribution accepts.  Source: gwkokab/inference/poissonlikelihood_numpyro.py lines 108–121. -/
noncomputable def sitesLazy (ms : List (Marg XR)) (deps : List (Nat × List (String × Nat))) (x : List XR) : List Nat → List Nat → Option XR
  | [], _ => some 0
  | i :: is, done => do
    let dep ← deps.lookup i
    let kw ← kwargs (fun v => if v ∈ done then (x[v]?).map ([·]) else none) dep
    match ms[i]? with
    | some (.part f) =>
      let r ← sitesLazy ms deps x is (i :: done)
      pure ((f kw).logProb (.one (x.getD i .nan)) + r)
    | _ => none

/-- The indices of the variables sampled by the first comprehension.  Source: gwkokab/inference/poissonlikelihood_numpyro.py lines 101–106. -/
def independent : Nat → List (Marg XR) → List Nat
  | _, [] => []
  | i, .dist _ :: ms => i :: independent (i + 1) ms
  | i, .part _ :: ms => independent (i + 1) ms

/-- Log density of all sample sites together.  Source: gwkokab/inference/poissonlikelihood_numpyro.py lines 100–127. -/
noncomputable def sites (s : Guru.Setup XR) (x : List XR) : Option XR :=
  match s.lazy with
  | none => match allDists s.marginals with
    | none => none
    | some _ => some (sitesInd 0 s.marginals x)
  | some (deps, order) => do
    let r ← sitesLazy s.marginals deps x order (independent 0 s.marginals)
    pure (sitesInd 0 s.marginals x + r)

/-- What the driver receives: the labels of the columns, the log density for flowMC (lines 200–209), and for numpyro the log density of the sample sites plus
the factor (`big` is the largest float).  Source: gwkanal/core/sage.py lines 186–209. -/
structure Analysis where
  labels : List String
  flowMC : List XR → XR
  numpyro : ℝ → List XR → Option XR

/-- `Sage.run` up to the driver.  Source: gwkanal/core/sage.py lines 157–209. -/
noncomputable def run (ord : List String → List String) (orc : Jenks.Oracle) (inp : Inputs) : Except Err Analysis :=
  match Guru.setup ord inp.params inp.extra with
  | .error e => .error (.priors e)
  | .ok s =>
    match prior s with
    | .error e => .error e
    | .ok pr =>
      match Likelihood.readData orc inp.data inp.refs inp.nBuckets inp.threshold with
      | .error e => .error (.data e)
      | .ok (c, buckets) =>
        if (keys s.constants).any (· ∈ keys s.index) then .error .repeatedKeyword
        else .ok {
          labels := s.names
          flowMC := fun x => (closure inp none s pr c).flowMC x buckets
          numpyro := fun big x => (sites s x).map fun l => l + (closure inp (some true) s pr c).numpyroFactor big x buckets }

end GW.Sage
