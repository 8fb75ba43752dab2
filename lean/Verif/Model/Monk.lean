import Verif.Model.Sage
import Verif.Model.LaplaceFit
import Verif.Model.Events
import Verif.Model.Rng

/-!
# The analysis of Gaussian events, from its inputs to the function handed to the sampler

Model of `Monk.run`, `/repo/src/gwkanal/core/monk.py` lines 143–198, with `analytical_likelihood`.

Simplifications: as for `Sage`; `grad` and `hess` are the derivatives JAX computes; the entries of the HDF5 file are finite numbers (other ones are an error
here) and `d` is the dimension of the events.
-/

namespace GW.Monk
open GW PyDict
open GW.Guru (PVal)
open GW.Sage (Kwargs Prior prior kwargsOf numbers)
open GW.Analytic (Event laplaceFit logPosterior)

noncomputable section

/-- The inputs: processed prior table, constants of the model, log density of the population with gradient and Hessian, expected number of events, HDF5 file,
observing time, seed, and the settings of the likelihood.  Source: gwkanal/core/monk.py lines 79–96. -/
structure Inputs (d : ℕ) where
  params : Dict String (PVal XR)
  extra : Dict String (Option ℚ)
  model : Kwargs → (Fin d → ℝ) → XR
  grad : Kwargs → (Fin d → ℝ) → Fin d → ℝ
  hess : Kwargs → (Fin d → ℝ) → Matrix (Fin d) (Fin d) ℝ
  rate : Kwargs → XR
  filename : String
  file : List (String × Events.Group)
  tObs : ℝ
  seed : ℕ
  nSamples : ℕ
  minErr : ℝ
  nMaxSteps : ℕ

/-- What can stop the run.  Source: gwkanal/core/monk.py lines 145–177. -/
inductive Err where
  | priors (e : Tools.Err)
  | joint
  | file (e : Events.Err)
  | stack
  | repeatedKeyword
deriving DecidableEq

/-- A finite entry of a dataset.  Source: gwkanal/core/monk.py lines 60–61. -/
def real : XR → ℝ
  | .fin r => r
  | _ => 0

/-- `x` is finite.  Source: gwkanal/core/monk.py lines 60–61. -/
def isFin : XR → Bool
  | .fin _ => true
  | _ => false

/-- One row of `jnp.stack(list_of_means)` and of `np.stack(list_of_covariances)`, if it has the common shape.
Source: gwkanal/core/monk.py lines 150–153.  Simplification: events are vectors and matrices of real numbers, so a file with an entry that is infinite or
NaN is not modelled: it is treated as one that cannot be stacked, while the code would go on with it. -/
def event (d : ℕ) (m : List XR) (c : List (List XR)) : Option ((Fin d → ℝ) × Matrix (Fin d) (Fin d) ℝ) :=
  if m.length = d ∧ m.all isFin ∧ c.length = d ∧ c.all (fun row => row.length = d ∧ row.all isFin) then
    some (fun i => real (m.getD i .nan), fun i j => real ((c.getD i []).getD j .nan))
  else none

/-- The stacks; `jnp.stack` refuses an empty list and arrays of different shapes.  Source: gwkanal/core/monk.py lines 150–153. -/
def stack (d : ℕ) (ms : List (List XR)) (cs : List (List (List XR))) : Except Err (List ((Fin d → ℝ) × Matrix (Fin d) (Fin d) ℝ)) :=
  if ms.isEmpty then .error .stack
  else match (ms.zip cs).mapM fun p => event d p.1 p.2 with
    | none => .error .stack
    | some es => .ok es

/-- `variables_index` applied to a vector.  Source: gwkokab/inference/analyticallikelihood.py lines 286–289. -/
def mapParams (index : Dict String Nat) (x : List XR) : List (String × XR) := index.map fun p => (p.1, x.getD (min p.2 (x.length - 1)) 0)

/-- `log_likelihood_fn`: the keyword arguments, the fits of all events, the posterior.  Source: gwkokab/inference/analyticallikelihood.py lines 281–434;
`chol` is `jnp.linalg.cholesky` (gwkanal/core/monk.py line 154), `normals` is `jrd.normal` by key. -/
def logLikelihoodFn {d : ℕ} (inp : Inputs d) (chol : Matrix (Fin d) (Fin d) ℝ → Matrix (Fin d) (Fin d) ℝ) (normals : Key → List (Fin d → ℝ)) (s : Guru.Setup XR)
    (pr : Prior) (key : Key) (events : List ((Fin d → ℝ) × Matrix (Fin d) (Fin d) ℝ)) (x : List XR) : XR :=
  let kw := kwargsOf s.constants (numbers s.constants ++ mapParams s.index x)
  logPosterior inp.nSamples inp.nMaxSteps inp.minErr inp.tObs (inp.model kw) normals (inp.rate kw) (pr.logProb x) key
    (events.map fun e =>
      let ev : Event d := ⟨e.1, chol e.2⟩
      (ev, laplaceFit chol ev (inp.grad kw e.1) (inp.hess kw e.1)))

/-- What the driver receives.  Source: gwkanal/core/monk.py lines 189–198. -/
structure Analysis where
  labels : List String
  logpdf : List XR → XR

/-- The key of the likelihood: `self.rng_key` is read a first time for the rate estimator (line 164) and a second time here.
Source: gwkanal/core/monk.py lines 129 and 174. -/
def likelihoodKey (seed : ℕ) : Except Tools.Err Key :=
  match Rng.setRngKey none (some (some seed)) {} with
  | .error e => .error e
  | .ok st =>
    match Rng.rngKey st with
    | .error e => .error e
    | .ok (_, st') =>
      match Rng.rngKey st' with
      | .error e => .error e
      | .ok (k, _) => .ok k

/-- `Monk.run` up to the driver.  Source: gwkanal/core/monk.py lines 143–198. -/
def run {d : ℕ} (ord : List String → List String) (chol : Matrix (Fin d) (Fin d) ℝ → Matrix (Fin d) (Fin d) ℝ) (normals : Key → List (Fin d → ℝ)) (inp : Inputs d) :
    Except Err Analysis :=
  match Guru.setup ord inp.params inp.extra with
  | .error e => .error (.priors e)
  | .ok s =>
    match prior s with
    | .error _ => .error .joint
    | .ok pr =>
      match Events.readMeanCovariances inp.filename inp.file with
      | .error e => .error (.file e)
      | .ok (ms, cs) =>
        match stack d ms cs with
        | .error e => .error e
        | .ok events =>
          match likelihoodKey inp.seed with
          | .error e => .error (.priors e)
          | .ok key =>
            if (keys s.constants).any (· ∈ keys s.index) then .error .repeatedKeyword
            else .ok { labels := s.names, logpdf := logLikelihoodFn inp chol normals s pr key events }

end
end GW.Monk
