import Verif.Model.Ppd
import Verif.Model.Mixture
import Verif.Model.Hybrids
import Verif.Lemmas.XR

/-!
# The densities of a posterior predictive computation

Model of `compute_probs` and of its use by `compute_and_save_ppd` in `/repo/src/gwkanal/utils/ppd.py`, for the model class
`NPowerlawMGaussian`.
-/

namespace GW.Ppd
open PyDict (Dict get?)
open GW.Tools (Err)
open GW.Mixture (Comp Mix mkMix)
open GW.Hybrids (Factor Flag nPowerlawMGaussian)

/-- `params[v]` for one row of posterior samples: an index beyond the end reads the last entry, as JAX arrays do.
Source: gwkanal/utils/ppd.py line 85. -/
def entry {V} (row : List V) (v : Nat) : Except Err V :=
  match row[min v (row.length - 1)]? with
  | some x => .ok x
  | none => .error .index

/-- `{k: params[v] for k, v in nf_samples_mapping.items()}`.  Source: gwkanal/utils/ppd.py line 85. -/
def sampled {V} (row : List V) : Dict String Nat → Except Err (Dict String V)
  | [] => .ok []
  | (k, v) :: rest =>
    match entry row v with
    | .error e => .error e
    | .ok x => match sampled row rest with
      | .error e => .error e
      | .ok d => .ok ((k, x) :: d)

/-- The keyword arguments of `model(**constants, **{…})`: a name given twice is a `TypeError`.
Source: gwkanal/utils/ppd.py lines 83–87. -/
def arguments {V} (constants : Dict String V) (mapping : Dict String Nat) (row : List V) : Except Err (Dict String V) :=
  match sampled row mapping with
  | .error e => .error e
  | .ok d => if (PyDict.keys d).any fun k => (PyDict.keys constants).contains k then .error .type else .ok (constants ++ d)

/-- The mixture `NPowerlawMGaussian` returns; `den` is the joint distribution of a component's factors, and the support is the union of the
components' supports.  Source: gwkokab/models/hybrids/_npowerlawmgaussian.py lines 603–620. -/
def mixture (den : List Factor → Comp (List ℝ)) (m : Hybrids.Mixture) : Except Mixture.Err (Mix (List ℝ)) :=
  mkMix (m.logRates.map XR.fin) (m.components.map den) (some fun x => (m.components.map den).any fun d => d.support x)

/-- `model(**arguments, validate_args=True).log_prob` for the model class `NPowerlawMGaussian`; exceptions of the constructors are recorded as
`ValueError`.  Source: gwkanal/utils/ppd.py lines 83–87, gwkokab/models/hybrids/_npowerlawmgaussian.py lines 400–620. -/
noncomputable def logpdf (use : Flag → Bool) (Npl Ng : Nat) (den : List Factor → Comp (List ℝ)) (kwargs : Dict String ℝ) :
    Except Err (List ℝ → XR) :=
  match nPowerlawMGaussian use Npl Ng kwargs with
  | .error _ => .error .valueError
  | .ok m => match mixture den m with
    | .error _ => .error .valueError
    | .ok mix => .ok (mix.logProbChecked true)

/-- `compute_probs`: the density of the model of one posterior sample, as a function of the grid point.  `jax.lax.map` with a batch size is a map.
Source: gwkanal/utils/ppd.py lines 50–96. -/
noncomputable def computeProbs (model : Dict String ℝ → Except Err (List ℝ → XR)) (constants : Dict String ℝ) (mapping : Dict String Nat)
    (row : List ℝ) : Except Err (List ℝ → ℝ) :=
  match arguments constants mapping row with
  | .error e => .error e
  | .ok kwargs => match model kwargs with
    | .error e => .error e
    | .ok lp => .ok fun x => (lp x).expR

/-- `compute_and_save_ppd`: one density per posterior sample, then the file.  Source: gwkanal/utils/ppd.py lines 203–259. -/
noncomputable def ppd (model : Dict String ℝ → Except Err (List ℝ → XR)) (rows : List (List ℝ)) (mapping : Dict String Nat)
    (constants : Dict String ℝ) (domains : List Domain) (parameters : List String) : Except Err PpdFile :=
  match rows.mapM (computeProbs model constants mapping) with
  | .error e => .error e
  | .ok ds => computeAndSave (fun s x => (ds[s]?.getD fun _ => 0) x) rows.length domains parameters

/-- A predictive density as it is meant to be computed: the rates are wiped, then the densities are averaged.
Source: gwkanal/utils/ppd.py lines 18–48 and 203–259. -/
noncomputable def predictive (model : Dict String ℝ → Except Err (List ℝ → XR)) (width : Nat) (rows : List (List ℝ))
    (mapping : Dict String Nat) (constants : Dict String ℝ) (domains : List Domain) (parameters : List String) : Except Err PpdFile :=
  match wipeLogRate 0 width rows mapping constants with
  | .error e => .error e
  | .ok (_, rows, mapping, constants) => ppd model rows mapping constants domains parameters

end GW.Ppd
