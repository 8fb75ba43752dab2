import Verif.Model.XR
import Verif.Model.Jenks

/-!
# Discrete Poisson likelihood

Model of `/repo/src/gwkokab/inference/poissonlikelihood_flowMC.py`, `poissonlikelihood_numpyro.py`,
`poissonlikelihood_utils.py` and of `read_data` in `/repo/src/gwkanal/core/sage.py`.

Simplifications: numbers are `XR`; a model instance is an arbitrary pair (log density, feasible point);
`jit` is the identity.  numpyro's effect handlers (`sample`, `factor`) are not modelled, only the number passed to
`factor`.
-/

namespace GW.Likelihood
open GW

/-- A model instance as used by the likelihood: `log_prob` and `support.feasible_like` (the value at each sample
position, computed from the first event of the bucket).  Source: gwkokab/inference/poissonlikelihood_flowMC.py lines 83–99. -/
structure Model (θ : Type) where
  logProb : θ → XR
  feasible : List θ → Nat → θ

/-- One bucket: stacked data, log reference priors and masks (rows = events).  Source: gwkokab/inference/poissonlikelihood_flowMC.py lines 72–85. -/
structure Bucket (θ : Type) where
  data : List (List θ)
  refs : List (List XR)
  masks : List (List Bool)

/-- Lines 88-99 for one sample position: `safe_data`, model log prob, minus reference prior, masked. -/
def sampleTerm {θ} (M : Model θ) (fp : Nat → θ) (i : Nat) (d : θ) (r : XR) (m : Bool) : XR :=
  let safe := if m then d else fp i
  let lp := M.logProb safe - r
  if m then lp else .ninf

/-- `log_prob` of one event row after masking (lines 88-99), position by position. -/
def rowTerms {θ} (M : Model θ) (fp : Nat → θ) : Nat → List θ → List XR → List Bool → List XR
  | i, d :: ds, r :: rs, m :: ms => sampleTerm M fp i d r m :: rowTerms M fp (i + 1) ds rs ms
  | _, _, _, _ => []

/-- The events of a bucket, one `logsumexp` each (lines 101-104). -/
noncomputable def bucketTerms {θ} (M : Model θ) (fp : Nat → θ) :
    List (List θ) → List (List XR) → List (List Bool) → List XR
  | d :: ds, r :: rs, m :: ms => XR.logsumexp (rowTerms M fp 0 d r m) :: bucketTerms M fp ds rs ms
  | _, _, _ => []

/-- The contribution of one bucket (lines 86-104): `.sum(axis=0, initial=0.0)`. -/
noncomputable def bucketSum {θ} (M : Model θ) (b : Bucket θ) : XR :=
  XR.sum (bucketTerms M (M.feasible (b.data.headD [])) b.data b.refs b.masks)

/-- `total_log_likelihood` after the loop over buckets (lines 80-104). -/
noncomputable def totalLogLikelihood {θ} (M : Model θ) (logConstants : XR) (bs : List (Bucket θ)) : XR :=
  bs.foldl (fun acc b => acc + bucketSum M b) logConstants

/-- The ingredients captured by the closure (lines 20-29). -/
structure Setup (θ : Type) where
  distFn : List (String × XR) → Model θ
  priorLogProb : List XR → XR
  priorSupport : List XR → Bool
  variablesIndex : List (String × Nat)
  logConstants : XR
  poissonMean : Model θ → XR
  whereFns : Option (List (List (String × XR) → Bool))
  constants : List (String × XR)

/-- `_map_params` (lines 66-70); `dynamic_index_in_dim` clamps the index into the array. -/
def Setup.mapParams {θ} (S : Setup θ) (x : List XR) : List (String × XR) :=
  S.variablesIndex.map fun p => (p.1, x.getD (min p.2 (x.length - 1)) 0)

/-- `likelihood_fn` (lines 72-121). -/
noncomputable def Setup.likelihoodFn {θ} (S : Setup θ) (x : List XR) (bs : List (Bucket θ)) : XR :=
  let model := S.distFn (S.constants ++ S.mapParams x)
  let total := totalLogLikelihood model S.logConstants bs
  let logLikelihood := total - S.poissonMean model
  let logPosterior := S.priorLogProb x + logLikelihood
  XR.nanToNum .ninf .ninf .ninf logPosterior

/-- The predicate of lines 130-135: prior support, where-functions in order, finiteness of `x`. -/
def Setup.predicate {θ} (S : Setup θ) (fns : List (List (String × XR) → Bool)) (x : List XR) : Bool :=
  let p := fns.foldl (fun p f => p && f (S.constants ++ S.mapParams x)) (S.priorSupport x)
  x.all XR.isFinite && p

/-- The function returned by `flowMC_poisson_likelihood` (lines 123-138). -/
noncomputable def Setup.flowMC {θ} (S : Setup θ) (x : List XR) (bs : List (Bucket θ)) : XR :=
  match S.whereFns with
  | none => S.likelihoodFn x bs
  | some fns => if S.predicate fns x then S.likelihoodFn x bs else .ninf

/-- `_log_likelihood_core` of poissonlikelihood_numpyro.py (lines 38-93). -/
noncomputable def Setup.numpyroCore {θ} (S : Setup θ) (x : List XR) (bs : List (Bucket θ)) : XR :=
  let model := S.distFn (S.constants ++ S.mapParams x)
  let total := totalLogLikelihood model S.logConstants bs
  XR.nanToNum .ninf .ninf .ninf (total - S.poissonMean model)

/-- The number passed to `numpyro.factor` (poissonlikelihood_numpyro.py lines 130-151); `big` is
`jnp.finfo(dtype).max`, used by the defaults of `nan_to_num` for `posinf`/`neginf`. -/
noncomputable def Setup.numpyroFactor {θ} (S : Setup θ) (big : ℝ) (x : List XR) (bs : List (Bucket θ)) : XR :=
  let ll := S.numpyroCore x bs
  let ll := match S.whereFns with
    | none => ll
    | some [] => ll
    | some (f :: fs) =>
      if fs.foldl (fun p g => p && g (S.constants ++ S.mapParams x)) (f (S.constants ++ S.mapParams x))
      then ll else .ninf
  XR.nanToNum .ninf (.fin big) (.fin (-big)) ll

/-- Rows of an array of floats: a sample of a `(n, d)` array is a list of `d` numbers, an entry of a `(n,)` array
is a one-element list.  Source: gwkokab/inference/poissonlikelihood_utils.py lines 30–50. -/
abbrev FRow := List XR

/-- `read_data` (sage.py lines 105-130 and 152-155): bucket the events together with their log reference
priors, zero the padded reference priors, collect the buckets; the constant is `-Σ log(n_samples)`. -/
noncomputable def readData (orc : Jenks.Oracle) (data refs : List (Jenks.Arr FRow)) (nBuckets : Option Nat)
    (threshold : ℚ) : Except Jenks.Err (ℝ × List (Bucket FRow)) :=
  if data.length ≠ refs.length then .error .other
  else
    match Jenks.padAndStack orc (fun w => List.replicate w 0) [data, refs] nBuckets threshold with
    | .ok ([dg, rg], mg) =>
      let rg := List.zipWith (fun mrow rrow => List.zipWith (fun ms rs =>
        List.zipWith (fun (m : Bool) (r : FRow) => if m then r.headD 0 else 0) ms rs) mrow rrow) mg rg
      let buckets := List.zipWith (fun d (p : List (List XR) × List (List Bool)) => ⟨d, p.1, p.2⟩) dg (rg.zip mg)
      .ok (-(data.map fun d => Real.log d.rows.length).sum, buckets)
    | .ok _ => .error .other
    | .error e => .error e

/-- `variance_of_single_event_likelihood` for one event (poissonlikelihood_utils.py lines 33-73), on the
rows of a bucket; `n / 0` follows IEEE. -/
noncomputable def eventVariance {θ} (M : Model θ) (fp : Nat → θ) (d : List θ) (r : List XR) (m : List Bool) : XR :=
  let rec terms : Nat → List θ → List XR → List Bool → List XR
    | i, d :: ds, r :: rs, m :: ms =>
      let safe := if m then d else fp i
      let safeRef := if m then r else 0
      let modelLp := if m then M.logProb safe else .ninf
      let lp := modelLp - safeRef
      (if m && !lp.isNan then lp else .ninf) :: terms (i + 1) ds rs ms
    | _, _, _, _ => []
  let t := terms 0 d r m
  let lse := XR.logsumexpWhere (t.map fun a => (a, !a.isNegInf))
  let lse2 := XR.logsumexpWhere (t.map fun a => (.fin 2 * a, !a.isNegInf))
  let s := if lse.isNegInf then 0 else lse.exp
  let s2 := if lse2.isNegInf then 0 else lse2.exp
  let n : ℝ := (m.filter id).length
  s2 / (s * s) - .fin 1 / .fin n

end GW.Likelihood
