import Verif.Model.Sage
import Verif.Model.VarianceCut

/-!
# The variance of the log likelihood

Model of `variance_of_single_event_likelihood` in `/repo/src/gwkokab/inference/poissonlikelihood_utils.py`, over all buckets, and of `compute_variance`
and the filter of the posterior samples in `Sage.run`, `/repo/src/gwkanal/core/sage.py`.

Simplifications: as in `Sage.run`; the variance of the expected number is an arbitrary function of the population model (its estimators are modelled in
`PoissonMean`), and the file of posterior samples is a list of rows.
-/

namespace GW.Sage
open GW PyDict
open GW.Likelihood (FRow Bucket)

/-- The variances of the events of a bucket, one per row.  Source: gwkokab/inference/poissonlikelihood_utils.py lines 33–73. -/
noncomputable def bucketVariances {θ} (M : Likelihood.Model θ) (fp : Nat → θ) : List (List θ) → List (List XR) → List (List Bool) → List XR
  | d :: ds, r :: rs, m :: ms => Likelihood.eventVariance M fp d r m :: bucketVariances M fp ds rs ms
  | _, _, _ => []

/-- The sum over the buckets.  Source: gwkokab/inference/poissonlikelihood_utils.py lines 28–75. -/
noncomputable def singleEventVariance {θ} (M : Likelihood.Model θ) (bs : List (Bucket θ)) : XR :=
  bs.foldl (fun acc b => acc + XR.sum (bucketVariances M (M.feasible (b.data.headD [])) b.data b.refs b.masks)) 0

/-- `compute_variance`; an index past the end of a traced array is clamped.  Source: gwkanal/core/sage.py lines 210–223. -/
noncomputable def computeVariance (inp : Inputs) (rateVariance : Likelihood.Model FRow → XR) (s : Guru.Setup XR) (bs : List (Bucket FRow)) (sample : List XR) : XR :=
  let M := inp.model none (kwargsOf s.constants (numbers s.constants ++ s.index.map fun p => (p.1, sample.getD (min p.2 (sample.length - 1)) 0)))
  singleEventVariance M bs + rateVariance M

/-- `Sage.run` up to the definition of `compute_variance`.  Source: gwkanal/core/sage.py lines 157–223. -/
noncomputable def likelihoodVariance (ord : List String → List String) (orc : Jenks.Oracle) (inp : Inputs) (rateVariance : Likelihood.Model FRow → XR) :
    Except Err (List XR → XR) :=
  match Guru.setup ord inp.params inp.extra with
  | .error e => .error (.priors e)
  | .ok s =>
    match prior s with
    | .error e => .error e
    | .ok _ =>
      match Likelihood.readData orc inp.data inp.refs inp.nBuckets inp.threshold with
      | .error e => .error (.data e)
      | .ok (_, buckets) =>
        if (keys s.constants).any (· ∈ keys s.index) then .error .repeatedKeyword
        else .ok (computeVariance inp rateVariance s buckets)

end GW.Sage
