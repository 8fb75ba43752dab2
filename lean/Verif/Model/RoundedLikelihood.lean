import Verif.Model.Rounding
import Verif.Model.Likelihood

/-!
# The likelihood in rounded arithmetic

The sums of exponentials and the sum over the events of `/repo/src/gwkokab/inference/poissonlikelihood_flowMC.py`, with every operation followed by a
rounding (`Model/Rounding.lean`).  XLA may add the entries of an array in any order and may start from zeros; the order is an argument of the model.

Simplifications: as in `Model/Rounding.lean`; the numbers of the model instance (`log_prob`), of the prior and of the expected rate enter as they are.
-/

namespace GW.RoundedLikelihood
open GW XR Rounding

noncomputable section
open Classical

/-- One way of adding up numbers two at a time.  Source: the `sum` in gwkokab/inference/poissonlikelihood_flowMC.py lines 102–104, as XLA may evaluate it. -/
inductive Tree where
  | leaf (x : XR)
  | node (l r : Tree)

/-- The numbers added up, from left to right.  Source: as above. -/
def Tree.leaves : Tree → List XR
  | .leaf x => [x]
  | .node l r => l.leaves ++ r.leaves

/-- The sum, rounded after every addition.  Source: as above. -/
def Tree.sum (fl : ℝ → XR) : Tree → XR
  | .leaf x => x
  | .node l r => Rounding.add fl (l.sum fl) (r.sum fl)

/-- A way of reducing arrays: for every array one order of additions, which uses every entry once, and any number of zeros as initial values.
Source: `jnp.sum` inside `jax.nn.logsumexp` and `.sum(axis=0, initial=0.0)`, gwkokab/inference/poissonlikelihood_flowMC.py lines 102–104. -/
structure Reduction where
  tree : List XR → Tree
  uses : ∀ xs, ∃ k, (tree xs).leaves.Perm (xs ++ List.replicate k (fin 0))

/-- `jnp.sum`, rounded.  Source: gwkokab/inference/poissonlikelihood_flowMC.py lines 102–104. -/
def sum (fl : ℝ → XR) (R : Reduction) (xs : List XR) : XR := (R.tree xs).sum fl

/-- `jax.nn.logsumexp(a)` (jax/_src/ops/special.py), rounded: maximum, replaced by 0 when it is not finite, then `log(sum(exp(a - amax))) + amax`.
Source: gwkokab/inference/poissonlikelihood_flowMC.py line 102. -/
def logsumexp (fl : ℝ → XR) (R : Reduction) (a : List XR) : XR :=
  let amax := a.foldr XR.max ninf
  let amax := if amax.isFinite then amax else fin 0
  Rounding.add fl (rd fl (log (sum fl R (a.map fun x => rd fl (exp (Rounding.sub fl x amax)))))) amax

/-- Lines 88–99 of gwkokab/inference/poissonlikelihood_flowMC.py for one sample position. -/
def sampleTerm {θ} (fl : ℝ → XR) (M : Likelihood.Model θ) (fp : Nat → θ) (i : Nat) (d : θ) (r : XR) (m : Bool) : XR :=
  let safe := if m then d else fp i
  let lp := Rounding.sub fl (M.logProb safe) r
  if m then lp else ninf

/-- The row of one event, lines 88–99 of gwkokab/inference/poissonlikelihood_flowMC.py. -/
def rowTerms {θ} (fl : ℝ → XR) (M : Likelihood.Model θ) (fp : Nat → θ) : Nat → List θ → List XR → List Bool → List XR
  | i, d :: ds, r :: rs, m :: ms => sampleTerm fl M fp i d r m :: rowTerms fl M fp (i + 1) ds rs ms
  | _, _, _, _ => []

/-- The rows of a bucket, lines 86–99 of gwkokab/inference/poissonlikelihood_flowMC.py. -/
def bucketRows {θ} (fl : ℝ → XR) (M : Likelihood.Model θ) (fp : Nat → θ) : List (List θ) → List (List XR) → List (List Bool) → List (List XR)
  | d :: ds, r :: rs, m :: ms => rowTerms fl M fp 0 d r m :: bucketRows fl M fp ds rs ms
  | _, _, _ => []

/-- The log weights of a bucket, lines 86–99 of gwkokab/inference/poissonlikelihood_flowMC.py. -/
def weights {θ} (fl : ℝ → XR) (M : Likelihood.Model θ) (b : Likelihood.Bucket θ) : List (List XR) :=
  bucketRows fl M (M.feasible (b.data.headD [])) b.data b.refs b.masks

/-- The contribution of one bucket, lines 101–104 of gwkokab/inference/poissonlikelihood_flowMC.py. -/
def bucketSum {θ} (fl : ℝ → XR) (R : Reduction) (M : Likelihood.Model θ) (b : Likelihood.Bucket θ) : XR :=
  sum fl R ((weights fl M b).map (logsumexp fl R))

/-- `total_log_likelihood`, lines 80–104 of gwkokab/inference/poissonlikelihood_flowMC.py. -/
def totalLogLikelihood {θ} (fl : ℝ → XR) (R : Reduction) (M : Likelihood.Model θ) (logConstants : XR) (bs : List (Likelihood.Bucket θ)) : XR :=
  bs.foldl (fun acc b => Rounding.add fl acc (bucketSum fl R M b)) logConstants

/-- `likelihood_fn`, lines 72–121 of gwkokab/inference/poissonlikelihood_flowMC.py. -/
def likelihoodFn {θ} (fl : ℝ → XR) (R : Reduction) (S : Likelihood.Setup θ) (x : List XR) (bs : List (Likelihood.Bucket θ)) : XR :=
  let model := S.distFn (S.constants ++ S.mapParams x)
  let total := totalLogLikelihood fl R model S.logConstants bs
  let logLikelihood := Rounding.sub fl total (S.poissonMean model)
  let logPosterior := Rounding.add fl (S.priorLogProb x) logLikelihood
  XR.nanToNum ninf ninf ninf logPosterior

/-- `_log_likelihood_core`, gwkokab/inference/poissonlikelihood_numpyro.py lines 38–93. -/
def numpyroCore {θ} (fl : ℝ → XR) (R : Reduction) (S : Likelihood.Setup θ) (x : List XR) (bs : List (Likelihood.Bucket θ)) : XR :=
  let model := S.distFn (S.constants ++ S.mapParams x)
  let total := totalLogLikelihood fl R model S.logConstants bs
  XR.nanToNum ninf ninf ninf (Rounding.sub fl total (S.poissonMean model))

/-- `ScaledMixture.log_prob`, gwkokab/models/utils/_scaledmixture.py lines 151–161 and 236–247: a component is its log scale and its log density at
the point, `-inf` outside its support. -/
def mixtureLogProb (fl : ℝ → XR) (R : Reduction) (cs : List (ℝ × XR)) : XR :=
  let sums := cs.map fun c => Rounding.add fl (fin c.1) c.2
  logsumexp fl R (sums.filter fun x => !x.isNegInf)

/-- The log weights of the injections, gwkokab/poisson_mean/_injection_based.py lines 72–78. -/
def injectionWeights (fl : ℝ → XR) (modelLp logW : List XR) : List XR := List.zipWith (fun m w => Rounding.sub fl m w) modelLp logW

/-- `_poisson_mean` of the injections, gwkokab/poisson_mean/_injection_based.py lines 71–93. -/
def injectionMean (fl : ℝ → XR) (R : Reduction) (years total : ℝ) (modelLp logW : List XR) : XR :=
  let safe := (injectionWeights fl modelLp logW).map fun x => if x.isNegInf || x.isNan then ninf else x
  let lse := logsumexp fl R (safe.filter fun x => !x.isNegInf)
  Rounding.div fl (Rounding.mul fl (fin years) (rd fl (exp lse))) (fin total)

end
end GW.RoundedLikelihood
