import Verif.Model.Population

/-!
# Selection of the detected events of a synthetic population

Model of lines 187–204 and 206–279 of `/repo/src/gwkanal/core/population.py`: the weights of the drawn rows, the draw with replacement, and
the loop over the realisations.  The uniform numbers behind `jax.random.choice` are arguments; numbers are exact.
-/

namespace GW.Population
open GW.Tools (Err)
open GW XR

noncomputable section
open Classical

/-- `jnp.nan_to_num(log_selection, nan=-inf, posinf=-inf, neginf=-inf)`, gwkanal/core/population.py lines 189–194. -/
def cleanSelection (x : XR) : XR := nanToNum ninf ninf ninf x

/-- `jnp.max(x, initial=-jnp.inf)` inside `jax.nn.softmax`, used at gwkanal/core/population.py line 195. -/
def top (l : List XR) : XR := l.foldr XR.max ninf

/-- `jax.nn.softmax(log_selection)`, gwkanal/core/population.py line 195: `exp(x - max)` divided by the sum. -/
def softmaxWeights (l : List XR) : List XR :=
  let e := l.map fun x => XR.exp (x - top l)
  e.map fun x => x / XR.sum e

/-- `jnp.cumsum(p)` from a partial sum, inside `jax.random.choice`, used at gwkanal/core/population.py lines 197–199. -/
def cumsumFrom (acc : XR) : List XR → List XR
  | [] => []
  | p :: ps => (acc + p) :: cumsumFrom (acc + p) ps

/-- The order of `jnp.searchsorted`: NaN comes last and equals itself.  Inside `jax.random.choice`, used at gwkanal/core/population.py lines
197–199. -/
def sortsUpTo (x y : XR) : Prop := y = nan ∨ XR.le x y

/-- `jnp.searchsorted(arr, q)` (side `left`) on a sorted array: the first place whose entry is not below `q`.  Inside `jax.random.choice`,
used at gwkanal/core/population.py lines 197–199. -/
def searchsorted (arr : List XR) (q : XR) : Nat := arr.findIdx fun a => decide (sortsUpTo q a)

/-- One index of `jax.random.choice(key, arange(n), p=p, shape=…)` (with replacement), gwkanal/core/population.py lines 197–199:
`p_cuml = cumsum(p)`, `r = p_cuml[-1] * (1 - uniform)`, `searchsorted(p_cuml, r)`. -/
def choose (p : List XR) (u : ℝ) : Nat :=
  let c := cumsumFrom 0 p
  searchsorted c (c.getLastD nan * fin (1 - u))

/-- The index of one detected event, gwkanal/core/population.py lines 187–199. -/
def selectIndex {α} (logSelection : α → XR) (rows : List α) (u : ℝ) : Nat :=
  choose (softmaxWeights (rows.map fun r => cleanSelection (logSelection r))) u

/-- The indices of the detected events, gwkanal/core/population.py lines 187–199, for the uniform numbers `us 0, us 1, …`. -/
def selectIndices {α} (logSelection : α → XR) (us : Nat → ℝ) (rows : List α) (size : Nat) : List Nat :=
  (List.range size).map fun k => selectIndex logSelection rows (us k)

/-- `_generate_realizations`, gwkanal/core/population.py lines 206–279: one Poisson number, an error if it is zero, then one population of
that size per realisation.  `draw k n` are the rows and component numbers drawn with the key `k`, `uniforms k` the numbers behind
`choice`; the second key of a realisation is the one of lines 188 and 196. -/
def generateRealizations (parameters : List String) (poisson : Key → Nat) (draw : Key → Nat → List (List ℝ) × List Nat)
    (logSelection : Option (List ℝ → XR)) (uniforms : Key → Nat → ℝ) (numRealizations : Nat) (key : Key) :
    Except Err (List (List (List ℝ) × List Nat × List (List ℝ) × List Nat)) :=
  let size := poisson (Key.sub key 0)
  if size ≤ 0 then .error .valueError
  else (List.range numRealizations).mapM fun i =>
    let k := Key.sub (Key.sub key 1) i
    generatePopulation parameters (draw k) (logSelection.map fun s => selectIndices s (uniforms (Key.sub (Key.sub k 1) 1))) size

end
end GW.Population
