import Verif.Model.Conversions
import Verif.Model.Constraints
import Mathlib.Data.Fin.VecNotation

/-!
# Coordinate transforms (gwkokab/models/transformations.py)

A transform acts on one event (the last axis): a function `Fin n → XR`.  Leading batch axes act element by element; they matter only for
`BlockTransform`, which is modelled on arrays of rank one and two below.  `big` stands for `jnp.finfo(float).max`.
-/

namespace GW.Transforms
open GW XR GW.Conv GW.Constraints
open GW.Tools (Err)

noncomputable section

/-- What a numpyro `Transform` offers.  Source: gwkokab/models/transformations.py lines 243–290. -/
structure Transform (n : Nat) where
  domain : Leaf
  codomain : Leaf
  fwd : (Fin n → XR) → Fin n → XR
  inv : (Fin n → XR) → Fin n → XR
  /-- `log_abs_det_jacobian(x, y)`. -/
  logDet : (Fin n → XR) → (Fin n → XR) → XR

/-- `PrimaryMassAndMassRatioToComponentMassesTransform`, lines 243–289. -/
def primaryMassRatioToComponents (big : ℝ) : Transform 2 where
  domain := .intervals [0, 0] [big, 1]
  codomain := .positiveDecreasing
  fwd x := ![x 0, x 0 * x 1]
  inv y := ![y 0, massRatio (y 0) (y 1)]
  logDet x _ := log (abs (x 0))

/-- `ComponentMassesToChirpMassAndSymmetricMassRatio`, lines 292–335. -/
def componentsToChirpEta (big : ℝ) : Transform 2 where
  domain := .positiveDecreasing
  codomain := .intervals [0, 0] [big, 1 / 4]
  fwd x := ![chirpMass (x 0) (x 1), symmetricMassRatio (x 0) (x 1)]
  inv y := ![(mcEtaToM1M2 (y 0) (y 1)).1, (mcEtaToM1M2 (y 0) (y 1)).2]
  logDet _ y := fin (12 / 10) * log (y 1) + fin (1 / 2) * log1p (fin (-4) * y 1) - log (y 0)

/-- `DeltaToSymmetricMassRatio`, lines 338–372. -/
def deltaToEta : Transform 1 where
  domain := .intervals [0] [1]
  codomain := .intervals [0] [1 / 4]
  fwd x := ![(fin 1 - square (x 0)) * fin (1 / 4)]
  inv y := ![sqrt (fin 1 - fin 4 * y 0)]
  logDet x _ := log (x 0) - log (fin 2)

/-- `ComponentMassesToChirpMassAndDelta`, lines 375–422. -/
def componentsToChirpDelta (big : ℝ) : Transform 2 where
  domain := .positiveDecreasing
  codomain := .intervals [0, 0] [big, 1]
  fwd x := ![chirpMass (x 0) (x 1), deltaM (x 0) (x 1)]
  inv y :=
    let eta := deltaMToEta (y 1)
    ![(mcEtaToM1M2 (y 0) eta).1, (mcEtaToM1M2 (y 0) eta).2]
  logDet x y :=
    let M := totalMass (x 0) (x 1)
    let logMc := log (y 0)
    log (fin 2) + logMc + fin (-2) * log M

/-- `SourceMassAndRedshiftToDetectedMassAndRedshift`, lines 425–459. -/
def sourceToDetected : Transform 2 where
  domain := .positive
  codomain := .positive
  fwd x := ![x 0 * (fin 1 + x 1), x 1]
  inv y := ![y 0 / (fin 1 + y 1), y 1]
  logDet x _ := log1p (x 1)

/-- `ComponentMassesAndRedshiftToDetectedMassAndRedshift`, lines 462–498. -/
def componentsToDetected : Transform 3 where
  domain := .positive
  codomain := .positive
  fwd x := ![x 0 * (fin 1 + x 2), x 1 * (fin 1 + x 2), x 2]
  inv y := ![y 0 / (fin 1 + y 2), y 1 / (fin 1 + y 2), y 2]
  logDet x _ := fin 2 * log1p (x 2)

/-- `ComponentMassesToPrimaryMassAndMassRatio`, lines 501–539. -/
def componentsToPrimaryMassRatio (big : ℝ) : Transform 2 where
  domain := .positiveDecreasing
  codomain := .openIntervals [0, 0] [big, 1]
  fwd x := ![x 0, massRatio (x 0) (x 1)]
  inv y := ![y 0, m1QToM2 (y 0) (y 1)]
  logDet x _ := -log (abs (x 0))

/-- `ComponentMassesToMassRatioAndSecondaryMass`, lines 542–585. -/
def componentsToRatioSecondary (big : ℝ) : Transform 2 where
  domain := .positiveDecreasing
  codomain := .intervals [0, 0] [1, big]
  fwd x := ![massRatio (x 0) (x 1), x 1]
  inv y := ![m2QToM1 (y 1) (y 0), y 1]
  logDet x y := log (y 0) - log (x 0)

/-- `ComponentMassesToTotalMassAndMassRatio`, lines 588–625. -/
def componentsToTotalRatio (big : ℝ) : Transform 2 where
  domain := .positiveDecreasing
  codomain := .intervals [0, 0] [big, 1]
  fwd x := ![totalMass (x 0) (x 1), massRatio (x 0) (x 1)]
  inv y :=
    let safeQ := select (eqc (y 1) (-1)) (fin 1) (y 1)
    let m1 := select (eqc (y 1) (-1)) pinf (y 0 / (fin 1 + safeQ))
    ![m1, m1QToM2 m1 (y 1)]
  logDet x y := log (fin 1 + y 1) - log (x 0)

/-! ## BlockTransform (lines 67–240) -/

/-- A sub-transform as a block transform uses it, on the block of one event.  Source: gwkokab/models/transformations.py lines 144–226. -/
structure Sub where
  fwd : List XR → List XR
  inv : List XR → List XR
  logDet : List XR → List XR → XR

/-- An array of rank one (a single event) or two (a batch of events).  Source: gwkokab/models/transformations.py lines 162–196. -/
inductive Arr where
  | vec (x : List XR)
  | mat (rows : List (List XR))

/-- `f` (a sub-transform's `__call__` or `inv`) on each block of one event, in the order of the slices (lines 163–177, 181–195). -/
def blockParts (f : Sub → List XR → List XR) (ts : List Sub) (ss : List Slice) (x : List XR) : Except Err (List (List XR)) :=
  (ts.zip ss).mapM fun (t, s) => do
    let xs ← s.get x
    return f t xs

/-- `jnp.column_stack` of the blocks of a *single event*: a scalar becomes a `1 × 1` array, a vector of length `k` a `k × 1` column; blocks with
different numbers of rows cannot be stacked.  Source: gwkokab/models/transformations.py lines 178 and 196. -/
def columnStack1 : List (List XR) → Except Err (List (List XR))
  | [] => .error .valueError
  | p :: ps =>
    if ps.all (fun q => q.length == p.length) then
      .ok ((List.range p.length).map fun i => (p :: ps).map fun q => (q[i]?).getD nan)
    else .error .type

/-- `__call__` / `_inverse` (lines 162–196): for a batch, `jnp.column_stack` puts the blocks of each row side by side; for a single event it stacks
columns. -/
def blockApply (f : Sub → List XR → List XR) (ts : List Sub) (ss : List Slice) : Arr → Except Err Arr
  | .mat rows => do
    let out ← rows.mapM fun r => do
      let ps ← blockParts f ts ss r
      return ps.flatten
    return .mat out
  | .vec x => do
    let ps ← blockParts f ts ss x
    let out ← columnStack1 ps
    return .mat out

/-- `log_abs_det_jacobian` of one event (lines 198–226): the sum over the blocks, starting from `0.0`. -/
def blockLogDet (x y : List XR) : List (Sub × Slice) → XR → Except Err XR
  | [], acc => .ok acc
  | (t, s) :: rest, acc => do
    let xs ← s.get x
    let ys ← s.get y
    blockLogDet x y rest (acc + t.logDet xs ys)

/-! ## `biject_to` (lines 666–710) -/

/-- numpyro `AbsTransform`.  Source: used at gwkokab/models/transformations.py lines 671, 679, 686. -/
def absT (x : List XR) : List XR := x.map abs

/-- `jnp.cumsum` from a start value.  Source: inside `OrderedTransform`, used at gwkokab/models/transformations.py lines 671, 679, 687. -/
def cumsumFrom : XR → List XR → List XR
  | _, [] => []
  | acc, a :: rest => (acc + a) :: cumsumFrom (acc + a) rest

/-- numpyro `OrderedTransform`: `cumsum([x0, exp(x1), exp(x2), …])`.  Source: used at gwkokab/models/transformations.py lines 671, 679, 687. -/
def orderedT : List XR → List XR
  | [] => []
  | a :: rest => a :: cumsumFrom a (rest.map exp)

/-- numpyro `PowerTransform(-1.0)`.  Source: used at gwkokab/models/transformations.py lines 671 and 688. -/
def powerT (x : List XR) : List XR := x.map fun a => pow a (-1)

/-- numpyro `SigmoidTransform` (its clipping away from 0 and 1 by one rounding unit is not modelled). -/
def sigmoidT (x : List XR) : List XR := x.map fun a => fin 1 / (fin 1 + exp (-a))

/-- `biject_to(decreasing kinds)`, lines 666–671. -/
def toDecreasing (x : List XR) : List XR := powerT (orderedT (absT x))

/-- `biject_to(increasing kinds)`, lines 674–679. -/
def toIncreasing (x : List XR) : List XR := orderedT (absT x)

/-- `biject_to(mass_sandwich(mmin, mmax))`, lines 682–694. -/
def toSandwich (mmin mmax : ℝ) (x : List XR) : List XR :=
  (sigmoidT (powerT (orderedT (absT x)))).map fun s => fin mmin + fin (mmax - mmin) * s

/-- `biject_to(mass_ratio_mass_sandwich(mmin, mmax))`, lines 697–710: location `(mmin, 0)`, scale `(mmax - mmin, 1)`. -/
def toRatioSandwich (mmin mmax : ℝ) (x : List XR) : List XR :=
  ((sigmoidT (powerT (orderedT (absT x)))).zip [(fin mmin, fin (mmax - mmin)), (fin 0, fin 1)]).map fun p => p.2.1 + p.2.2 * p.1

end

end GW.Transforms
