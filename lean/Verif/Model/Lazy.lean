import Verif.Model.Joint

/-!
# LazyJointDistribution

Model of `/repo/src/gwkokab/models/utils/_lazyjointdistribution.py`.

Simplifications: one batch element and `sample_shape=()`; event shapes of rank 0 or 1; a dependency value is
the list of its coordinates (JAX arrays of shape `()` and `(1,)` broadcast alike, both are a one-element list);
Python exceptions are `none`; an index outside the event vector is `none` (JAX would clamp it).  The iteration order of the
Python `set` `independent` is a parameter.  `flatten_method` is ignored by the code (it only warns).
-/

namespace GW.Lazy
open GW GW.Joint

/-- A marginal: a distribution, or a `jax.tree_util.Partial` which builds a distribution from the values of its
named dependencies.  Source: gwkokab/models/utils/_lazyjointdistribution.py lines 171–190. -/
inductive Marg (α : Type) where
  | dist (b : Base α)
  | part (f : List (String × List α) → Base α)

/-- Attributes of a `LazyJointDistribution` (lines 158-212).  `deps` is the dict in insertion order, `shaped` is
`shaped_values`, `size` is `event_shape[0]`. -/
structure LazyJoint (α : Type) where
  ms : List (Marg α)
  deps : List (Nat × List (String × Nat))
  order : List Nat
  shaped : List EvSlice
  size : Nat
  supp : Option (List α → Bool)

/-- Errors of the constructor (lines 132-150) and `IndexError` at line 181. -/
inductive Err where
  | noMarginals
  | noOrder
  | noDependencies
  | lengthMismatch
  | shapeIndex
deriving DecidableEq, Repr

/-- The event shape used for marginal `i` (lines 179-184): for a partial, the declared shape, `()` when
`dependencies_event_shape` is `None` or empty. -/
def eventShape {α} (shapes : Option (List (Option Nat))) (i : Nat) : Marg α → Option (Option Nat)
  | .dist b => some b.shape
  | .part _ =>
    match shapes with
    | none => some none
    | some [] => some none
    | some l => l[i]?

/-- The loop of lines 172-190: `shaped_values` and the final offset. -/
def shapeLoop {α} (shapes : Option (List (Option Nat))) : Nat → Nat → List (Marg α) → Option (List EvSlice × Nat)
  | _, k, [] => some ([], k)
  | i, k, m :: ms => do
    match ← eventShape shapes i m with
    | some n =>
      let (es, k') ← shapeLoop shapes (i + 1) (k + n) ms
      pure (.range k (k + n) :: es, k')
    | none =>
      let (es, k') ← shapeLoop shapes (i + 1) (k + 1) ms
      pure (.idx k :: es, k')

/-- `LazyJointDistribution.__init__` (lines 88-212). -/
def mkLazy {α} (ms : List (Marg α)) (deps : Option (List (Nat × List (String × Nat)))) (order : List Nat)
    (shapes : Option (List (Option Nat))) (supp : Option (List α → Bool)) : Except Err (LazyJoint α) :=
  if ms.isEmpty then .error .noMarginals
  else if order.length = 0 then .error .noOrder
  else match deps with
    | none => .error .noDependencies
    | some deps =>
      if order.length ≠ deps.length then .error .lengthMismatch
      else match shapeLoop shapes 0 0 ms with
        | none => .error .shapeIndex
        | some (es, k) => .ok ⟨ms, deps, order, es, k, supp⟩

/-- The `kwargs` comprehension (lines 39-42, 223-226, 258), the values coming from `env`. -/
def kwargs {α} (env : Nat → Option (List α)) : List (String × Nat) → Option (List (String × List α))
  | [] => some []
  | (k, v) :: dep => do
    let a ← env v
    let r ← kwargs env dep
    pure ((k, a) :: r)

/-- Instantiation of the lazy marginals (lines 37-44 and 221-228): replaces, for each item of the dependency dict,
the partial at that index; `none` if the entry there is not a partial (`AttributeError`). -/
def instLoop {α} (env : Nat → Option (List α)) :
    List (Nat × List (String × Nat)) → List (Marg α) → Option (List (Marg α))
  | [], ms => some ms
  | (i, dep) :: deps, ms => do
    let kw ← kwargs env dep
    match ms[i]? with
    | some (.part f) => instLoop env deps (ms.set i (.dist (f kw)))
    | _ => none

/-- What `log_prob`/`support` read for a dependency: coordinate `v` of the event vector (lines 40, 224). -/
def eventEnv {α} (x : List α) (v : Nat) : Option (List α) := (x[v]?).map ([·])

/-- The loop of lines 230-242. -/
noncomputable def logProbLoop {α} : List (Marg α) → List EvSlice → List α → Option XR
  | .dist b :: ms, e :: es, x => do
    let s ← getSlice x e
    let r ← logProbLoop ms es x
    pure (b.logProb s + r)
  | [], [], _ => some 0
  | _, _, _ => none

/-- `log_prob` (lines 219-243). -/
noncomputable def LazyJoint.logProb {α} (d : LazyJoint α) (x : List α) : Option XR := do
  let ms ← instLoop (eventEnv x) d.deps d.ms
  logProbLoop ms d.shaped x

/-- The loop of lines 46-60. -/
def supportLoop {α} : List (Marg α) → List EvSlice → List α → Option Bool
  | .dist b :: ms, e :: es, x => do
    let s ← getSlice x e
    let r ← supportLoop ms es x
    pure (b.support s && r)
  | [], [], _ => some true
  | _, _, _ => none

/-- `support(x)`: the user's constraint or `_LazyConstraint.__call__` (lines 36-60, 192-199). -/
def LazyJoint.support {α} (d : LazyJoint α) (x : List α) : Option Bool :=
  match d.supp with
  | some f => some (f x)
  | none => do
    let ms ← instLoop (eventEnv x) d.deps d.ms
    supportLoop ms d.shaped x

/-- First loop of `sample` (lines 252-255), over the indices in the given iteration order. -/
def sampleInd {α} (ms : List (Marg α)) : List Nat → Key → List (List α) → Option (Key × List (List α))
  | [], key, samples => some (key, samples)
  | i :: is, key, samples =>
    match ms[i]? with
    | some (.dist b) =>
      sampleInd ms is (.sub key 0) (samples.set i (b.sample (.sub key 1)).toList)
    | _ => none

/-- Second loop of `sample` (lines 257-265). -/
def sampleOrd {α} (ms : List (Marg α)) (deps : List (Nat × List (String × Nat))) :
    List Nat → Key → List (List α) → Option (Key × List (List α))
  | [], key, samples => some (key, samples)
  | i :: is, key, samples => do
    let dep ← deps.lookup i
    let kw ← kwargs (fun v => samples[v]?) dep
    match ms[i]? with
    | some (.dist b) =>
      sampleOrd ms deps is (.sub key 0) (samples.set i (b.sample (.sub key 1)).toList)
    | some (.part f) =>
      sampleOrd ms deps is (.sub key 0) (samples.set i ((f kw).sample (.sub key 1)).toList)
    | none => none

/-- `sample(key)` (lines 245-268).  `ind` is the iteration order of
`set(range(n_total)) - set(self.partial_order)`; `junk` is the content of `jnp.empty`. -/
def LazyJoint.sample {α} (d : LazyJoint α) (ind : List Nat) (junk : α) (key : Key) : Option (List α) := do
  let (key, samples) ← sampleInd d.ms ind key (d.ms.map fun _ => [junk])
  let (_, samples) ← sampleOrd d.ms d.deps d.order key samples
  pure samples.flatten

end GW.Lazy
