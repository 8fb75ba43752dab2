import Verif.Model.Graph
import Verif.Model.Lazy
import Verif.Model.Tools
import Mathlib.Data.List.Sort

/-!
# Sorting model parameters into constants, variables, aliases and lazy vars

Model of `_classify_model_parameters` and `Guru.classify_model_parameters`, `/repo/src/gwkanal/core/guru.py`.

Simplifications: numbers are rationals and `lax.stop_gradient` is the identity; logging and the two JSON files are not modelled
(their content is the returned `constants` and `variables_index`); Python sets are lists in insertion order, and `ord` gives
the order in which a set is iterated.  The processed prior table (`get_processed_priors`) is the input.
-/

namespace GW.Guru
open GW PyDict Tools
open GW.Joint (Base)
open GW.Lazy (Marg)

/-- A processed prior: what a parameter can be bound to (lines 126-162).  `lazy` is a pair `(lazy_fn, lazy_args)`, `isPartial`
tells whether the first is a `jax.tree_util.Partial` and `args = none` that the second is not a dict; `other` is any value of
another type, or a tuple of another length. -/
inductive PVal (α : Type) where
  | none
  | dist (b : Base α)
  | lazy (isPartial : Bool) (f : List (String × List α) → Base α) (args : Option (Dict String String))
  | num (q : ℚ)
  | str (s : String)
  | other

/-- The dictionaries filled by the first pass (lines 117-123). -/
structure Pass1 (α : Type) where
  constants : Dict String (Option ℚ) := []
  vars : Dict String (Marg α) := []
  lazyDeps : Dict String (Dict String String) := []
  graph : Dict String (List String) := []
  roots : List String := []

/-- `dependency_graph[dep].add(name)` on a `defaultdict(set)` (line 149). -/
def addEdge (name : String) (g : Dict String (List String)) (dep : String) : Dict String (List String) :=
  let old := (get? g dep).getD []
  set g dep (if name ∈ old then old else old ++ [name])

/-- One iteration of the first loop (lines 126-162). -/
def pass1Step {α} (st : Pass1 α) (p : String × PVal α) : Except Err (Pass1 α) :=
  match p.2 with
  | .none => .ok { st with constants := set st.constants p.1 Option.none }
  | .dist b => .ok { st with vars := set st.vars p.1 (.dist b), roots := st.roots ++ [p.1] }
  | .lazy isPartial f args =>
    if isPartial = false then .error .valueError
    else
      match args with
      | Option.none => .error .valueError
      | some args =>
        .ok { st with
          vars := set st.vars p.1 (.part f)
          lazyDeps := set st.lazyDeps p.1 args
          graph := (args.map (·.2)).foldl (addEdge p.1) st.graph }
  | .num q => .ok { st with constants := set st.constants p.1 (some q) }
  | .str _ => .ok st
  | .other => .error .valueError

/-- The first loop.  Source: gwkanal/core/guru.py lines 126–163. -/
def pass1 {α} : List (String × PVal α) → Pass1 α → Except Err (Pass1 α)
  | [], st => .ok st
  | p :: ps, st =>
    match pass1Step st p with
    | .error e => .error e
    | .ok st' => pass1 ps st'

/-- One iteration of the second loop (lines 165-170) on `(constants, aliases)`. -/
def pass2Step {α} (vars : Dict String (Marg α)) (st : Dict String (Option ℚ) × Dict String String)
    (p : String × PVal α) : Dict String (Option ℚ) × Dict String String :=
  match p.2 with
  | .str t =>
    match get? st.1 t with
    | some c => (set st.1 p.1 c, st.2)
    | Option.none => if (get? vars t).isSome then (st.1, set st.2 p.1 t) else st
  | _ => st

/-- The returned tuple (lines 190-196). -/
structure Classified (α : Type) where
  constants : Dict String (Option ℚ)
  vars : Dict String (Marg α)
  aliases : Dict String String
  lazyDeps : Dict String (Dict String String)
  lazyOrder : List String

/-- Lines 173-188; a search that does not end would be an exception here (it always ends, see C34). -/
def lazyOrder {α} (ord : List String → List String) (st : Pass1 α) : Except Err (List String) :=
  if st.lazyDeps.isEmpty then .ok []
  else
    let g := st.graph.map fun p => (p.1, ord p.2)
    match Graph.checkCycles g, Graph.topologicalSort g with
    | some false, some order => .ok (order.filter fun v => v ∉ st.roots)
    | _, _ => .error .valueError

/-- `_classify_model_parameters` (lines 79-196). -/
def classify {α} (ord : List String → List String) (params : Dict String (PVal α)) : Except Err (Classified α) :=
  match pass1 params {} with
  | .error e => .error e
  | .ok st =>
    let r := params.foldl (pass2Step st.vars) (st.constants, [])
    match lazyOrder ord st with
    | .error e => .error e
    | .ok order => .ok ⟨r.1, st.vars, r.2, st.lazyDeps, order⟩

/-- `sorted(variables.keys())` (lines 290, 314). -/
def sortedNames {α} (vars : Dict String (Marg α)) : List String :=
  (keys vars).insertionSort (· ≤ ·)

/-- `names.index(k)`, `ValueError` when absent.  Source: gwkanal/core/guru.py lines 322–330. -/
def indexOf (names : List String) (k : String) : Except Err Nat :=
  if k ∈ names then .ok (names.idxOf k) else .error .valueError

/-- `{key: i for i, key in enumerate(names)}` (lines 289-291). -/
def enumerate : Nat → List String → Dict String Nat
  | _, [] => []
  | i, k :: ks => (k, i) :: enumerate (i + 1) ks

/-- `variables_index[key] = variables_index[value]` (lines 292-293), `KeyError` when absent. -/
def aliasStep (ix : Except Err (Dict String Nat)) (p : String × String) : Except Err (Dict String Nat) :=
  match ix with
  | .error e => .error e
  | .ok ix =>
    match get? ix p.2 with
    | Option.none => .error .key
    | some i => .ok (set ix p.1 i)

/-- What the sampler receives: constants, the index of every sampled name, the names and marginals in index order, and for
lazy priors the `dependencies` and `partial_order` arguments of `LazyJointDistribution`.  Source: gwkanal/core/guru.py line 334. -/
structure Setup (α : Type) where
  constants : Dict String (Option ℚ)
  index : Dict String Nat
  names : List String
  marginals : List (Marg α)
  lazy : Option (List (Nat × List (String × Nat)) × List Nat)

/-- `{k_: names.index(v) for k_, v in deps.items()}` (lines 322-324). -/
def indexDeps (names : List String) : List (String × String) → Except Err (List (String × Nat))
  | [] => .ok []
  | (k, v) :: ds =>
    match indexOf names v with
    | .error e => .error e
    | .ok i =>
      match indexDeps names ds with
      | .error e => .error e
      | .ok r => .ok ((k, i) :: r)

/-- `lazy_deps_new` (lines 321-326). -/
def indexLazy (names : List String) : List (String × Dict String String) → Except Err (List (Nat × List (String × Nat)))
  | [] => .ok []
  | (k, deps) :: ls =>
    match indexOf names k, indexDeps names deps with
    | .ok i, .ok d =>
      match indexLazy names ls with
      | .error e => .error e
      | .ok r => .ok ((i, d) :: r)
    | _, _ => .error .valueError

/-- `[names.index(k) for k in lazy_order]` (line 330). -/
def indexAll (names : List String) : List String → Except Err (List Nat)
  | [] => .ok []
  | k :: ks =>
    match indexOf names k with
    | .error e => .error e
    | .ok i =>
      match indexAll names ks with
      | .error e => .error e
      | .ok r => .ok (i :: r)

/-- `classify_model_parameters` (lines 279-334) after the prior file is read; `extra` is `self.constants`.  The constructors'
own checks that can fail here are the empty list of marginals and `partial_order` and `dependencies` of different lengths
(see `Joint.mkJoint`, `Lazy.mkLazy`). -/
def setup {α} (ord : List String → List String) (params : Dict String (PVal α)) (extra : Dict String (Option ℚ)) :
    Except Err (Setup α) :=
  match classify ord params with
  | .error e => .error e
  | .ok c =>
    let constants := extra.foldl (fun d p => set d p.1 p.2) c.constants
    let names := sortedNames c.vars
    match c.aliases.foldl aliasStep (.ok (enumerate 0 names)) with
    | .error e => .error e
    | .ok index =>
      let marginals := names.filterMap (get? c.vars)
      if names.isEmpty then .error .valueError
      else if c.lazyOrder.isEmpty then .ok ⟨constants, index, names, marginals, Option.none⟩
      else
        match indexLazy names c.lazyDeps, indexAll names c.lazyOrder with
        | .ok deps, .ok order =>
          if order.length ≠ deps.length then .error .valueError
          else .ok ⟨constants, index, names, marginals, some (deps, order)⟩
        | _, _ => .error .valueError

end GW.Guru
