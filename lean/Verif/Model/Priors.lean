import Verif.Model.Regex
import Verif.Model.Guru

/-!
# From the prior file to processed priors

Model of `_available_prior`, `_is_lazy_prior` and `get_processed_priors`, `/repo/src/gwkanal/utils/priors.py:132–232`.

The prior table is the one of `Model/Regex`; `heap` gives the content of its dictionaries.  `dist.__all__` is the parameter `available`, and what a
constructor does with its keyword arguments is the parameter `ctor` (it may raise).  Inside a dictionary a value is a string or something else.  Values of
the table that are neither numbers, strings, dictionaries nor `None` (lists) are not modelled.
-/

namespace GW.Priors
open GW PyDict
open GW.Regex (Val FullMatch matchAll)
open GW.Joint (Base)

/-- A value inside a prior's dictionary.  Source: gwkanal/utils/priors.py lines 163–179. -/
inductive Atom where
  | str (s : String)
  | num (n : Int)
deriving DecidableEq, Repr

/-- `isinstance(v, str)`.  Source: gwkanal/utils/priors.py lines 177 and 226. -/
def Atom.isStr : Atom → Bool
  | .str _ => true
  | .num _ => false

/-- Exceptions; `ctor` is one raised by the constructor of a distribution.  Source: gwkanal/utils/priors.py lines 133–230. -/
inductive Err where
  | missingPrior (param : String)
  | noDist (param : String)
  | attribute (name : String)
  | type
  | ctor
deriving DecidableEq, Repr

/-- A processed prior: `D` are the instances, `P` the partially applied constructors.  Source: gwkanal/utils/priors.py lines 182–232. -/
inductive Processed (D P : Type) where
  | plain (v : Val)
  | dist (d : D)
  | lazy (p : P) (vars : Dict String String)

/-- What numpyro's constructors make of keyword arguments; `partially` is `jax.tree_util.Partial(prior, **kw, validate_args=True)`, which calls nothing.
Source: gwkanal/utils/priors.py lines 222 and 229. -/
structure Ctors (D P : Type) where
  build : String → Dict String Atom → Option D
  partially : String → Dict String Atom → P

/-- `_available_prior`, lines 132–159: the name, if it is a known one. -/
def availablePrior (available : List String) (name : String) : Except Err String :=
  if name ∈ available ++ ["DirichletElement"] then .ok name else .error (.attribute name)

/-- `_is_lazy_prior`, lines 162–179. -/
def isLazyPrior : Dict String Atom → Bool
  | [] => false
  | p :: d => if p.2.isStr then true else isLazyPrior d

/-- `value_cpy.pop("dist", None)`: the remaining dictionary (line 215). -/
def popDist (d : Dict String Atom) : Dict String Atom := d.filter fun p => p.1 ≠ "dist"

/-- `{k: v for k, v in value_cpy.items() if isinstance(v, str)}` (line 228). -/
def lazyVars : Dict String Atom → Dict String String
  | [] => []
  | (k, .str s) :: d => (k, s) :: lazyVars d
  | (_, .num _) :: d => lazyVars d

/-- `{k: v for k, v in value_cpy.items() if not isinstance(v, str)}` (line 229). -/
def nonLazyVars (d : Dict String Atom) : Dict String Atom := d.filter fun p => !p.2.isStr

/-- The call `prior(**kw, validate_args=True)`: a second `validate_args` is a `TypeError`.  Source: gwkanal/utils/priors.py line 222. -/
def checkKw (kw : Dict String Atom) : Except Err Unit := if "validate_args" ∈ keys kw then .error .type else .ok ()

/-- The body of the loop for a dictionary `value` (lines 214–232). -/
def processDict {D P} (available : List String) (c : Ctors D P) (key : String) (value : Dict String Atom) : Except Err (Processed D P) :=
  match get? value "dist" with
  | some (.str name) =>
    if name = "" then .error (.noDist key)
    else
      match availablePrior available name with
      | .error e => .error e
      | .ok prior =>
        let valueCpy := popDist value
        if isLazyPrior valueCpy = false then
          match checkKw valueCpy with
          | .error e => .error e
          | .ok _ =>
            match c.build prior valueCpy with
            | some d => .ok (.dist d)
            | none => .error .ctor
        else
          match checkKw (nonLazyVars valueCpy) with
          | .error e => .error e
          | .ok _ => .ok (.lazy (c.partially prior (nonLazyVars valueCpy)) (lazyVars valueCpy))
  | _ => .error (.noDist key)

/-- The loop (lines 210–232).  Assigning to the key that is being visited replaces the value in place. -/
def processAll {D P} (available : List String) (c : Ctors D P) (heap : Nat → Dict String Atom) :
    Dict String Val → Except Err (Dict String (Processed D P))
  | [] => .ok []
  | (k, v) :: rest =>
    match (match v with | .dict id _ => processDict available c k (heap id) | v => .ok (.plain v)) with
    | .error e => .error e
    | .ok p =>
      match processAll available c heap rest with
      | .error e => .error e
      | .ok r => .ok ((k, p) :: r)

/-- The check that every parameter has a prior (lines 207–208). -/
def checkPresent (params : List String) (matched : Dict String Val) : Except Err Unit :=
  match params.find? fun p => p ∉ keys matched with
  | some p => .error (.missingPrior p)
  | none => .ok ()

/-- `get_processed_priors` (lines 182–233). -/
def getProcessedPriors {D P} (fm : FullMatch) (available : List String) (c : Ctors D P) (heap : Nat → Dict String Atom) (params : List String)
    (priors : Dict String Val) : Except Err (Dict String (Processed D P)) :=
  let matched := matchAll fm params priors
  match checkPresent params matched with
  | .error e => .error e
  | .ok _ => processAll available c heap matched

/-- How `_classify_model_parameters` (guru.py:126–162) sees a processed prior. -/
def Processed.toPVal {α} : Processed (Base α) (List (String × List α) → Base α) → Guru.PVal α
  | .plain (.num n) => .num n
  | .plain (.str s) => .str s
  | .plain (.dict _ _) => .other
  | .plain .none => .none
  | .dist d => .dist d
  | .lazy p vars => .lazy true p (some vars)

/-- `_classify_model_parameters(**get_processed_priors(...))`, guru.py:280–285; `none` is an exception of the first call. -/
def classifyFile {α} (fm : FullMatch) (available : List String) (c : Ctors (Base α) (List (String × List α) → Base α)) (heap : Nat → Dict String Atom)
    (ord : List String → List String) (params : List String) (priors : Dict String Val) : Except Err (Except Tools.Err (Guru.Classified α)) :=
  match getProcessedPriors fm available c heap params priors with
  | .error e => .error e
  | .ok r => .ok (Guru.classify ord (r.map fun p => (p.1, p.2.toPVal)))

end GW.Priors
