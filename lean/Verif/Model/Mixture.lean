import Verif.Model.XR

/-!
# ScaledMixture

Model of `/repo/src/gwkokab/models/utils/_scaledmixture.py`.

Simplifications: one batch element; a component is an arbitrary distribution given by its functions;
`type(d.support)` is a name; the checks that numpyro's base class makes of the arguments of the constructor are not modelled.  The sampler and
`mean`/`variance` are in `Model/MixtureSampling`.
-/

namespace GW.Mixture
open GW

/-- A component distribution on values of type `α`.  Source: gwkokab/models/utils/_scaledmixture.py lines 44–106. -/
structure Comp (α : Type) where
  logProb : α → XR
  support : α → Bool
  supportType : String
  eventShape : List Nat
  validateArgs : Bool
  cdf : α → XR

/-- Errors raised by the constructor (lines 53-99). -/
inductive Err where
  | sizeMismatch
  | noComponent
  | supportMismatch
  | shapeMismatch
deriving DecidableEq, Repr

/-- The attributes used by the methods (lines 52, 59, 75, 89). -/
structure Mix (α : Type) where
  logScales : List XR
  comps : List (Comp α)
  supp : Option (α → Bool)

/-- `ScaledMixture.__init__` (lines 44-105).  `component_distributions[0]` raises on an empty list (lines 77, 94). -/
def mkMix {α} (logScales : List XR) (comps : List (Comp α)) (supp : Option (α → Bool)) : Except Err (Mix α) :=
  if comps.length ≠ logScales.length then .error .sizeMismatch
  else match comps with
    | [] => .error .noComponent
    | c :: cs =>
      if supp.isNone && cs.any (fun d => d.supportType != c.supportType) then .error .supportMismatch
      else if cs.any (fun d => d.eventShape != c.eventShape) then .error .shapeMismatch
      else .ok ⟨logScales, c :: cs, supp⟩

/-- The value appended for one component (lines 155-159). -/
def compTerm {α} (supp : Option (α → Bool)) (d : Comp α) (x : α) : XR :=
  let lp := d.logProb x
  if supp.isSome && !d.validateArgs then (if d.support x then lp else .ninf) else lp

/-- `component_log_probs` (lines 151-161). -/
def Mix.componentLogProbs {α} (m : Mix α) (x : α) : List XR :=
  List.zipWith (· + ·) m.logScales (m.comps.map fun d => compTerm m.supp d x)

/-- `log_prob` (lines 236-247). -/
noncomputable def Mix.logProb {α} (m : Mix α) (x : α) : XR :=
  let s := m.componentLogProbs x
  let safe := s.map fun t => if t.isNegInf then .ninf else t
  XR.logsumexpWhere (safe.zip (s.map fun t => !t.isNegInf))

/-- `support` (lines 116-120). -/
def Mix.support {α} (m : Mix α) (x : α) : Bool :=
  match m.supp with
  | some f => f x
  | none => match m.comps with
    | c :: _ => c.support x
    | [] => false

/-- `log_prob` as it is called: behind `@validate_sample` (line 236), which replaces the value outside `support` by `-inf` when the mixture validates
its arguments.  Source: gwkokab/models/utils/_scaledmixture.py lines 116–120, 236–247. -/
noncomputable def Mix.logProbChecked {α} (validate : Bool) (m : Mix α) (x : α) : XR :=
  if validate then (if m.support x then m.logProb x else .ninf) else m.logProb x

/-- `cdf` (lines 191-201). -/
noncomputable def Mix.cdf {α} (m : Mix α) (x : α) : XR :=
  XR.sum (List.zipWith (· * ·) (m.comps.map fun d => d.cdf x) (m.logScales.map XR.exp))

end GW.Mixture
