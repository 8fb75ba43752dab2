import Verif.Model.Sage
import Verif.Spec.Likelihood
import Verif.Spec.Joint

/-! Vocabulary for the statements about a whole analysis of discrete data, read off the prior table alone. -/

namespace GW.Sage
open GW PyDict Joint
open GW.Guru (PVal)

/-- What the model is told about the name `n` bound to `v`, when the sampled parameters have the values `value`. -/
noncomputable def direct (value : String → XR) (n : String) : PVal XR → Option (Option XR)
  | .none => some none
  | .num q => some (some (.fin (q : ℝ)))
  | .dist _ => some (some (value n))
  | .lazy _ _ _ => some (some (value n))
  | .str _ => none
  | .other => none

/-- The keyword arguments a prior table means: the constants of the analysis first, then the entry of the table; a name bound to another name means what the
other name is bound to. -/
noncomputable def meaning (params : Dict String (PVal XR)) (extra : Dict String (Option ℚ)) (value : String → XR) : Kwargs := fun n =>
  match get? extra n with
  | some c => some (c.map fun (q : ℚ) => XR.fin (q : ℝ))
  | none =>
    match get? params n with
    | some (.str t) => (get? params t).bind (direct value t)
    | some v => direct value n v
    | none => none

/-- The prior distribution of `n`; a lazily defined one is built from the values of the parameters it names. -/
def priorOf (params : Dict String (PVal XR)) (value : String → XR) (n : String) : Option (Base XR) :=
  match get? params n with
  | some (.dist b) => some b
  | some (.lazy _ f (some a)) => some (f (a.map fun p => (p.1, [value p.2])))
  | _ => none

/-- Log prior density of the value of `n`. -/
noncomputable def logPriorOf (params : Dict String (PVal XR)) (value : String → XR) (n : String) : XR :=
  match priorOf params value n with
  | some b => b.logProb (.one (value n))
  | none => 0

/-- The value of `n` is in the support of its prior. -/
def inPrior (params : Dict String (PVal XR)) (value : String → XR) (n : String) : Bool :=
  match priorOf params value n with
  | some b => b.support (.one (value n))
  | none => true

/-- A distribution of one number. -/
def Scalar (b : Base XR) : Prop := b.shape = none ∧ ∀ k, Fits (.base b) (b.sample k)

/-- A prior table that means something: the names are distinct, the distributions are over one number, a lazily defined distribution names at least one
parameter, and a name bound to a name is bound to one that is not itself so bound. -/
structure Meaningful (params : Dict String (PVal XR)) : Prop where
  nodup : (keys params).Nodup
  dist : ∀ n b, (n, PVal.dist b) ∈ params → Scalar b
  lazy : ∀ n ip f args, (n, PVal.lazy ip f args) ∈ params → ∀ kw, Scalar (f kw)
  deps : ∀ n ip f a, (n, PVal.lazy ip f (some a)) ∈ params → a ≠ []
  aliases : ∀ n t, (n, PVal.str t) ∈ params → ∃ v, (t, v) ∈ params ∧ ∀ s, v ≠ .str s

/-- The name is bound to a distribution, lazily defined or not. -/
def Sampled (params : Dict String (PVal XR)) (n : String) : Prop :=
  (∃ b, (n, PVal.dist b) ∈ params) ∨ ∃ ip f a, (n, PVal.lazy ip f a) ∈ params

/-- The rows of every event match those of its reference prior. -/
def RowsMatch (inp : Inputs) : Prop := ∀ i, (inp.data.getD i ⟨[], 0⟩).rows.length = (inp.refs.getD i ⟨[], 0⟩).rows.length

/-- Two analyses with the same events, in any order, and the same everything else but the bucket settings. -/
structure SameButOrder (inp inp' : Inputs) : Prop where
  params : inp'.params = inp.params
  extra : inp'.extra = inp.extra
  model : inp'.model = inp.model
  whereFns : inp'.whereFns = inp.whereFns
  rate : inp'.rate = inp.rate
  tObs : inp'.tObs = inp.tObs
  events : (inp.data.zip inp.refs).Perm (inp'.data.zip inp'.refs)

end GW.Sage
