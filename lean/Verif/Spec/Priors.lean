import Verif.Model.Priors

/-! Words used in the statements about processed priors.  Only the data types of the model are used. -/

namespace GW.Priors
open GW.PyDict

/-- The keyword arguments of a prior, without `"dist"`, fall into fixed ones and ones that name another parameter. -/
structure Splits (d : Dict String Atom) (fixed : Dict String Atom) (lazy : Dict String String) : Prop where
  fixed_nodup : (keys fixed).Nodup
  lazy_nodup : (keys lazy).Nodup
  fixed_iff : ∀ k v, get? fixed k = some v ↔ k ≠ "dist" ∧ get? d k = some v ∧ ∀ s, v ≠ .str s
  lazy_iff : ∀ k s, get? lazy k = some s ↔ k ≠ "dist" ∧ get? d k = some (.str s)

/-- The dictionary names a distribution that exists. -/
def Names (available : List String) (d : Dict String Atom) (name : String) : Prop :=
  get? d "dist" = some (.str name) ∧ name ≠ "" ∧ (name ∈ available ∨ name = "DirichletElement")

/-- What is wrong with the dictionary given for `key`. -/
inductive Complaint {D P : Type} (available : List String) (c : Ctors D P) (key : String) (d : Dict String Atom) : Err → Prop where
  | noDist (h : ∀ name, get? d "dist" = some (.str name) → name = "") : Complaint available c key d (.noDist key)
  | unknown (name : String) (h : get? d "dist" = some (.str name)) (h0 : name ≠ "") (h1 : name ∉ available) (h2 : name ≠ "DirichletElement") :
      Complaint available c key d (.attribute name)
  | twice (name : String) (h : Names available d name) (v : Atom) (hv : get? d "validate_args" = some v) (hs : ∀ s, v ≠ .str s) :
      Complaint available c key d .type
  | rejected (name : String) (h : Names available d name) (fixed : Dict String Atom) (hs : Splits d fixed []) (hv : get? fixed "validate_args" = none)
      (hb : c.build name fixed = none) : Complaint available c key d .ctor

end GW.Priors
