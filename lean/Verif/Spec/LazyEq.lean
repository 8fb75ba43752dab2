import Verif.Model.LazyEq

/-!
# Marginals that have the same support
-/

namespace GW.Lazy
open GW GW.Joint

/-- The two distributions have the same support. -/
def SameSupport {α} (b b' : Base α) : Prop := ∀ s, b.support s = b'.support s

/-- Two marginals stand for the same supports: both are distributions, or both are partials that build distributions with the same support from the same
named values, in whatever order these are given. -/
def Agree {α} : Marg α → Marg α → Prop
  | .dist b, .dist b' => SameSupport b b'
  | .part f, .part g => ∀ kw kw', kw.Perm kw' → SameSupport (f kw) (g kw')
  | _, _ => False

/-- A Python dict of dicts: no key twice. -/
def DistinctKeys (d : List (Nat × List (String × Nat))) : Prop := (d.map (·.1)).Nodup ∧ ∀ p ∈ d, (p.2.map (·.1)).Nodup

end GW.Lazy
