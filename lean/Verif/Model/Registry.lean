import Verif.Model.Tools
import Verif.Model.PyDict

/-!
# Model registry

Model of `/repo/src/gwkokab/models/wrappers.py` (`ModelRegistry`).
-/

namespace GW.Registry
open GW.Tools (Err)

/-- A Python value used as registration key.  Source: gwkokab/models/wrappers.py lines 16–25. -/
inductive Param where
  | str (s : String)
  /-- a tuple; `none` stands for an element that is not a string -/
  | tup (l : List (Option String))
  /-- anything else (for instance a list) -/
  | other
deriving DecidableEq, Repr

/-- The registry dictionary.  Source: gwkokab/models/wrappers.py lines 8–14. -/
abbrev Reg (M : Type) := PyDict.Dict Param M

/-- `register(parameter, model)` (lines 16-28). -/
def register {M} (r : Reg M) (p : Param) (m : M) : Except Err (Reg M) :=
  match p with
  | .str s => .ok (PyDict.set r (.tup [some s]) m)
  | .tup l => if l.all Option.isSome then .ok (PyDict.set r (.tup l) m) else .error .assertion
  | .other => .error .valueError

/-- `__call__(parameter)` (lines 30-36): the registered constructor applied to the key; a missing key becomes
`NotImplementedError`; an unhashable key raises `TypeError`. -/
def call {M R} (apply : M → Param → R) (r : Reg M) (p : Param) : Except Err R :=
  match p with
  | .other => .error .type
  | p => match PyDict.get? r p with
    | some m => .ok (apply m p)
    | none => .error .notImplemented

/-- A sequence of `register` calls, ignoring those that raise.  Source: gwkokab/models/wrappers.py lines 16–28. -/
def registerAll {M} (r : Reg M) (ops : List (Param × M)) : Reg M :=
  ops.foldl (fun r o => match register r o.1 o.2 with
    | .ok r' => r'
    | .error _ => r) r

end GW.Registry
