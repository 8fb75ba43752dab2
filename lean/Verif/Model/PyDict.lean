import Mathlib.Data.List.Basic

/-!
# Python dictionaries

Association lists in insertion order: `d[k] = v` replaces the value in place when the key is present and appends otherwise.
-/

namespace GW.PyDict

/-- A Python dictionary in insertion order, as used e.g. in gwkanal/utils/regex.py lines 46–56. -/
abbrev Dict (K V : Type) := List (K × V)

variable {K V : Type} [DecidableEq K]

/-- `d.get(k)`.  Source: Python dictionaries as used e.g. in gwkanal/utils/regex.py lines 46–56. -/
def get? : Dict K V → K → Option V
  | [], _ => none
  | p :: d, k => if p.1 = k then some p.2 else get? d k

/-- `d[k] = v`.  Source: Python dictionaries as used e.g. in gwkanal/utils/regex.py lines 46–56. -/
def set : Dict K V → K → V → Dict K V
  | [], k, v => [(k, v)]
  | p :: d, k, v => if p.1 = k then (k, v) :: d else p :: set d k v

/-- `d.keys()` in insertion order.  Source: Python dictionaries as used e.g. in gwkanal/core/guru.py line 290. -/
def keys (d : Dict K V) : List K := d.map (·.1)

/-- `dict(pairs)`.  Source: Python dictionaries as used e.g. in gwkanal/core/guru.py lines 289–291. -/
def ofPairs (l : List (K × V)) : Dict K V := l.foldl (fun d p => set d p.1 p.2) []

end GW.PyDict
