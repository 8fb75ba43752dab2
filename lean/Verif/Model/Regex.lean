import Verif.Model.PyDict

/-!
# Matching parameter names against patterns

Model of `/repo/src/gwkanal/utils/regex.py`.  Dictionaries are association lists in insertion order; `re.fullmatch` is an
arbitrary relation `fm` (patterns that do not compile are not modelled); warnings are dropped.
-/

namespace GW.Regex

/-- Values of the table: numbers (with their zero-ness), strings (aliases), dictionaries (priors), `None`.
Source: gwkanal/utils/regex.py lines 28–30. -/
inductive Val where
  | num (n : Int)
  | str (s : String)
  | dict (id : Nat) (empty : Bool)
  | none
deriving DecidableEq, Repr

/-- Python truthiness.  Source: gwkanal/utils/regex.py line 49. -/
def Val.truthy : Val → Bool
  | .num n => n ≠ 0
  | .str s => s ≠ ""
  | .dict _ e => !e
  | .none => false

/-- `isinstance(value, dict)`, gwkanal/utils/regex.py lines 71–75. -/
def Val.isDict : Val → Bool
  | .dict _ _ => true
  | _ => false

open PyDict (Dict)

/-- `d.get(k)`, `None` when absent.  Source: gwkanal/utils/regex.py lines 49 and 53. -/
def get (d : Dict String Val) (k : String) : Val := (PyDict.get? d k).getD .none

/-- `fm pattern string` is `bool(re.fullmatch(pattern, string))` (lines 10-25). -/
abbrev FullMatch := String → String → Bool

/-- Lines 58-65: the value of the first pattern in the table that matches. -/
def firstMatch (fm : FullMatch) (table : Dict String Val) (s : String) : Val :=
  match table.find? fun p => fm p.1 s with
  | some p => p.2
  | none => .none

/-- One iteration of the first loop (lines 48-65): the state is `(matches, duplicates)`. -/
def step (fm : FullMatch) (table : Dict String Val) (st : Dict String Val × List String) (s : String) :
    Dict String Val × List String :=
  if (get table s).truthy then
    match get table s with
    | .str t => if get st.1 t = .none then (st.1, st.2 ++ [s]) else (PyDict.set st.1 s (.str t), st.2)
    | v => (PyDict.set st.1 s v, st.2)
  else (PyDict.set st.1 s (firstMatch fm table s), st.2)

/-- The inner loop over the table for one duplicate (lines 68-77); `tgt` is `pattern_dict_with_val[duplicate]` and
the result is `(matches, pattern_found)`. -/
def dupLoop (fm : FullMatch) (tgt : String) (dup : String) :
    Dict String Val → Dict String Val → Bool → Dict String Val × Bool
  | [], m, found => (m, found)
  | (p, v) :: rest, m, found =>
    if !v.isDict && fm p tgt then (PyDict.set m dup v, true)
    else if v.isDict then dupLoop fm tgt dup rest (PyDict.set m dup (.str tgt)) true
    else dupLoop fm tgt dup rest m found

/-- Lines 67-79 for one duplicate. -/
def dupStep (fm : FullMatch) (table : Dict String Val) (m : Dict String Val) (dup : String) :
    Dict String Val :=
  match get table dup with
  | .str tgt =>
    let r := dupLoop fm tgt dup table m false
    if r.2 then r.1 else PyDict.set r.1 dup .none
  | _ => m

/-- `match_all` (lines 28-85). -/
def matchAll (fm : FullMatch) (strings : List String) (table : Dict String Val) : Dict String Val :=
  let st := strings.foldl (step fm table) ([], [])
  st.2.foldl (dupStep fm table) st.1

end GW.Regex
