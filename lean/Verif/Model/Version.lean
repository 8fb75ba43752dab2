import Verif.Model.Tools

/-!
# The version of the package

Model of `get_version`, `/repo/src/gwkokab/version.py` lines 41–81, which runs when the package is imported.
-/

namespace GW.Version
open GW.Tools (Err)

/-- `version` (line 56). -/
def base : String := "0.2.1"

/-- `str.lower()`; only ASCII letters matter for the comparisons.  Source: gwkokab/version.py lines 60–64. -/
def lower (s : String) : String := String.ofList (s.toList.map Char.toLower)

/-- `get_version()`: `env` is the environment variable, `hash` the answer of git, `date` the day.  Source: gwkokab/version.py lines 42–75. -/
def getVersion (env : Option String) (hash : Option String) (date : String) : Except Err String :=
  match env with
  | none => .ok base
  | some v =>
    if lower v ∉ ["1", "0", "true", "false"] then .error .assertion
    else if lower v ∈ ["0", "false"] then .ok base
    else
      match hash with
      | some h => if h = "" then .ok (base ++ "+d" ++ date) else .ok (base ++ "+g" ++ h)
      | none => .ok (base ++ "+d" ++ date)

end GW.Version
