import Verif.Model.Tools

/-!
# Small helpers of the analysis scripts

Model of `expand_arguments` and `ppd_ranges`, `/repo/src/gwkanal/utils/common.py`.
-/

namespace GW.Common
open GW.Tools (Err)

/-- `expand_arguments(arg, n)` (lines 57-77). -/
def expandArguments (arg : String) (n : Nat) : List String :=
  (List.range n).map fun i => arg ++ "_" ++ toString i

/-- A grid range `(start, end, num_points)`.  Source: gwkanal/utils/common.py lines 80–111. -/
abbrev Range := ℚ × ℚ × Int

/-- The loop of `ppd_ranges` (lines 103-110); the conversions by `float` and `int` are the identity. -/
def ppdLoop (parameters : List String) : List (String × Range) → List (Option Range) → Except Err (List (Option Range))
  | [], out => .ok out
  | (name, r) :: rest, out =>
    if name ∉ parameters then .error .valueError
    else ppdLoop parameters rest (out.set (parameters.idxOf name) (some r))

/-- `ppd_ranges(parameters, ranges)` (lines 80-111). -/
def ppdRanges (parameters : List String) (ranges : List (String × Range)) : Except Err (List (Option Range)) :=
  ppdLoop parameters ranges (List.replicate parameters.length none)

end GW.Common
