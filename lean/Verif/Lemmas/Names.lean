import Mathlib.Data.List.Basic

/-! Names built from decimal numerals are distinct. -/

namespace GW

theorem toString_nat_inj {a b : Nat} (h : toString a = toString b) : a = b := by
  have h' : Nat.toDigits 10 a = Nat.toDigits 10 b := by
    have := congrArg String.toList h
    simpa [Nat.toString_eq_repr] using this
  have := congrArg (fun l => Nat.ofDigitChars 10 l 0) h'
  simpa using this

theorem append_right_inj_str {p a b : String} (h : p ++ a = p ++ b) : a = b := by
  have := congrArg String.toList h
  simp at this
  exact String.toList_inj.1 this

theorem numbered_inj {p : String} {a b : Nat} (h : p ++ toString a = p ++ toString b) : a = b :=
  toString_nat_inj (append_right_inj_str h)

end GW
