import Verif.Model.Json

/-! # What a JSON text means -/

namespace GW.Json

variable {F : Type}

/-- Only blanks, tabs and line ends. -/
def Blank (w : Text) : Prop := ∀ c ∈ w, c ∈ [' ', '\t', '\n', '\r']

/-- A text of decimal digits. -/
def Digits (ds : Text) : Prop := ∀ c ∈ ds, c.isDigit = true

/-- The text of a floating point number: digits with a fraction or an exponent, or one of the three special values. -/
def IsFloatText (t : Text) : Prop :=
  t = "NaN".toList ∨ t = "Infinity".toList ∨ t = "-Infinity".toList ∨
  ∃ sign int frac exp : Text, t = sign ++ int ++ frac ++ exp ∧ (sign = [] ∨ sign = ['-']) ∧
    (int = ['0'] ∨ ∃ c ds, int = c :: ds ∧ c ≠ '0' ∧ Digits (c :: ds)) ∧
    (frac = [] ∨ ∃ ds, frac = '.' :: ds ∧ ds ≠ [] ∧ Digits ds) ∧
    (exp = [] ∨ ∃ e s ds, exp = e :: s ++ ds ∧ (e = 'e' ∨ e = 'E') ∧ (s = [] ∨ s = ['+'] ∨ s = ['-']) ∧ ds ≠ [] ∧ Digits ds) ∧
    (frac ≠ [] ∨ exp ≠ [])

/-- A string of Unicode code points in which no high surrogate is followed by a low one. -/
def StringOk (s : List ℕ) : Prop :=
  (∀ n ∈ s, n < 0x110000) ∧ ∀ a b, [a, b] <:+: s → ¬ ((0xd800 ≤ a ∧ a ≤ 0xdbff) ∧ (0xdc00 ≤ b ∧ b ≤ 0xdfff))

mutual
/-- A value that a JSON file can hold: no foreign objects, proper strings, and floats whose text is a float text that means the same float. -/
def Writable (fl : Floats F) : J F → Prop
  | .null => True
  | .bool _ => True
  | .int _ => True
  | .flt f => IsFloatText (fl.repr f) ∧ fl.parse (fl.repr f) = f
  | .str s => StringOk s
  | .arr vs => WritableItems fl vs
  | .obj kvs => WritableFields fl kvs
  | .other => False

/-- `Writable` for the items of a list. -/
def WritableItems (fl : Floats F) : List (J F) → Prop
  | [] => True
  | v :: vs => Writable fl v ∧ WritableItems fl vs

/-- `Writable` for the items of a dictionary. -/
def WritableFields (fl : Floats F) : List (List ℕ × J F) → Prop
  | [] => True
  | (k, v) :: kvs => StringOk k ∧ Writable fl v ∧ WritableFields fl kvs
end

mutual
/-- The keys of every dictionary are distinct. -/
def DistinctKeys : J F → Prop
  | .arr vs => DistinctKeysItems vs
  | .obj kvs => (kvs.map Prod.fst).Nodup ∧ DistinctKeysFields kvs
  | _ => True

/-- `DistinctKeys` for the items of a list. -/
def DistinctKeysItems : List (J F) → Prop
  | [] => True
  | v :: vs => DistinctKeys v ∧ DistinctKeysItems vs

/-- `DistinctKeys` for the items of a dictionary. -/
def DistinctKeysFields : List (List ℕ × J F) → Prop
  | [] => True
  | (_, v) :: kvs => DistinctKeys v ∧ DistinctKeysFields kvs
end

mutual
/-- Somewhere in the value is an object that JSON cannot write. -/
def Foreign : J F → Prop
  | .other => True
  | .arr vs => ForeignItems vs
  | .obj kvs => ForeignFields kvs
  | _ => False

/-- `Foreign` for the items of a list. -/
def ForeignItems : List (J F) → Prop
  | [] => False
  | v :: vs => Foreign v ∨ ForeignItems vs

/-- `Foreign` for the items of a dictionary. -/
def ForeignFields : List (List ℕ × J F) → Prop
  | [] => False
  | (_, v) :: kvs => Foreign v ∨ ForeignFields kvs
end

mutual
/-- The value with `w` in the place of every object that JSON cannot write. -/
def fill (w : J F) : J F → J F
  | .other => w
  | .arr vs => .arr (fillItems w vs)
  | .obj kvs => .obj (fillFields w kvs)
  | v => v

/-- `fill` for the items of a list. -/
def fillItems (w : J F) : List (J F) → List (J F)
  | [] => []
  | v :: vs => fill w v :: fillItems w vs

/-- `fill` for the items of a dictionary. -/
def fillFields (w : J F) : List (List ℕ × J F) → List (List ℕ × J F)
  | [] => []
  | (k, v) :: kvs => (k, fill w v) :: fillFields w kvs
end

/-- A hexadecimal digit, in either case, and its value. -/
def HexDigit (c : Char) (n : ℕ) : Prop := "0123456789abcdef".toList[n]? = some c ∨ "0123456789ABCDEF".toList[n]? = some c

/-- `\uXXXX`. -/
def Unit4 (n : ℕ) (t : Text) : Prop :=
  ∃ a b c d w x y z, t = ['\\', 'u', a, b, c, d] ∧ HexDigit a w ∧ HexDigit b x ∧ HexDigit c y ∧ HexDigit d z ∧ n = 4096 * w + 256 * x + 16 * y + z

/-- `Spells n t`: inside a JSON string, the text `t` stands for the code point `n`: the character itself (unless it is a control character, a quote or a
backslash), one of the short escapes, `\uXXXX`, or a surrogate pair. -/
def Spells (n : ℕ) (t : Text) : Prop :=
  (∃ c, t = [c] ∧ c.toNat = n ∧ 32 ≤ n ∧ c ≠ '"' ∧ c ≠ '\\') ∨
  (∃ e, t = ['\\', e] ∧ (e, n) ∈ [('"', 34), ('\\', 92), ('/', 47), ('b', 8), ('f', 12), ('n', 10), ('r', 13), ('t', 9)]) ∨
  Unit4 n t ∨
  ∃ u v a b, Unit4 u a ∧ Unit4 v b ∧ t = a ++ b ∧ (0xd800 ≤ u ∧ u ≤ 0xdbff) ∧ (0xdc00 ≤ v ∧ v ≤ 0xdfff) ∧
    n = 0x10000 + 0x400 * (u - 0xd800) + (v - 0xdc00)

/-- The text of the code points of a string, each spelled in one of the ways. -/
def SpellsAll : List ℕ → Text → Prop
  | [], t => t = []
  | n :: s, t => ∃ a b, Spells n a ∧ SpellsAll s b ∧ t = a ++ b

/-- A string in quotes. -/
def Quoted (s : List ℕ) (t : Text) : Prop := ∃ body, SpellsAll s body ∧ t = '"' :: body ++ ['"']

/-- `IsInt z t`: the decimal digits of an integer, without leading zeros. -/
def IsInt (z : ℤ) (t : Text) : Prop :=
  ∃ sign int : Text, t = sign ++ int ∧ (int = ['0'] ∨ ∃ c ds, int = c :: ds ∧ c ≠ '0' ∧ Digits (c :: ds)) ∧
    ∃ m : ℕ, int.foldl (fun a c => 10 * a + (c.toNat - 48)) 0 = m ∧ (sign = [] ∧ z = m ∨ sign = ['-'] ∧ z = -m)

mutual
/-- `Renders fl v s`: the text `s` writes the value `v`, with any blanks and line ends between its parts, any spelling of the characters of its strings, and
any text of its floats. -/
def Renders (fl : Floats F) : J F → Text → Prop
  | .null, s => s = "null".toList
  | .bool b, s => s = (if b then "true" else "false").toList
  | .int z, s => IsInt z s
  | .flt f, s => IsFloatText s ∧ fl.parse s = f
  | .str t, s => Quoted t s
  | .arr [], s => ∃ w, Blank w ∧ s = '[' :: w ++ [']']
  | .arr (v :: vs), s => ∃ w a b, Blank w ∧ Renders fl v a ∧ RendersItems fl vs b ∧ s = '[' :: w ++ a ++ b
  | .obj [], s => ∃ w, Blank w ∧ s = '{' :: w ++ ['}']
  | .obj ((k, v) :: kvs), s => ∃ w q w1 w2 a b, Blank w ∧ Quoted k q ∧ Blank w1 ∧ Blank w2 ∧ Renders fl v a ∧ RendersFields fl kvs b ∧
      s = '{' :: w ++ q ++ w1 ++ ':' :: w2 ++ a ++ b
  | .other, _ => False

/-- The rest of a list, after an item. -/
def RendersItems (fl : Floats F) : List (J F) → Text → Prop
  | [], s => ∃ w, Blank w ∧ s = w ++ [']']
  | v :: vs, s => ∃ w w1 a b, Blank w ∧ Blank w1 ∧ Renders fl v a ∧ RendersItems fl vs b ∧ s = w ++ ',' :: w1 ++ a ++ b

/-- The rest of a dictionary, after an item. -/
def RendersFields (fl : Floats F) : List (List ℕ × J F) → Text → Prop
  | [], s => ∃ w, Blank w ∧ s = w ++ ['}']
  | (k, v) :: kvs, s => ∃ w w0 q w1 w2 a b, Blank w ∧ Blank w0 ∧ Quoted k q ∧ Blank w1 ∧ Blank w2 ∧ Renders fl v a ∧ RendersFields fl kvs b ∧
      s = w ++ ',' :: w0 ++ q ++ w1 ++ ':' :: w2 ++ a ++ b
end

end GW.Json
