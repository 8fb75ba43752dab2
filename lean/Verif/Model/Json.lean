import Mathlib.Data.List.Basic
import Mathlib.Data.Int.Notation
import Mathlib.Data.List.Dedup

/-!
# JSON files (gwkanal/utils/common.py lines 9–54, gwkokab_scripts/flowMC_cfg_template.py lines 53–99)

The JSON library of Python is part of the model: `json.dump(_, indent=4)` and `json.load`, after Lib/json/encoder.py (`_make_iterencode`,
`py_encode_basestring_ascii`) and Lib/json/decoder.py and scanner.py (`py_scanstring`, `JSONObject`, `JSONArray`, `py_make_scanner`).

Simplifications: a Python string is the list of its code points; keys of dictionaries are strings; a dictionary is the list of its items in order;
tuples are lists; the text of a float (`float.__repr__`) and its value (`float`) are given functions; `\d` of the number pattern and `int(_, 16)` accept
ASCII digits only; recursion limits are left out.  A file is its text; a file system maps a name to a text, if the file exists.
-/

namespace GW.Json

/-- A text. -/
abbrev Text := List Char

/-- A Python value, as far as `json` looks at it; `other` is an object it cannot write.  Source: gwkanal/utils/common.py lines 9–54. -/
inductive J (F : Type) where
  | null
  | bool (b : Bool)
  | int (z : ℤ)
  | flt (f : F)
  | str (s : List ℕ)
  | arr (vs : List (J F))
  | obj (kvs : List (List ℕ × J F))
  | other

/-- `float.__repr__` (as the encoder uses it, with `NaN`, `Infinity` and `-Infinity`) and `float`.  Source: gwkanal/utils/common.py lines 29, 52. -/
structure Floats (F : Type) where
  repr : F → Text
  parse : Text → F

variable {F : Type}

/-! ## Writing -/

/-- A hexadecimal digit, `'{0:x}'.format`.  Source: gwkanal/utils/common.py line 52 (json.dump). -/
def hexDigit (n : ℕ) : Char := "0123456789abcdef".toList.getD n '0'

/-- `'\\u{0:04x}'.format(n)`.  Source: gwkanal/utils/common.py line 52 (json.dump, `py_encode_basestring_ascii`). -/
def hex4 (n : ℕ) : Text := ['\\', 'u', hexDigit (n / 4096 % 16), hexDigit (n / 256 % 16), hexDigit (n / 16 % 16), hexDigit (n % 16)]

/-- The text of one code point.  Source: gwkanal/utils/common.py line 52 (json.dump, `py_encode_basestring_ascii`, `ESCAPE_DCT`). -/
def escape (n : ℕ) : Text :=
  if n = 92 then ['\\', '\\']
  else if n = 34 then ['\\', '"']
  else if n = 8 then ['\\', 'b']
  else if n = 12 then ['\\', 'f']
  else if n = 10 then ['\\', 'n']
  else if n = 13 then ['\\', 'r']
  else if n = 9 then ['\\', 't']
  else if 32 ≤ n ∧ n ≤ 126 then [Char.ofNat n]
  else if n < 0x10000 then hex4 n
  else hex4 (0xd800 + (n - 0x10000) / 0x400 % 0x400) ++ hex4 (0xdc00 + (n - 0x10000) % 0x400)

/-- `py_encode_basestring_ascii`.  Source: gwkanal/utils/common.py line 52 (json.dump). -/
def quote (s : List ℕ) : Text := '"' :: s.flatMap escape ++ ['"']

/-- The last decimal digits of a natural number.  Source: gwkanal/utils/common.py line 52 (json.dump, `int.__repr__`). -/
def natDigits : ℕ → ℕ → Text
  | 0, n => [Char.ofNat (48 + n % 10)]
  | k + 1, n => if n < 10 then [Char.ofNat (48 + n)] else natDigits k (n / 10) ++ [Char.ofNat (48 + n % 10)]

/-- The decimal digits of a natural number: there are at most as many as its value.  Source: gwkanal/utils/common.py line 52 (json.dump, `int.__repr__`). -/
def natText (n : ℕ) : Text := natDigits n n

/-- `int.__repr__`.  Source: gwkanal/utils/common.py line 52 (json.dump). -/
def intText : ℤ → Text
  | .ofNat n => natText n
  | .negSucc n => '-' :: natText (n + 1)

/-- `newline_indent` with `indent=4`.  Source: gwkanal/utils/common.py line 52 (json.dump). -/
def newline (level : ℕ) : Text := '\n' :: List.replicate (4 * level) ' '

/-- What has been written, and whether the writing went on to the end (`TypeError` otherwise). -/
abbrev Out := Text × Bool

/-- Writing one thing after another.  Source: gwkanal/utils/common.py line 52 (json.dump writes every chunk when it has been made). -/
def Out.then (a b : Out) : Out := if a.2 then (a.1 ++ b.1, b.2) else a

mutual
/-- `_iterencode` with `indent=4`.  Source: gwkanal/utils/common.py line 52 (json.dump). -/
def encode (fl : Floats F) (level : ℕ) : J F → Out
  | .null => ("null".toList, true)
  | .bool true => ("true".toList, true)
  | .bool false => ("false".toList, true)
  | .int z => (intText z, true)
  | .flt f => (fl.repr f, true)
  | .str s => (quote s, true)
  | .arr [] => ("[]".toList, true)
  | .arr (v :: vs) => Out.then ('[' :: newline (level + 1), true) (Out.then (encode fl (level + 1) v) (encodeItems fl level vs))
  | .obj [] => ("{}".toList, true)
  | .obj ((k, v) :: kvs) =>
    Out.then ('{' :: newline (level + 1) ++ quote k ++ ": ".toList, true) (Out.then (encode fl (level + 1) v) (encodeFields fl level kvs))
  | .other => ([], false)

/-- The rest of `_iterencode_list` after the first item.  Source: gwkanal/utils/common.py line 52 (json.dump). -/
def encodeItems (fl : Floats F) (level : ℕ) : List (J F) → Out
  | [] => (newline level ++ [']'], true)
  | v :: vs => Out.then (',' :: newline (level + 1), true) (Out.then (encode fl (level + 1) v) (encodeItems fl level vs))

/-- The rest of `_iterencode_dict` after the first item.  Source: gwkanal/utils/common.py line 52 (json.dump). -/
def encodeFields (fl : Floats F) (level : ℕ) : List (List ℕ × J F) → Out
  | [] => (newline level ++ ['}'], true)
  | (k, v) :: kvs =>
    Out.then (',' :: newline (level + 1) ++ quote k ++ ": ".toList, true) (Out.then (encode fl (level + 1) v) (encodeFields fl level kvs))
end

/-! ## Reading -/

/-- `WHITESPACE`.  Source: gwkanal/utils/common.py line 29 (json.load). -/
def isWs (c : Char) : Bool := c = ' ' ∨ c = '\t' ∨ c = '\n' ∨ c = '\r'

/-- `_w(s, end).end()`.  Source: gwkanal/utils/common.py line 29 (json.load). -/
def skipWs (s : Text) : Text := s.dropWhile isWs

/-- The value of a hexadecimal digit, `int(_, 16)`.  Source: gwkanal/utils/common.py line 29 (json.load, `_decode_uXXXX`). -/
def hexValue (c : Char) : Option ℕ :=
  if '0' ≤ c ∧ c ≤ '9' then some (c.toNat - 48)
  else if 'a' ≤ c ∧ c ≤ 'f' then some (c.toNat - 87)
  else if 'A' ≤ c ∧ c ≤ 'F' then some (c.toNat - 55)
  else none

/-- `_decode_uXXXX`, on the four characters after `\u`.  Source: gwkanal/utils/common.py line 29 (json.load). -/
def unhex4 (a b c d : Char) : Option ℕ :=
  match hexValue a, hexValue b, hexValue c, hexValue d with
  | some a, some b, some c, some d => some (((a * 16 + b) * 16 + c) * 16 + d)
  | _, _, _, _ => none

/-- `BACKSLASH`.  Source: gwkanal/utils/common.py line 29 (json.load). -/
def backslash (c : Char) : Option ℕ :=
  if c = '"' then some 34
  else if c = '\\' then some 92
  else if c = '/' then some 47
  else if c = 'b' then some 8
  else if c = 'f' then some 12
  else if c = 'n' then some 10
  else if c = 'r' then some 13
  else if c = 't' then some 9
  else none

/-- The characters after `\u`: the code point and what follows; a high surrogate takes a low surrogate that follows with it.
Source: gwkanal/utils/common.py line 29 (json.load, `py_scanstring`). -/
def scanUnicode : Text → Option (ℕ × Text)
  | a :: b :: c :: d :: r => match unhex4 a b c d with
    | none => none
    | some u =>
      if 0xd800 ≤ u ∧ u ≤ 0xdbff then match r with
        | '\\' :: 'u' :: r' => match r' with
          | a' :: b' :: c' :: d' :: r'' => match unhex4 a' b' c' d' with
            | none => none
            | some u' => if 0xdc00 ≤ u' ∧ u' ≤ 0xdfff then some (0x10000 + (u - 0xd800) * 0x400 + (u' - 0xdc00), r'') else some (u, r)
          | _ => none
        | _ => some (u, r)
      else some (u, r)
  | _ => none

/-- `py_scanstring` after the opening quote, with `strict=True`; the first argument bounds the number of characters.
Source: gwkanal/utils/common.py line 29 (json.load). -/
def scanString : ℕ → Text → Option (List ℕ × Text)
  | 0, _ => none
  | _ + 1, [] => none
  | n + 1, c :: r =>
    if c = '"' then some ([], r)
    else if c = '\\' then match r with
      | [] => none
      | e :: r' =>
        if e = 'u' then match scanUnicode r' with
          | none => none
          | some (u, r'') => (scanString n r'').map fun p => (u :: p.1, p.2)
        else match backslash e with
          | none => none
          | some u => (scanString n r').map fun p => (u :: p.1, p.2)
    else if c.toNat < 32 then none
    else (scanString n r).map fun p => (c.toNat :: p.1, p.2)

/-- A digit.  Source: gwkanal/utils/common.py line 29 (json.load, `NUMBER_RE`). -/
def isDig (c : Char) : Bool := '0' ≤ c ∧ c ≤ '9'

/-- `(-?(?:0|[1-9]\d*))` without the sign: the matched text and what follows.  Source: gwkanal/utils/common.py line 29 (json.load, `NUMBER_RE`). -/
def scanNat : Text → Option (Text × Text)
  | [] => none
  | c :: r => if c = '0' then some (['0'], r) else if isDig c then some (c :: r.takeWhile isDig, r.dropWhile isDig) else none

/-- `(-?(?:0|[1-9]\d*))`.  Source: gwkanal/utils/common.py line 29 (json.load, `NUMBER_RE`). -/
def scanInt : Text → Option (Text × Text)
  | '-' :: r => (scanNat r).map fun p => ('-' :: p.1, p.2)
  | s => scanNat s

/-- `(\.\d+)?`.  Source: gwkanal/utils/common.py line 29 (json.load, `NUMBER_RE`). -/
def scanFrac : Text → Text × Text
  | '.' :: r => if r.takeWhile isDig = [] then ([], '.' :: r) else ('.' :: r.takeWhile isDig, r.dropWhile isDig)
  | s => ([], s)

/-- `[-+]?`.  Source: gwkanal/utils/common.py line 29 (json.load, `NUMBER_RE`). -/
def signOf : Text → Text
  | [] => []
  | c :: _ => if c = '-' ∨ c = '+' then [c] else []

/-- `([eE][-+]?\d+)?`.  Source: gwkanal/utils/common.py line 29 (json.load, `NUMBER_RE`). -/
def scanExp : Text → Text × Text
  | [] => ([], [])
  | c :: r =>
    if c = 'e' ∨ c = 'E' then
      let r' := r.drop (signOf r).length
      if r'.takeWhile isDig = [] then ([], c :: r) else (c :: signOf r ++ r'.takeWhile isDig, r'.dropWhile isDig)
    else ([], c :: r)

/-- The value of a text of digits.  Source: gwkanal/utils/common.py line 29 (json.load, `parse_int`). -/
def natValue (ds : Text) : ℕ := ds.foldl (fun a c => 10 * a + (c.toNat - 48)) 0

/-- `int` of the matched text.  Source: gwkanal/utils/common.py line 29 (json.load, `parse_int`). -/
def intValue : Text → ℤ
  | '-' :: ds => - (natValue ds : ℤ)
  | ds => natValue ds

/-- The end of `_scan_once`: numbers and the three constants.  Source: gwkanal/utils/common.py line 29 (json.load, `py_make_scanner`). -/
def scanNumber (fl : Floats F) (s : Text) : Option (J F × Text) :=
  match scanInt s with
  | some (i, r) =>
    let f := scanFrac r
    let e := scanExp f.2
    if f.1 ≠ [] ∨ e.1 ≠ [] then some (.flt (fl.parse (i ++ f.1 ++ e.1)), e.2) else some (.int (intValue i), e.2)
  | none =>
    if s.take 3 = "NaN".toList then some (.flt (fl.parse "NaN".toList), s.drop 3)
    else if s.take 8 = "Infinity".toList then some (.flt (fl.parse "Infinity".toList), s.drop 8)
    else if s.take 9 = "-Infinity".toList then some (.flt (fl.parse "-Infinity".toList), s.drop 9)
    else none

/-- `dict(pairs)`: a key that comes again keeps its place and takes the new value.  Source: gwkanal/utils/common.py line 29 (json.load, `JSONObject`). -/
def store (d : List (List ℕ × J F)) (p : List ℕ × J F) : List (List ℕ × J F) :=
  if d.any fun q => q.1 = p.1 then d.map fun q => if q.1 = p.1 then p else q else d ++ [p]

/-- `dict(pairs)`.  Source: gwkanal/utils/common.py line 29 (json.load, `JSONObject`). -/
def toDict (ps : List (List ℕ × J F)) : List (List ℕ × J F) := ps.foldl store []

mutual
/-- `_scan_once`; the first argument bounds the depth.  Source: gwkanal/utils/common.py line 29 (json.load, `py_make_scanner`). -/
def scan (fl : Floats F) : ℕ → Text → Option (J F × Text)
  | 0, _ => none
  | _ + 1, [] => none
  | n + 1, c :: r =>
    if c = '"' then (scanString (n + 1) r).map fun p => (.str p.1, p.2)
    else if c = '{' then match skipWs r with
      | '}' :: r' => some (.obj [], r')
      | '"' :: r' => (scanFields fl n r').map fun p => (.obj (toDict p.1), p.2)
      | _ => none
    else if c = '[' then match skipWs r with
      | ']' :: r' => some (.arr [], r')
      | r' => (scanItems fl n r').map fun p => (.arr p.1, p.2)
    else if (c :: r).take 4 = "null".toList then some (.null, (c :: r).drop 4)
    else if (c :: r).take 4 = "true".toList then some (.bool true, (c :: r).drop 4)
    else if (c :: r).take 5 = "false".toList then some (.bool false, (c :: r).drop 5)
    else scanNumber fl (c :: r)

/-- The loop of `JSONArray`, at an item.  Source: gwkanal/utils/common.py line 29 (json.load). -/
def scanItems (fl : Floats F) : ℕ → Text → Option (List (J F) × Text)
  | 0, _ => none
  | n + 1, s => match scan fl n s with
    | none => none
    | some (v, r) => match skipWs r with
      | ']' :: r' => some ([v], r')
      | ',' :: r' => (scanItems fl n (skipWs r')).map fun p => (v :: p.1, p.2)
      | _ => none

/-- The loop of `JSONObject`, after the opening quote of a key.  Source: gwkanal/utils/common.py line 29 (json.load). -/
def scanFields (fl : Floats F) : ℕ → Text → Option (List (List ℕ × J F) × Text)
  | 0, _ => none
  | n + 1, s => match scanString (n + 1) s with
    | none => none
    | some (k, r) => match skipWs r with
      | ':' :: r1 => match scan fl n (skipWs r1) with
        | none => none
        | some (v, r2) => match skipWs r2 with
          | '}' :: r3 => some ([(k, v)], r3)
          | ',' :: r3 => match skipWs r3 with
            | '"' :: r4 => (scanFields fl n r4).map fun p => ((k, v) :: p.1, p.2)
            | _ => none
          | _ => none
      | _ => none
end

/-- `json.loads`: `none` is `JSONDecodeError`.  Source: gwkanal/utils/common.py line 29 (json.load). -/
def loads (fl : Floats F) (s : Text) : Option (J F) :=
  if s.head? = some (Char.ofNat 0xfeff) then none
  else match scan fl (s.length + 1) (skipWs s) with
    | some (v, r) => if skipWs r = [] then some v else none
    | none => none

/-! ## Files -/

/-- The errors of `read_json` and `write_json`. -/
inductive Err where
  | valueError
deriving DecidableEq, Repr

/-- A file system: the text of every file that exists. -/
abbrev Files := String → Option Text

/-- `read_json`, gwkanal/utils/common.py lines 9–32. -/
def readJson (fl : Floats F) (fs : Files) (name : String) : Except Err (J F) :=
  match fs name with
  | none => .error .valueError
  | some s => match loads fl s with
    | none => .error .valueError
    | some v => .ok v

/-- `write_json` into a directory that exists, gwkanal/utils/common.py lines 35–54: the file is emptied when it is opened and takes what is written before
an error. -/
def writeJson (fl : Floats F) (fs : Files) (name : String) (content : J F) : Files × Except Err Unit :=
  let out := encode fl 0 content
  (fun n => if n = name then some out.1 else fs n, if out.2 then .ok () else .error .valueError)

/-! ## Templates -/

/-- Whether a text occurs in a line: `h in line`.  Source: gwkokab_scripts/flowMC_cfg_template.py line 76. -/
def occurs (h : Text) : Text → Bool
  | [] => h.isEmpty
  | c :: s => h.isPrefixOf (c :: s) || occurs h s

/-- `splitlines()` of a text all of whose line ends are `\n`.  Source: gwkokab_scripts/flowMC_cfg_template.py line 71. -/
def lines : Text → List Text
  | [] => []
  | s => go s
where
  /-- The lines of a text that does not end. -/
  go : Text → List Text
    | [] => [[]]
    | c :: r => if c = '\n' then [] :: go r else match go r with
      | [] => [[c]]
      | l :: ls => (c :: l) :: ls

/-- The sections of the template, gwkokab_scripts/flowMC_cfg_template.py lines 58–67. -/
def sectionHeaders : List String :=
  ["batch_size", "n_NFproposal_batch_size", "n_global_steps", "global_thinning", "n_production_loops", "local_sampler_name", "learning_rate", "verbose"]

/-- The text of `format_json_with_gaps` from the dumped text, gwkokab_scripts/flowMC_cfg_template.py lines 71–80. -/
def withGaps (headers : List String) (s : Text) : Text :=
  List.intercalate ['\n'] ((lines s).flatMap fun l =>
    if headers.any fun h => occurs ('"' :: h.toList ++ ['"']) l then [[], l] else [l])

end GW.Json
