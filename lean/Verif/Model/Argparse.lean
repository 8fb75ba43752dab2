import Mathlib.Data.Rat.Defs
import Mathlib.Data.List.Infix

/-!
# Command lines

Model of Python's `argparse` as the programs of `/repo/src/gwkanal` use it: long options only, the actions `store` (with `type=int`,
`float` or `str`), `store_true` and `append` with `nargs="+"`, mutually exclusive groups, required options, defaults, and the standard
help option.  argparse itself is a library; what is modelled is the documented behaviour of the calls made by the repository.

Every way of ending without a namespace (a usage error, or printing the help) is the single outcome `none`: the program stops before it
does anything.
-/

namespace GW.Cli

/-- A Python float given on the command line or as a default, e.g. `default=3.0` in gwkanal/core/sage.py:312.  Simplification: a finite
float is the rational number its decimal digits say. -/
inductive PyFloat
  | rat (q : Rat) | inf | ninf | nan
  deriving DecidableEq

/-- A value of the namespace `parser.parse_args()` returns, e.g. `args.seed`, gwkanal/n_pls_m_gs/sage.py:669–701. -/
inductive Val
  | none | bool (b : Bool) | int (n : Int) | float (x : PyFloat) | str (s : String) | lists (l : List (List String))
  deriving DecidableEq

/-- The `action=`, `type=` and `nargs=` of `add_argument`, gwkanal/core/guru.py:417–475 and gwkanal/utils/genie_parser.py:31–66:
`store_true`, one `int`, one `float`, one `str`, `append` of one or more words, and argparse's own `--help`. -/
inductive Action
  | help | flag | int | float | str | words
  deriving DecidableEq

/-- One `add_argument` call, gwkanal/core/guru.py:417–475: the option string, the action, `default=`, `required=` and the mutually
exclusive group it was added to (numbered). -/
structure Opt where
  name : String
  action : Action
  default : Val := .none
  required : Bool := false
  group : Option Nat := none
  deriving DecidableEq

/-- The attribute an option is stored under: the option string without its leading dashes, with `-` replaced by `_`
(`args.pmean_json` for `--pmean-json`, gwkanal/n_pls_m_gs/sage.py:669–701). -/
def Opt.dest (o : Opt) : String := String.ofList ((o.name.toList.drop 2).map fun c => if c = '-' then '_' else c)

/-- `arg_string.split("=", 1)`: the part before the first `=` and, if there is one, the part after it.  Used by `parser.parse_args()`,
gwkanal/n_pls_m_gs/sage.py:663. -/
def splitEq : List Char → List Char × Option (List Char)
  | [] => ([], none)
  | c :: cs => if c = '=' then ([], some cs) else let r := splitEq cs; (c :: r.1, r.2)

/-- argparse's `_negative_number_matcher`, `^-\d+$|^-\d*\.\d+$` (no option of the repository looks like a negative number, so such a word
is a value).  Used by `parser.parse_args()`, gwkanal/n_pls_m_gs/sage.py:663. -/
def isNegNumber : List Char → Bool
  | '-' :: cs =>
    (!cs.isEmpty && cs.all Char.isDigit) ||
      match cs.dropWhile Char.isDigit with
      | '.' :: ds => !ds.isEmpty && ds.all Char.isDigit
      | _ => false
  | _ => false

/-- How argparse reads one word of the command line: as an option (with the text after `=`), as a plain word, or not at all. -/
inductive Tok
  | opt (o : Opt) (explicit : Option String) | word | bad
  deriving DecidableEq

/-- An abbreviation: argparse's `_get_option_tuples`, as called by `parser.parse_args()`, gwkanal/n_pls_m_gs/sage.py:663.  One fitting option
is taken, several are an error ("ambiguous option"); if none fits, a text with a space is a plain word. -/
def abbreviation (opts : List Opt) (p : List Char × Option (List Char)) (space : Bool) : Tok :=
  match opts.filter (fun o => p.1.isPrefixOf o.name.toList) with
  | [o] => .opt o (p.2.map String.ofList)
  | _ :: _ :: _ => .bad
  | [] => if space then .word else .bad

/-- A word that begins with a dash, is longer than that and is not `--`: the full name of an option, possibly followed by `=`; else with two
dashes an abbreviation; else a request for help, a negative number, a text with a space, or an error.  argparse's `_parse_optional`, as
called by `parser.parse_args()`, gwkanal/n_pls_m_gs/sage.py:663. -/
def readDash (opts : List Opt) (t cs : List Char) : Tok :=
  match opts.find? (fun o => o.name.toList = (splitEq t).1) with
  | some o => .opt o ((splitEq t).2.map String.ofList)
  | none =>
    if cs.head? = some '-' then abbreviation opts (splitEq t) (decide (' ' ∈ cs))
    else if cs.head? = some 'h' then .bad
    else if isNegNumber t || decide (' ' ∈ cs) then .word
    else .bad

/-- argparse's `_parse_optional` for a parser with the options `opts`, as called by `parser.parse_args()`, gwkanal/n_pls_m_gs/sage.py:663.
Simplification: a bare `--` counts as unreadable (no program takes positional arguments), and every word that begins with `-h` as a request
for help. -/
def classify (opts : List Opt) (t : String) : Tok :=
  match t.toList with
  | [] => .word
  | c :: cs =>
    if c ≠ '-' then .word
    else if cs = [] then .word
    else if cs = ['-'] then .bad
    else readDash opts t.toList cs

/-- One option as it was given, with its words. -/
abbrev Item := Opt × List String

/-- What the parser still waits for: nothing, one value, or further words of a list.  Used by `parser.parse_args()`,
gwkanal/n_pls_m_gs/sage.py:663. -/
inductive Pending
  | idle | one (o : Opt) | many (o : Opt) (ws : List String)

/-- argparse's `consume_optional` for one option: flags take no value, `--flag=x` is an error, other options take the text after `=` or
wait for what follows (`parser.parse_args()`, gwkanal/n_pls_m_gs/sage.py:663). -/
def openOpt (o : Opt) (explicit : Option String) : Option (List Item × Pending) :=
  match o.action, explicit with
  | .help, _ => none
  | .flag, none => some ([(o, [])], .idle)
  | .flag, some _ => none
  | _, some v => some ([(o, [v])], .idle)
  | .words, none => some ([], .many o [])
  | _, none => some ([], .one o)

/-- A plain word: the value that was waited for, a further word of a list, or (no positional arguments) an error.  `parser.parse_args()`,
gwkanal/n_pls_m_gs/sage.py:663. -/
def feed (p : Pending) (t : String) : Option (List Item × Pending) :=
  match p with
  | .idle => none
  | .one o => some ([(o, [t])], .idle)
  | .many o ws => some ([], .many o (ws ++ [t]))

/-- What is waited for when no further plain word comes: "expected one argument" and "expected at least one argument" are errors.
`parser.parse_args()`, gwkanal/n_pls_m_gs/sage.py:663. -/
def flush : Pending → Option (List Item)
  | .idle => some []
  | .one _ => none
  | .many o ws => if ws = [] then none else some [(o, ws)]

/-- The walk of `parser.parse_args()` over the command line, gwkanal/n_pls_m_gs/sage.py:663. -/
def items (opts : List Opt) : Pending → List String → Option (List Item)
  | p, [] => flush p
  | p, t :: ts =>
    match classify opts t with
    | .bad => none
    | .word => do
      let (a, p') ← feed p t
      let r ← items opts p' ts
      some (a ++ r)
    | .opt o e => do
      let a ← flush p
      let (b, p') ← openOpt o e
      let r ← items opts p' ts
      some (a ++ b ++ r)

/-- Python's `int(…)` and `float(…)` on a string; `none` is `ValueError`.  Passed as `type=` in gwkanal/core/guru.py:417–447. -/
structure Conv where
  int : String → Option Int
  float : String → Option PyFloat

/-- The value an option gets from its words, `type=` of `add_argument`, gwkanal/core/guru.py:417–475. -/
def convert (cv : Conv) (i : Item) : Option Val :=
  match i.1.action, i.2 with
  | .flag, [] => some (.bool true)
  | .int, [w] => (cv.int w).map .int
  | .float, [w] => (cv.float w).map .float
  | .str, [w] => some (.str w)
  | .words, ws => some (.lists [ws])
  | _, _ => none

/-- Two options of one mutually exclusive group, `add_mutually_exclusive_group()`, gwkanal/n_pls_m_gs/sage.py:562–572. -/
def conflict (i j : Item) : Bool := i.1.group.isSome && decide (i.1.group = j.1.group) && decide (i.1.name ≠ j.1.name)

/-- `parser.parse_args()`, gwkanal/n_pls_m_gs/sage.py:663: the options given, or `none` when the program stops with a usage error: an
unreadable word, a value that does not convert, two exclusive options, a missing required option. -/
def parse (opts : List Opt) (cv : Conv) (argv : List String) : Option (List Item) :=
  match items opts .idle argv with
  | none => none
  | some its =>
    if its.any (fun i => (convert cv i).isNone) then none
    else if its.any (fun i => its.any (conflict i)) then none
    else if opts.any (fun o => o.required && !its.any (fun i => i.1.name = o.name)) then none
    else some its

/-- The value of one option: the last one given, the list of all lists for `append`, `True` for a flag, or the default (`False` for a
flag); `parser.parse_args()`, gwkanal/n_pls_m_gs/sage.py:663. -/
def value (cv : Conv) (its : List Item) (o : Opt) : Val :=
  let given := its.filter (fun i => i.1.name = o.name)
  match o.action with
  | .words => if given = [] then o.default else .lists (given.map Prod.snd)
  | .flag => .bool (!given.isEmpty)
  | _ => match given.getLast? with
    | none => o.default
    | some i => (convert cv i).getD .none

/-- `args.<attribute>`, gwkanal/n_pls_m_gs/sage.py:669–701; `none` is `AttributeError`. -/
def attr (opts : List Opt) (cv : Conv) (its : List Item) (dest : String) : Option Val :=
  (opts.find? (fun o => o.dest = dest)).map (value cv its)

end GW.Cli
