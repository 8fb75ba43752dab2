/-!
# The log

Model of `/repo/src/gwkanal/utils/logger.py`: where the log of a program goes and which messages it holds.  loguru is a library; what is
modelled is the documented behaviour of the calls made here: `logger.add(path, level=...)` opens the file for appending, a message goes to
every handler whose level it reaches, `logger.remove()` forgets all handlers (initially one that prints on the terminal from `DEBUG` up).

Simplifications: a line of the log is its message (the layout of `custom_format` is not modelled); creating a directory succeeds unless its
name is empty.
-/

namespace GW.Logging

/-- The levels of loguru, gwkanal/utils/logger.py:61. -/
inductive Level
  | trace | debug | info | success | warning | error | critical
  deriving DecidableEq

/-- loguru's severity numbers, used by `logger.add(level=...)`, gwkanal/utils/logger.py:77–81. -/
def Level.no : Level → Nat
  | .trace => 5 | .debug => 10 | .info => 20 | .success => 25 | .warning => 30 | .error => 40 | .critical => 50

/-- `valid_levels`, gwkanal/utils/logger.py:61, with the levels they name. -/
def validLevels : List (String × Level) :=
  [("TRACE", .trace), ("DEBUG", .debug), ("INFO", .info), ("SUCCESS", .success), ("WARNING", .warning), ("ERROR", .error),
    ("CRITICAL", .critical)]

/-- Where messages go: the terminal or a file, gwkanal/utils/logger.py:76–81. -/
inductive Sink
  | terminal | file (path : String)
  deriving DecidableEq

/-- The environment variables (`os.environ.get`, `os.getenv`) and the time as `time_now` writes it, gwkanal/utils/logger.py:63–71. -/
structure Env where
  var : String → Option String
  now : String

/-- The handlers of the logger, what each sink holds, and the directories made, gwkanal/utils/logger.py:74–81. -/
structure State where
  handlers : List (Sink × Level)
  lines : Sink → List String
  dirs : List String

/-- A program before it sets up its log: loguru prints on the terminal from `DEBUG` up, gwkanal/utils/logger.py:7 (`from loguru import
logger`). -/
def initial (lines : Sink → List String) : State := ⟨[(.terminal, .debug)], lines, []⟩

/-- `os.path.join`, gwkanal/utils/logger.py:72. -/
def join (d f : String) : String :=
  if f.toList.head? = some '/' then f
  else if d = "" ∨ d.toList.getLast? = some '/' then d ++ f
  else d ++ "/" ++ f

/-- `log_filename`, gwkanal/utils/logger.py:68–72. -/
def logFilename (env : Env) : String :=
  join ((env.var "GWKOKAB_LOG_DIR").getD "./logs") ((env.var "GWKOKAB_LOG_FILE").getD ("gwkokab_" ++ env.now ++ ".log"))

/-- Logging one message (`logger.debug`, `logger.info`, …), gwkanal/utils/logger.py:82. -/
def State.log (s : State) (l : Level) (msg : String) : State :=
  { s with lines := fun k => s.lines k ++ (s.handlers.filter fun h => h.1 = k ∧ h.2.no ≤ l.no).map fun _ => msg }

/-- The two ways `set_log_level` fails: the level is not valid (`ValueError`), or the directory cannot be made (`os.makedirs("")`),
gwkanal/utils/logger.py:63–74. -/
inductive Failure
  | badLevel | noDirectory
  deriving DecidableEq

/-- `set_log_level`, gwkanal/utils/logger.py:52–82. -/
def setLogLevel (env : Env) (s : State) : State × Option Failure :=
  let name := (env.var "GWKOKAB_LOG_LEVEL").getD "TRACE"
  match validLevels.find? (fun e => e.1 = name) with
  | none => (s, some .badLevel)
  | some (_, level) =>
    let dir := (env.var "GWKOKAB_LOG_DIR").getD "./logs"
    if dir = "" then (s, some .noDirectory)
    else
      let s := { s with dirs := s.dirs ++ [dir] }
      let s := { s with handlers := [] }
      let s := { s with handlers := s.handlers ++ [(Sink.file (logFilename env), level)] }
      (s.log .debug ("Setting LogLevel to " ++ name), none)

/-- What a program does with its log: `set_log_level` (through `log_info`, gwkanal/utils/logger.py:156) and messages. -/
inductive Op
  | set (env : Env)
  | log (l : Level) (msg : String)

/-- One such step, gwkanal/utils/logger.py:148–162 (a failing `set_log_level` leaves the state it has reached). -/
def State.step (s : State) : Op → State
  | .set env => (setLogLevel env s).1
  | .log l msg => s.log l msg

end GW.Logging
