import Verif.Lemmas.Logging

/-!
# C106: the log

A program logs to the file `$GWKOKAB_LOG_DIR/$GWKOKAB_LOG_FILE` the messages of at least the level `$GWKOKAB_LOG_LEVEL`, in order and after
whatever the file held, and nothing to the terminal; a level that does not exist is refused without touching anything; without a level,
`WARNING` is used.

The last part does not hold: without a level everything from `TRACE` up is logged.
-/

namespace GW.Logging

open Spec

/-- With a level asked for and a directory, the log file receives, after what it held and after the line about the level (which is itself a
`DEBUG` message), exactly the messages of at least that level, in order; nothing else receives anything, and the directory is made. -/
theorem C106_log_file {env : Env} {l : Level} (hl : Asks env l) {dir : String} (hd : (env.var "GWKOKAB_LOG_DIR").getD "./logs" = dir)
    (hne : dir ≠ "") (s : State) (msgs : List (Level × String)) [∀ l m, Decidable (Reaches l m)] :
    (setLogLevel env s).2 = none ∧
      (msgs.foldl (fun s m => s.log m.1 m.2) (setLogLevel env s).1).lines (.file (logFilename env)) =
        s.lines (.file (logFilename env)) ++
          (((Level.debug, "Setting LogLevel to " ++ (env.var "GWKOKAB_LOG_LEVEL").getD "") :: msgs).filter fun m => Reaches l m.1).map (·.2) ∧
      (∀ k, k ≠ .file (logFilename env) → (msgs.foldl (fun s m => s.log m.1 m.2) (setLogLevel env s).1).lines k = s.lines k) ∧
      (msgs.foldl (fun s m => s.log m.1 m.2) (setLogLevel env s).1).dirs = s.dirs ++ [dir] := by
  have hv := asks_valid hl
  have hname : (env.var "GWKOKAB_LOG_LEVEL").getD "" = (env.var "GWKOKAB_LOG_LEVEL").getD "TRACE" := by
    obtain ⟨i, hi, n, hn, he⟩ := hl
    rw [he]; rfl
  have hset : setLogLevel env s = (State.log { handlers := [(.file (logFilename env), l)], lines := s.lines, dirs := s.dirs ++ [dir] }
      .debug ("Setting LogLevel to " ++ (env.var "GWKOKAB_LOG_LEVEL").getD "TRACE"), none) := by
    unfold setLogLevel
    simp only [hv]
    rw [hd, if_neg hne]
    rfl
  have hall := log_all (.file (logFilename env)) l
    { handlers := [(.file (logFilename env), l)], lines := s.lines, dirs := s.dirs ++ [dir] } rfl
    ((Level.debug, "Setting LogLevel to " ++ (env.var "GWKOKAB_LOG_LEVEL").getD "TRACE") :: msgs)
  rw [List.foldl_cons] at hall
  rw [hset, hname]
  refine ⟨rfl, ?_, hall.2.1, hall.2.2⟩
  rw [hall.1]
  congr 2
  refine List.filter_congr fun m _ => ?_
  exact decide_eq_decide.2 (reaches_iff l m.1).symm

/-- The file is the named one in the named directory; without names it is `./logs/gwkokab_<time>.log`. -/
theorem C106_file_name (env : Env) :
    (∀ d f, env.var "GWKOKAB_LOG_DIR" = some d → env.var "GWKOKAB_LOG_FILE" = some f → d ≠ "" → d.toList.getLast? ≠ some '/' →
      f.toList.head? ≠ some '/' → logFilename env = d ++ "/" ++ f) ∧
    (∀ f, env.var "GWKOKAB_LOG_FILE" = some f → f.toList.head? = some '/' → logFilename env = f) ∧
    (env.var "GWKOKAB_LOG_DIR" = none → env.var "GWKOKAB_LOG_FILE" = none → logFilename env = "./logs/gwkokab_" ++ env.now ++ ".log") := by
  refine ⟨fun d f hd hf h1 h2 h3 => ?_, fun f hf h => ?_, fun hd hf => ?_⟩
  · simp [logFilename, join, hd, hf, h1, h2, h3]
  · simp [logFilename, join, hf, h]
  · unfold logFilename join
    rw [hd, hf, Option.getD_none, Option.getD_none, if_neg, if_neg (by decide)]
    · apply String.toList_injective
      simp
    · simp

/-- A level that is not one of the seven names (in capitals) is refused; nothing has changed: the log goes where it went before. -/
theorem C106_bad_level_refused {env : Env} {n : String} (hn : env.var "GWKOKAB_LOG_LEVEL" = some n) (hbad : n ∉ names) (s : State) :
    setLogLevel env s = (s, some .badLevel) := by
  have : validLevels.find? (fun e => e.1 = n) = none := by
    rw [List.find?_eq_none]
    intro e he
    have : ∀ e ∈ validLevels, e.1 ∈ names := by decide
    have := this e he
    simp only [decide_eq_true_eq]
    rintro rfl
    exact hbad this
  unfold setLogLevel
  simp [hn, this]

/-- No program ever shortens or rewrites a log: whatever it does with its log, every file (and the terminal) begins with what it held
before. -/
theorem C106_nothing_lost (ops : List Op) (s : State) (k : Sink) : s.lines k <+: (ops.foldl State.step s).lines k := by
  induction ops generalizing s with
  | nil => exact List.prefix_refl _
  | cons op rest ih =>
    refine List.IsPrefix.trans ?_ (ih (s.step op))
    cases op with
    | log l msg => exact List.prefix_append _ _
    | set env =>
      unfold State.step setLogLevel
      dsimp only
      split
      · exact List.prefix_refl _
      · split
        · exact List.prefix_refl _
        · exact List.prefix_append _ _

/-- **Violated**: the documentation says that without `GWKOKAB_LOG_LEVEL` the level is `WARNING`.  Without it every message of every level
is written to the log. -/
theorem C106_default_level_violated {env : Env} (hl : env.var "GWKOKAB_LOG_LEVEL" = none)
    (hd : (env.var "GWKOKAB_LOG_DIR").getD "./logs" ≠ "") (s : State) (msgs : List (Level × String)) :
    (msgs.foldl (fun s m => s.log m.1 m.2) (setLogLevel env s).1).lines (.file (logFilename env)) =
      s.lines (.file (logFilename env)) ++ ["Setting LogLevel to TRACE"] ++ msgs.map (·.2) := by
  have hset : setLogLevel env s = (State.log ⟨[(.file (logFilename env), .trace)], s.lines,
      s.dirs ++ [(env.var "GWKOKAB_LOG_DIR").getD "./logs"]⟩ .debug "Setting LogLevel to TRACE", none) := by
    unfold setLogLevel
    rw [hl]
    have : validLevels.find? (fun e => e.1 = (none : Option String).getD "TRACE") = some ("TRACE", .trace) := by decide
    simp only [this]
    rw [if_neg hd]
    rfl
  have hall := (log_all (.file (logFilename env)) .trace
    ⟨[(.file (logFilename env), .trace)], s.lines, s.dirs ++ [(env.var "GWKOKAB_LOG_DIR").getD "./logs"]⟩ rfl
    ((Level.debug, "Setting LogLevel to TRACE") :: msgs)).1
  rw [List.foldl_cons] at hall
  rw [hset, hall]
  have hle : ∀ m : Level, Level.trace.no ≤ m.no := by intro m; cases m <;> decide
  have hfil : ∀ l : List (Level × String), l.filter (fun m => decide (Level.trace.no ≤ m.1.no)) = l := fun l =>
    List.filter_eq_self.2 fun m _ => decide_eq_true (hle m.1)
  rw [hfil, List.map_cons, List.append_assoc]
  rfl

/-! ## Concrete cases -/

/-- An environment that asks for `SUCCESS` and names the directory and the file. -/
def someEnv : Env :=
  ⟨fun v => if v = "GWKOKAB_LOG_LEVEL" then some "SUCCESS" else if v = "GWKOKAB_LOG_DIR" then some "out" else
    if v = "GWKOKAB_LOG_FILE" then some "run.log" else none, "20250101000000"⟩

example : Asks someEnv .success := ⟨3, rfl, "SUCCESS", rfl, rfl⟩

example : logFilename someEnv = "out/run.log" := by decide +kernel

/-- Three messages, one of them below the level: the file has the other two after its old line, the terminal has nothing. -/
example : (([(Level.info, "a"), (.success, "b"), (.error, "c")].foldl (fun s m => State.log s m.1 m.2)
      (setLogLevel someEnv (initial fun k => if k = .file "out/run.log" then ["old"] else [])).1).lines (.file "out/run.log")
        = ["old", "b", "c"]) ∧
    (([(Level.info, "a"), (.success, "b"), (.error, "c")].foldl (fun s m => State.log s m.1 m.2)
      (setLogLevel someEnv (initial fun _ => [])).1).lines .terminal = []) := by decide +kernel

/-- Small letters are refused. -/
example : "debug" ∉ names := by decide

/-- An environment without any of the variables: a trace message is in the log although the documented level is `WARNING`. -/
example : ¬ Reaches .warning .trace ∧
    "t" ∈ (State.log (setLogLevel ⟨fun _ => none, "1"⟩ (initial fun _ => [])).1 .trace "t").lines (.file "./logs/gwkokab_1.log") := by
  refine ⟨by rw [reaches_iff]; decide, by decide +kernel⟩

end GW.Logging
