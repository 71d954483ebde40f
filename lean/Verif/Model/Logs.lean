import Verif.Model.Text

/-!
# Where messages go

Models `LevelFilter` and `LoggingHelper`: `setup_logging`, `adjust_logging` and the configurations
(`plainbox/impl/logging.py`, "logging"), and `_setup_logging_from_environment` and `late_init` of `ToolBase`
(`plainbox/impl/clitools.py`, "clitools"), with the parts of the module `logging` of the standard library that they use.

The name of a logger is the list of its parts, the last part first: the parent of a logger is the tail of its name, and `[]` is
the root logger. Simplified: texts of messages, formatters and the rotation of files are left out, as are the messages that
`adjust_logging` itself logs; that a file cannot be opened later on is left out; `propagate` is never switched off.
-/

namespace Verif.Logs

open Verif.Text (splitOn)

/-- The name of a logger, the last part first. (standard library; logging 340-368) -/
abbrev Name := List String

/-- `getLogger(name)`: the parts of a name; the empty name is the root logger. (standard library; logging 119) -/
def nameOf (s : List Char) : Name := if s = [] then [] else ((splitOn '.' s).map String.ofList).reverse

/-- The names of the handlers. (logging 235-288) -/
inductive HName
  | consoleDebug | consoleInfo | consoleWarning | consoleError
  | fileDebug | fileError | fileCrash | fileBug
deriving DecidableEq, Repr

/-- Where a handler writes. (logging 237-289) -/
inductive Dest
  | stdout | stderr | debugLog | problemLog | crashLog | bugLog
deriving DecidableEq, Repr

/-- A handler: where it writes, its level and the range of its filter. (logging 72-80, 228-296) -/
structure Handler where
  dest : Dest
  level : Nat
  lo : Nat
  hi : Option Nat
deriving DecidableEq, Repr

/-- `DEFAULT_CONSOLE_ONLY_HANDLERS`; levels are numbers, `NOTSET` is 0. A handler without a filter has no limit.
(logging 206-225, 299-330) -/
def consoleHandlers : List (HName × Handler) :=
  [(.consoleDebug, ⟨.stdout, 150, 0, some 10⟩), (.consoleInfo, ⟨.stdout, 0, 20, some 20⟩),
    (.consoleWarning, ⟨.stderr, 0, 30, some 30⟩), (.consoleError, ⟨.stderr, 40, 0, none⟩)]

/-- `DEFAULT_HANDLERS`. (logging 206-225, 228-296) -/
def fileHandlers : List (HName × Handler) :=
  [(.consoleDebug, ⟨.stdout, 150, 0, some 10⟩), (.consoleInfo, ⟨.stdout, 0, 20, some 20⟩),
    (.consoleWarning, ⟨.stderr, 0, 30, some 30⟩), (.consoleError, ⟨.stderr, 40, 0, none⟩),
    (.fileDebug, ⟨.debugLog, 0, 0, some 10⟩), (.fileError, ⟨.problemLog, 30, 0, none⟩),
    (.fileCrash, ⟨.crashLog, 40, 0, none⟩), (.fileBug, ⟨.bugLog, 0, 0, none⟩)]

/-- What a configuration says of a logger. (logging 340-368, 378-390) -/
structure LoggerCfg where
  name : Name
  level : Option Nat
  handlers : List HName
deriving DecidableEq, Repr

/-- `DEFAULT_LOGGERS`. (logging 333-369) -/
def fileLoggers : List LoggerCfg :=
  [⟨["checkbox"], some 30, [.consoleDebug, .consoleInfo, .consoleWarning, .consoleError, .fileError, .fileDebug]⟩,
    ⟨["plainbox"], some 30, [.consoleDebug, .consoleInfo, .consoleWarning, .consoleError, .fileError, .fileDebug]⟩,
    ⟨["crashes", "plainbox"], some 40, [.fileCrash]⟩,
    ⟨["bug", "plainbox"], none, [.fileBug]⟩]

/-- `DEFAULT_CONSOLE_ONLY_LOGGERS`. (logging 372-391) -/
def consoleLoggers : List LoggerCfg :=
  [⟨["plainbox"], some 30, [.consoleDebug, .consoleInfo, .consoleWarning, .consoleError]⟩,
    ⟨["crashes", "plainbox"], some 40, [.consoleError]⟩]

/-- A configuration. (logging 394-428) -/
structure Cfg where
  handlers : List (HName × Handler)
  loggers : List LoggerCfg
  root : Nat
  silent : Bool
deriving DecidableEq, Repr

/-- `DEFAULT_CONFIG`. (logging 394-410) -/
def defaultCfg : Cfg := ⟨fileHandlers, fileLoggers, 30, false⟩

/-- `DEFAULT_CONSOLE_ONLY_CONFIG`. (logging 413-428) -/
def consoleCfg : Cfg := ⟨consoleHandlers, consoleLoggers, 30, false⟩

/-- The state of the module `logging`: level (0 for `NOTSET`) and handlers of the loggers, the handlers by name, the loggers that
are disabled and those that exist. (standard library; logging 107, 112-123) -/
structure State where
  level : Name → Nat
  handlers : Name → List HName
  known : List (HName × Handler)
  disabled : Name → Bool
  exist : List Name

/-- The state before anything is configured. (standard library; logging 107) -/
def State.fresh (exist : List Name) : State :=
  ⟨fun n => if n = [] then 30 else 0, fun _ => [], [], fun _ => false, exist⟩

/-- What a configuration says of a logger, if it says something. (standard library, `dictConfig`; logging 107) -/
def Cfg.find (n : Name) : List LoggerCfg → Option LoggerCfg
  | [] => none
  | c :: cs => if c.name = n then some c else Cfg.find n cs

/-- Loggers below one that is configured. (standard library, `dictConfig`; logging 107) -/
def Cfg.isChild (cfg : Cfg) : Name → Bool
  | [] => false
  | _ :: n => (Cfg.find n cfg.loggers).isSome || cfg.isChild n

/-- `dictConfig` with a configuration that is not incremental and disables existing loggers. (standard library; logging 107,
407-408, 426-427) -/
def dictConfig (cfg : Cfg) (s : State) : State where
  level n :=
    if n = [] then cfg.root
    else match Cfg.find n cfg.loggers with
      | some c => c.level.getD (s.level n)
      | none => if s.exist.contains n && cfg.isChild n then 0 else s.level n
  handlers n :=
    if n = [] then []
    else match Cfg.find n cfg.loggers with
      | some c => c.handlers
      | none => if s.exist.contains n && cfg.isChild n then [] else s.handlers n
  known := cfg.handlers
  disabled n :=
    s.disabled n ||
      (n ≠ [] && (Cfg.find n cfg.loggers).isNone && s.exist.contains n && !cfg.isChild n)
  exist := s.exist ++ cfg.loggers.map (·.name)

/-- `setup_logging(config)`: the state and the number of warnings. `writable` tells whether the directory is there or can be
made. (logging 87-107) -/
def setup (given : Option Cfg) (writable : Bool) (s : State) : State × Nat :=
  let cfg := given.getD defaultCfg
  if writable then (dictConfig cfg s, 0)
  else (dictConfig consoleCfg s, if cfg.silent then 0 else 2)

/-- `logging._checkLevel` for a name. (standard library; logging 75-76, 112) -/
def checkLevel (t : String) : Option Nat :=
  if t = "CRITICAL" ∨ t = "FATAL" then some 50
  else if t = "ERROR" then some 40
  else if t = "WARNING" ∨ t = "WARN" then some 30
  else if t = "INFO" then some 20
  else if t = "DEBUG" then some 10
  else if t = "NOTSET" then some 0
  else none

/-- `getLogger(name).setLevel(level)`. (standard library; logging 112-119) -/
def State.setLevel (s : State) (n : Name) (l : Nat) : State :=
  { s with level := fun m => if m = n then l else s.level m, exist := n :: s.exist }

/-- The incremental configuration that shows debugging messages in the console; `none` if there is no such handler.
(standard library, `dictConfig`; logging 123, 431-440) -/
def State.debugConsole (s : State) : Option State :=
  if s.known.any (fun p => p.1 = .consoleDebug) then
    some { s with known := s.known.map fun p => if p.1 = .consoleDebug then (p.1, { p.2 with level := 10 }) else p }
  else none

/-- The first part of `adjust_logging`; `none` for `ValueError`. (logging 111-115) -/
def State.bump (s : State) : Option String → Option State
  | none => some s
  | some t =>
    match checkLevel t with
    | none => none
    | some l => some (((s.setLevel [] l).setLevel ["plainbox"] l).setLevel ["checkbox"] l)

/-- The second part of `adjust_logging`. (logging 116-120) -/
def State.trace (s : State) : List Name → State
  | [] => s
  | n :: ns => (s.setLevel n 10).trace ns

/-- `adjust_logging`; `none` for `ValueError`. (logging 109-123) -/
def adjust (level : Option String) (traces : List Name) (debugConsole : Bool) (s : State) : Option State :=
  match s.bump level with
  | none => none
  | some s =>
    let s := s.trace traces
    if debugConsole && (level = some "DEBUG" || !traces.isEmpty) then s.debugConsole else some s

/-- `_setup_logging_from_environment` with the values of `PLAINBOX_DEBUG`, `PLAINBOX_LOG_LEVEL` and `PLAINBOX_TRACE`, the first
and the last being empty if they are not set. (clitools 281-288) -/
def fromEnvironment (debug : List Char) (level : Option String) (trace : List Char) (s : State) : Option State :=
  if debug = [] then some s
  else adjust (some (level.getD "DEBUG")) ((splitOn ',' trace).map nameOf) (debug = "console".toList) s

/-- `getEffectiveLevel`. (standard library; used at every message) -/
def State.effective (s : State) : Name → Nat
  | [] => s.level []
  | p :: n => if s.level (p :: n) ≠ 0 then s.level (p :: n) else s.effective n

/-- The handlers that `callHandlers` finds, from the logger up to the root. (standard library; used at every message) -/
def State.gather (s : State) : Name → List HName
  | [] => s.handlers []
  | p :: n => s.handlers (p :: n) ++ s.gather n

/-- `LevelFilter.filter` and the level of the handler. (logging 78-82; standard library) -/
def Handler.accepts (h : Handler) (l : Nat) : Bool :=
  h.level ≤ l && h.lo ≤ l && (match h.hi with | none => true | some m => l ≤ m)

/-- The handler with a name. (standard library, `dictConfig`) -/
def lookup (h : HName) : List (HName × Handler) → Option Handler
  | [] => none
  | (k, x) :: l => if k = h then some x else lookup h l

/-- Where a message of a logger goes, in order; if there are no handlers at all, warnings go to the standard error.
(standard library: `isEnabledFor`, `handle`, `callHandlers`, `lastResort`) -/
def State.log (s : State) (n : Name) (l : Nat) : List Dest :=
  if s.disabled n || l < s.effective n then []
  else match s.gather n with
    | [] => if 30 ≤ l then [.stderr] else []
    | hs => hs.filterMap fun h =>
      match lookup h s.known with
      | none => none
      | some x => if x.accepts l then some x.dest else none

end Verif.Logs
