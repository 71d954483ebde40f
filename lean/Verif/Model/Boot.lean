import Verif.Model.Restart

/-!
# Starting the application again after the machine was restarted

Models when `SessionAssistant` has the application started at the next boot, and when not (`plainbox/impl/session/assistant.py`,
"assistant"; `XDGRestartStrategy` of `plainbox/impl/session/restart.py`, "restart").

The autostart files are a map from applications to commands. Simplified: writing and removing files succeeds; what is in the files
besides the command (and `;$SHELL` after it) is left out, see C52; preparing the command for `noreturn` jobs is left out, see C52; a session is one of those that can be resumed. Exceptions are steps.
-/

namespace Verif.Boot

abbrev Str := List Char

/-- What a process is doing: it was started, it has a session, it runs a job with the given flag `autorestart`.
(assistant 614-640, 1305-1343) -/
inductive Phase
  | fresh
  | idle
  | running (autorestart : Bool)
deriving DecidableEq, Repr

/-- A process: its application, whether there is a restart strategy, what the callback for the command returns if there is one, and
what it is doing. (assistant 199-200, 243-245, 286) -/
structure Proc where
  app : Nat
  strategy : Bool
  command : Option (List Str)
  phase : Phase
deriving DecidableEq, Repr

/-- The file of an application, as a number: with the XDG strategy each has its own (restart 104-107), with the Snappy strategy there is
one for all (restart 136, 157-160). In processes, `app` is this number. -/
def fileOf (snappy : Bool) (app : Nat) : Nat := if snappy then 0 else app + 1

/-- The machine: the autostart file of each application (restart 104-107), and the process. -/
structure World where
  files : Nat → Option Str
  proc : Option Proc

/-- `prime_application_restart` and `diffuse_application_restart`: writing and removing a file. (restart 109-127) -/
def put (files : Nat → Option Str) (app : Nat) (c : Option Str) : Nat → Option Str := fun a => if a = app then c else files a

/-- What happens. (assistant 243-245, 286, 614-639, 1305-1343) -/
inductive Step
  /-- the application is started, with a strategy and a callback or without -/
  | launch (app : Nat) (strategy : Bool) (command : Option (List Str))
  /-- `start_new_session` -/
  | new
  /-- `resume_session` -/
  | resume
  /-- `run_job` up to the job; the callback is missing: it raises -/
  | start (autorestart : Bool)
  /-- the job ends and `run_job` returns -/
  | finish
  /-- `run_job` ends with an exception -/
  | fail
  /-- the application ends or is killed, or the machine is turned off -/
  | off
deriving DecidableEq

/-- One step; nothing for what cannot happen. (assistant 614-639, 1305-1343) -/
def step (w : World) : Step → Option World
  | .launch app strategy command => match w.proc with
    | none => some { w with proc := some ⟨app, strategy, command, .fresh⟩ }
    | some _ => none
  | .new => match w.proc with
    | some p => if p.phase = .fresh then some { w with proc := some { p with phase := .idle } } else none
    | none => none
  | .resume => match w.proc with
    | some p =>
      if p.phase = .fresh then
        some ⟨if p.strategy then put w.files p.app none else w.files, some { p with phase := .idle }⟩
      else none
    | none => none
  | .start autorestart => match w.proc with
    | some p =>
      if p.phase = .idle then
        if p.strategy && autorestart then
          match p.command with
          | some args => some ⟨put w.files p.app (some (Restart.restartCmd args)), some { p with phase := .running autorestart }⟩
          | none => some w
        else some { w with proc := some { p with phase := .running autorestart } }
      else none
    | none => none
  | .finish => match w.proc with
    | some p =>
      match p.phase with
      | .running autorestart =>
        some ⟨if p.strategy && autorestart then put w.files p.app none else w.files, some { p with phase := .idle }⟩
      | _ => none
    | none => none
  | .fail => match w.proc with
    | some p =>
      match p.phase with
      | .running _ => some { w with proc := some { p with phase := .idle } }
      | _ => none
    | none => none
  | .off => some { w with proc := none }

/-- Steps one after the other. (assistant 614-639, 1305-1343) -/
def steps : World → List Step → Option World
  | w, [] => some w
  | w, s :: l => match step w s with
    | some w' => steps w' l
    | none => none

end Verif.Boot
