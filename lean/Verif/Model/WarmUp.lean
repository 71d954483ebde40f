import Verif.Model.Checksum
import Verif.Model.Ctrl
import Verif.Model.Launcher

/-!
# Authentication before the jobs are run (C124)

`JobRunner.get_warm_up_sequence` (plainbox/impl/runner.py 362-386), the methods `get_warm_up_for_job` of
the controllers (plainbox/impl/ctrl.py 719-725, 1209-1220, 1409-1416), and the two places where the
functions are called: `RunInvocation.maybe_warm_up_authentication` (plainbox/impl/commands/inv_run.py
706-715) and `SessionAssistant.run_job` (plainbox/impl/session/assistant.py 1294-1298).

Simplified: whether a job may be started, and what the program says that asks for the password, are
not modelled; a job that is run is run by the controller that the runner chooses for it (runner.py
706-712, 783-792).
-/

namespace Verif.WarmUp

open Verif.Checksum (Str)
open Verif.Ctrl (Job World Ctrl Exc choose score runnerCtrls)

/-- The functions for warming up: `plainbox_trusted_launcher_warm_up` (ctrl.py 1223-1231) and the
`warm_up_func` of the controller that uses sudo (ctrl.py 1353-1354). -/
inductive Fn
  | launcher
  | sudo
deriving DecidableEq

/-- The command each of them runs (ctrl.py 1229-1231, 1353-1354). -/
def command : Fn → List Str
  | .launcher => ["pkexec".toList, "plainbox-trusted-launcher-1".toList, "--warmup".toList]
  | .sudo => ["sudo".toList, "-S".toList, "true".toList]

/-- `get_warm_up_for_job` (ctrl.py 719-725 for most, 1209-1220, 1409-1416). -/
def need (c : Ctrl) (j : Job) : Option Fn :=
  match c with
  | .ptl1 => if j.user = none then none else some .launcher
  | .sudo => some .sudo
  | .pkexec | .sudoWithPass | .user | .qml => none

/-- The body of the loop at runner.py 378-385. -/
def add {J C F : Type} [DecidableEq F] (chosen : J → Except Exc C) (need : C → J → Option F)
    (l : List F) (j : J) : List F :=
  match chosen j with
  | .error _ => l
  | .ok c => match need c j with
    | none => l
    | some f => if f ∈ l then l else l ++ [f]

/-- `get_warm_up_sequence` (runner.py 362-386), for any jobs, controllers and functions. -/
def sequence {J C F : Type} [DecidableEq F] (chosen : J → Except Exc C) (need : C → J → Option F)
    (jobs : List J) : List F :=
  jobs.foldl (add chosen need) []

/-- `get_warm_up_sequence` (runner.py 362-386) of a runner with these controllers. -/
def warmUps (w : World) (ctrls : List Ctrl) (jobs : List Job) : List Fn :=
  sequence (fun j => choose (score w j) ctrls) need jobs

/-- What happens, in order: a header is printed, a function for warming up is called, a job is run by
a controller. (inv_run.py 706-715; runner.py 706-712, 783-792) -/
inductive Event
  | header
  | warm (f : Fn)
  | run (j : Job) (c : Ctrl)
deriving DecidableEq

/-- Running a job (runner.py 706-712, 783-792): nothing happens if there is no controller for it. -/
def runOne (w : World) (ctrls : List Ctrl) (j : Job) : List Event :=
  match choose (score w j) ctrls with
  | .error _ => []
  | .ok c => [.run j c]

/-- `plainbox run` from `maybe_warm_up_authentication` on (inv_run.py 411-416, 706-715): the run list
at the beginning, and the jobs that are run then. -/
def runCommand (w : World) (ctrls : List Ctrl) (runList ran : List Job) : List Event :=
  (match warmUps w ctrls runList with
    | [] => []
    | l => .header :: l.map .warm) ++ ran.flatMap (runOne w ctrls)

/-- Calls of `SessionAssistant.run_job` (assistant.py 1294-1298, 1329-1332), one after the other: each
with the run list at that time and the job that is run. -/
def assistant (w : World) (ctrls : List Ctrl) (calls : List (List Job × Job)) : List Event :=
  calls.flatMap fun c => (warmUps w ctrls c.1).map .warm ++ runOne w ctrls c.2

end Verif.WarmUp
