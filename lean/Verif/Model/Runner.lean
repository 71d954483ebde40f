import Verif.Model.Text

/-!
# Model of the job runner

`plainbox/impl/runner.py` (`JobRunner.run_job` and the methods it calls) and the part of
`plainbox/impl/ctrl.py` that runs a command (`execute_job`, `temporary_cwd`).

The circumstances of a run (is there a controller, how does the process end, do temporary directories
work) are a parameter, so that every combination is covered.  What the runner does to the world is
recorded as a list of events.  Not modelled: durations, logging, the signals sent to user interfaces
(these are in the model of `extcmd`), and the text of comments.
-/

namespace Verif.Runner
open Verif

/-- Text, as in runner.py lines 388-439. -/
abbrev Str := List Char

/-- Outcomes used by the runner (abc.py lines 195-219). -/
inductive Outcome where
  | pass | fail | crash | skip | notSupported | notImplemented | undecided
  /-- any other value, from a qml job (runner.py line 750) -/
  | other (s : Str)
deriving DecidableEq, Repr

/-- The parts of a job definition the runner looks at. (runner.py lines 388-439, 441-758) -/
structure Job where
  id : Str
  /-- `None` when the field is missing (job.py lines 273-277) -/
  plugin : Option Str
  flags : List Str
  command : Option Str

/-- A file in the directory for I/O logs; `os.path.join` with that directory (runner.py line 761). -/
structure File where
  dir : Str
  name : Str
deriving DecidableEq, Repr

/-- Characters kept by `slugify` (runner.py lines 56-57): `-_.`, ASCII letters and digits. -/
def slugChar (c : Char) : Bool :=
  c = '-' || c = '_' || c = '.' || (decide ('a' ≤ c) && decide (c ≤ 'z')) ||
    (decide ('A' ≤ c) && decide (c ≤ 'Z')) || (decide ('0' ≤ c) && decide (c ≤ '9'))

/-- `slugify` (runner.py lines 54-58). -/
def slugify (s : Str) : Str := s.map fun c => if slugChar c then c else '_'

/-- `get_record_path_for_job` (runner.py lines 760-762; the same expression in lines 876-878). -/
def recordPath (dir : Str) (j : Job) : File := ⟨dir, slugify j.id ++ ".record.gz".toList⟩

/-- Path of the copy of standard output (runner.py lines 818-821). -/
def stdoutPath (dir : Str) (j : Job) : File := ⟨dir, slugify j.id ++ ".stdout".toList⟩

/-- Path of the copy of standard error (runner.py lines 818-823). -/
def stderrPath (dir : Str) (j : Job) : File := ⟨dir, slugify j.id ++ ".stderr".toList⟩

/-- How a process ended. (runner.py lines 854-902) -/
inductive Wait where
  | exited (status : Nat)
  | killed (signal : Nat)
deriving DecidableEq, Repr

/-- `Popen.returncode`: the exit status, or minus the number of the signal (subprocess). (runner.py lines 854-910) -/
def Wait.returncode : Wait → Int
  | .exited n => n
  | .killed n => -n

/-- Exceptions that can leave `run_job`. (runner.py lines 388-439, 854-939) -/
inductive Exn where
  | attributeError | valueError | typeError | unboundLocal | keyError
  /-- `PermissionError` -/
  | permission
  /-- raised while starting the process, for instance `FileNotFoundError` -/
  | launch
  /-- raised while waiting for the end of the machine, `KeyboardInterrupt` for instance -/
  | interrupted
  /-- raised while storing the result in the cache -/
  | cache
deriving DecidableEq, Repr

/-- What happens when the process is started by `extcmd_popen.call`. (runner.py lines 854-910) -/
inductive Launch where
  | ended (w : Wait)
  /-- `PermissionError` -/
  | permission
  /-- any other exception -/
  | raised
deriving DecidableEq, Repr

/-- What a qml program reports (ctrl.py lines 963-968): nothing readable or `null`, an object with an
outcome, an object without one, or something that is not an object. -/
inductive Report where
  | nothing
  | outcome (o : Outcome)
  | noOutcome
  | notObject
deriving DecidableEq, Repr

/-- The result of a job, without its duration. (runner.py lines 776-806) -/
structure Result where
  outcome : Outcome
  returnCode : Option Int
  log : Option File
deriving DecidableEq, Repr

/-- The circumstances of a run. (runner.py lines 776-939) -/
structure World where
  /-- directory of I/O logs -/
  dir : Str
  /-- does some controller support the job (`_get_ctrl_for_job`, see the model `Ctrl`) -/
  supported : Bool
  /-- does making the temporary directory fail with `PermissionError` -/
  noTemp : Bool
  launch : Launch
  /-- does removing the temporary directory fail with `PermissionError` -/
  noCleanup : Bool
  /-- does waiting for the end of the machine end with an exception -/
  interrupted : Bool
  report : Report
  /-- what the cache has for the checksum of this job -/
  cached : Option Result
  /-- does storing the result in the cache raise -/
  storeFails : Bool

/-- What the runner does. (runner.py lines 776-902) -/
inductive Event where
  /-- a file is opened for writing -/
  | opened (f : File)
  /-- the program is executed -/
  | executed (w : Wait)
deriving DecidableEq, Repr

/-- The body of `temporary_cwd` in `execute_job` (ctrl.py lines 449-462): `extcmd_popen.call`, whose
`on_begin` opens the two copies (runner.py lines 124-125), then `_halt` (ctrl.py lines 727-735) for jobs
with the flag `noreturn`. -/
def execBody (w : World) (j : Job) : List Event × Except Exn Int :=
  let opens := [.opened (stdoutPath w.dir j), .opened (stderrPath w.dir j)]
  match w.launch with
  | .permission => (opens, .error .permission)
  | .raised => (opens, .error .launch)
  | .ended e =>
    (opens ++ [.executed e],
      if "noreturn".toList ∈ j.flags ∧ w.interrupted then .error .interrupted
      else .ok e.returncode)

/-- `temporary_cwd` around a body (ctrl.py lines 492-525), `none` when it swallows an exception, so that
the statement after it is reached.  A `PermissionError` while the directory is made is caught, but the
handler mentions a variable without a value.  A `PermissionError` of the body is swallowed.  A
`PermissionError` while the directory is removed is swallowed together with the exception that was on
its way, if any. -/
def temporaryCwd (w : World) (body : List Event × Except Exn Int) :
    List Event × Except Exn (Option Int) :=
  if w.noTemp then ([], .error .unboundLocal)
  else match body with
    | (ev, .ok rc) => (ev, .ok (some rc))
    | (ev, .error e) => (ev, if e = .permission ∨ w.noCleanup then .ok none else .error e)

/-- `execute_job` (ctrl.py lines 414-462); it ends without a value after a swallowed exception. -/
def executeJob (w : World) (j : Job) : List Event × Except Exn (Option Int) :=
  temporaryCwd w (execBody w j)

/-- `_run_command` (runner.py lines 852-902). -/
def runCommand (w : World) (j : Job) : List Event × Except Exn (Int × File) :=
  if j.command = none then ([], .error .valueError)
  else
    match executeJob w j with
    | (ev, .error e) => (.opened (recordPath w.dir j) :: ev, .error e)
    | (ev, .ok rc) => (.opened (recordPath w.dir j) :: ev, .ok (rc.getD (-1), recordPath w.dir j))

/-- `_just_run_command` (runner.py lines 776-807). -/
def justRunCommand (w : World) (j : Job) : List Event × Except Exn Result :=
  if !w.supported then ([], .ok ⟨.notSupported, none, none⟩)
  else
    match runCommand w j with
    | (ev, .error e) => (ev, .error e)
    | (ev, .ok (rc, path)) =>
      (ev, .ok ⟨if rc = 0 then .pass else if rc < 0 then .crash else .fail, some rc, some path⟩)

/-- `run_resource_job` after its check (runner.py lines 514-521); `get` of the cache is modelled in
`Cache`. -/
def runResource (w : World) (j : Job) : List Event × Except Exn Result :=
  if "cachable".toList ∈ j.flags then
    match w.cached with
    | some r => ([], .ok r)
    | none => match justRunCommand w j with
      | (ev, .error e) => (ev, .error e)
      | (ev, .ok r) => (ev, if w.storeFails then .error .cache else .ok r)
  else justRunCommand w j

/-- The end of `run_user_verify_job` and `run_user_interact_verify_job` (runner.py lines 632-636 and
684-688): the command is run and the outcome replaced. -/
def runVerify (w : World) (j : Job) : List Event × Except Exn Result :=
  match justRunCommand w j with
  | (ev, .error e) => (ev, .error e)
  | (ev, .ok r) => (ev, .ok { r with outcome := .undecided })

/-- `execute_job_with_result` (ctrl.py lines 928-968), `none` when it ends without a value. -/
def executeWithResult (w : World) (j : Job) : List Event × Except Exn (Option (Int × Report)) :=
  match executeJob w j with
  | (ev, .error e) => (ev, .error e)
  | (ev, .ok none) => (ev, .ok none)
  | (ev, .ok (some rc)) => (ev, .ok (some (rc, w.report)))

/-- `run_qml_job` after its check (runner.py lines 707-758). -/
def runQml (w : World) (j : Job) : List Event × Except Exn Result :=
  if !w.supported then ([], .ok ⟨.notSupported, none, none⟩)
  else
    let rec' := Event.opened (recordPath w.dir j)
    match executeWithResult w j with
    | (ev, .error e) => (rec' :: ev, .error e)
    | (ev, .ok none) => (rec' :: ev, .error .typeError)
    | (ev, .ok (some (rc, report))) =>
      (rec' :: ev,
        if rc ≠ 0 then .ok ⟨.fail, some rc, some (recordPath w.dir j)⟩
        else match report with
          | .nothing => .ok ⟨.fail, some rc, some (recordPath w.dir j)⟩
          | .outcome o => .ok ⟨o, some rc, some (recordPath w.dir j)⟩
          | .noOutcome => .error .keyError
          | .notObject => .error .typeError)

/-- The methods named `run_<plugin>_job` (runner.py lines 441-693). -/
inductive Method where
  | shell | attachment | resource | manual | userInteract | userVerify | userInteractVerify | qml
deriving DecidableEq, Repr

/-- `getattr(self, "run_{}_job".format(...))` (runner.py lines 423-425). -/
def methodOf (name : Str) : Option Method :=
  if name = "shell".toList then some .shell
  else if name = "attachment".toList then some .attachment
  else if name = "resource".toList then some .resource
  else if name = "manual".toList then some .manual
  else if name = "user_interact".toList then some .userInteract
  else if name = "user_verify".toList then some .userVerify
  else if name = "user_interact_verify".toList then some .userInteractVerify
  else if name = "qml".toList then some .qml
  else none

/-- The value of `plugin` each method insists on (runner.py lines 460, 485, 511, 544, 586, 630, 678 and
703). -/
def Method.plugin : Method → Str
  | .shell => "shell".toList
  | .attachment => "attachment".toList
  | .resource => "resource".toList
  | .manual => "manual".toList
  | .userInteract => "user-interact".toList
  | .userVerify => "user-verify".toList
  | .userInteractVerify => "user-interact-verify".toList
  | .qml => "qml".toList

/-- The methods themselves, with their check (runner.py lines 441-758). -/
def Method.run (w : World) (j : Job) (m : Method) : List Event × Except Exn Result :=
  if j.plugin ≠ some m.plugin then ([], .error .valueError)
  else match m with
    | .shell | .attachment | .userInteract => justRunCommand w j
    | .resource => runResource w j
    | .manual => ([], .ok ⟨.undecided, none, none⟩)
    | .userVerify | .userInteractVerify => runVerify w j
    | .qml => runQml w j

/-- `_DRY_RUN_PLUGINS` (runner.py line 278). -/
def dryRunPlugins : List Str := ["resource".toList, "attachment".toList]

/-- `run_job` (runner.py lines 388-439). -/
def runJob (dry : Bool) (w : World) (j : Job) : List Event × Except Exn Result :=
  match j.plugin with
  | none => ([], .error .attributeError)
  | some p =>
    match methodOf (p.map fun c => if c = '-' then '_' else c) with
    | none => ([], .ok ⟨.notImplemented, none, none⟩)
    | some m =>
      if dry ∧ p ∉ dryRunPlugins then ([], .ok ⟨.skip, none, none⟩)
      else m.run w j

end Verif.Runner
