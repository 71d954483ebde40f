import Verif.Model.Checksum
import Verif.Model.Text

/-! # Execution controllers

Models the scores of the execution controllers and the choice of one
(`plainbox/impl/ctrl.py`, `SessionDeviceContext.get_ctrl_for_job` in
`plainbox/impl/session/state.py`, `JobRunner._get_ctrl_for_job` in `plainbox/impl/runner.py`) and the
environment in which a command is executed (`get_execution_environment`,
`get_differential_execution_environment`).

Simplifications: the process environment, the platform and what the constructors of the controllers
found out (`is_supported`, `user_can_sudo`) are fields of a record; the flag set and the set of
environment settings of a job are lists; directory names computed elsewhere are parameters. -/

namespace Verif.Ctrl

open Verif.Checksum (Str dictSet)

/-- An environment or another dictionary of strings. (ctrl.py 624-707, 1008-1092) -/
abbrev Env := List (Str × Str)

/-- `sys.platform`, as far as it is looked at. (ctrl.py 582-593, 785-810, 1177-1207, 1286-1302, 1392-1407) -/
inductive Platform
  | linux
  | win32
  | other
deriving DecidableEq

/-- What the controllers look at besides the job.
(ctrl.py 568-593, 785-810, 858-868, 1100-1126, 1177-1207, 1286-1302, 1323-1354, 1392-1407, 1429-1451,
1589-1601) -/
structure World where
  platform : Platform
  /-- `os.getuid()` -/
  uid : Nat
  /-- `SNAP` or `SNAP_APP_PATH` is set and not empty -/
  snap : Bool
  /-- `SSH_CONNECTION` is set and not empty -/
  ssh : Bool
  /-- `RootViaPTL1ExecutionController.is_supported` (ctrl.py 1099-1126) -/
  ptl1Supported : Bool
  /-- `user_can_sudo` (ctrl.py 1325-1352, 1430-1450; computed a little differently by the two
  controllers that use sudo) -/
  canSudo : Bool
deriving DecidableEq

/-- The provider of a job, as far as it is looked at. (ctrl.py 568-593, 624-717, 1177-1207) -/
structure Provider where
  /-- `isinstance(provider, Provider1)` -/
  isProvider1 : Bool := true
  secure : Bool := false
  gettextDomain : Option Str := none
  localeDir : Option Str := none
  extraPythonPath : Option Str := none
  dataDir : Option Str := none
  unitsDir : Option Str := none
  checkboxShare : Option Str := none
deriving DecidableEq

/-- A job, as far as it is looked at.
(ctrl.py 568-593, 624-707, 785-810, 1177-1207, 1286-1302, 1392-1407, 1589-1601) -/
structure Job where
  plugin : Str
  user : Option Str := none
  flags : List Str := []
  /-- `get_environ_settings()` -/
  environ : List Str := []
  provider : Provider := {}
deriving DecidableEq

/-- The controllers that come with the library. (ctrl.py 738-995, 1095-1601) -/
inductive Ctrl
  | ptl1
  | pkexec
  | sudo
  | sudoWithPass
  | user
  | qml
deriving DecidableEq

/-- `RootViaPTL1ExecutionController.get_checkbox_score`, ctrl.py 1186-1207. -/
def ptl1Score (w : World) (j : Job) : Int :=
  if ¬ j.provider.isProvider1 then -1
  else if ¬ j.provider.secure then -1
  else if w.ssh then -1
  else if "win32".toList ∈ j.flags then -1
  else if w.snap then -1
  else if j.user ≠ none ∧ w.ptl1Supported then 3
  else 0

/-- `RootViaPkexecExecutionController.get_checkbox_score`, ctrl.py 1293-1302. -/
def pkexecScore (w : World) (j : Job) : Int :=
  if "win32".toList ∈ j.flags then -1
  else if w.snap then -1
  else if j.user ≠ none then 1
  else 0

/-- `RootViaSudoExecutionController.get_checkbox_score`, ctrl.py 1400-1407. -/
def sudoScore (w : World) (j : Job) : Int :=
  if "win32".toList ∈ j.flags then -1
  else if j.user ≠ none ∧ w.canSudo then 2
  else -1

/-- `RootViaSudoWithPassExecutionController.get_checkbox_score`, ctrl.py 1597-1601. -/
def sudoWithPassScore (w : World) (j : Job) : Int :=
  if j.user ≠ none ∧ w.canSudo then 2
  else -1

/-- `UserJobExecutionController.get_checkbox_score`, ctrl.py 793-810. -/
def userScore (w : World) (j : Job) : Int :=
  if w.platform = .win32 then
    if j.user ≠ none then -1
    else if "win32".toList ∉ j.flags then -1
    else 1
  else
    if "win32".toList ∈ j.flags then -1
    else if j.user ≠ none then if w.uid = 0 then 4 else -1
    else 1

/-- `QmlJobExecutionController.get_checkbox_score`, ctrl.py 865-868. -/
def qmlScore (j : Job) : Int :=
  if j.plugin = "qml".toList then 4 else -1

/-- `get_score`, ctrl.py 568-579, for job definitions. -/
def score (w : World) (j : Job) : Ctrl → Int
  | .ptl1 => ptl1Score w j
  | .pkexec => pkexecScore w j
  | .sudo => sudoScore w j
  | .sudoWithPass => sudoWithPassScore w j
  | .user => userScore w j
  | .qml => qmlScore j

/-- The exceptions raised by the choice. Both are instances of `LookupError`.
(`get_ctrl_for_job`, state.py 470-501, and `_get_ctrl_for_job`, runner.py 912-939.) -/
inductive Exc
  | lookupError
  | indexError
deriving DecidableEq

/-- The body of `get_ctrl_for_job` (state.py 487-501) and `_get_ctrl_for_job` (runner.py 925-939):
scores, stable sort by score, the last entry. -/
def choose {C : Type} (score : C → Int) (ctrls : List C) : Except Exc C :=
  match (Sort.sortBy (fun a b => decide (a.2 ≤ b.2)) (ctrls.map fun c => (c, score c))).getLast? with
  | none => .error .indexError
  | some (c, s) => if s < 0 then .error .lookupError else .ok c

/-- `_compute_execution_ctrl_list`, state.py 561-584. -/
def contextCtrls : Platform → List Ctrl
  | .linux => [.ptl1, .pkexec, .sudo, .user]
  | .win32 => [.user]
  | .other => []

/-- The default list of `JobRunner.__init__`, runner.py 310-334. -/
def runnerCtrls : Platform → List Ctrl
  | .linux => [.ptl1, .pkexec, .sudo, .user, .qml]
  | .win32 => [.user]
  | .other => []

/-! ## Environments -/

/-- `':'.join([first] + env.get(name, "").split(':'))`, as at ctrl.py 677-683. -/
def pathInject (first : Str) (env : Env) (name : Str) : Str :=
  Text.joinWith ':' (first :: Text.splitOn ':' ((env.lookup name).getD []))

/-- Set a variable unless the value is `None`. (ctrl.py 624-707) -/
def setOpt (k : Str) (v : Option Str) (env : Env) : Env :=
  match v with
  | none => env
  | some v => dictSet k v env

/-- `name.startswith("LC_")`. (ctrl.py 656-674) -/
def isLC (k : Str) : Bool := "LC_".toList.isPrefixOf k

/-- Locale variables, ctrl.py 656-674. -/
def localeStep (j : Job) (env : Env) : Env :=
  if "preserve-locale".toList ∉ j.flags then
    ((dictSet "LANG".toList "C.UTF-8".toList env).filter
      fun kv => !decide (kv.1 = "LANGUAGE".toList)).filter fun kv => !isLC kv.1
  else
    setOpt "TEXTDOMAINDIR".toList j.provider.localeDir
      (setOpt "PLAINBOX_PROVIDER_LOCALE_DIR".toList j.provider.localeDir
        (setOpt "PLAINBOX_PROVIDER_GETTEXT_DOMAIN".toList j.provider.gettextDomain
          (setOpt "TEXTDOMAIN".toList j.provider.gettextDomain env)))

/-- `PYTHONPATH`, ctrl.py 675-679: an empty string counts as no path. -/
def pythonStep (j : Job) (env : Env) : Env :=
  match j.provider.extraPythonPath with
  | none => env
  | some [] => env
  | some e => dictSet "PYTHONPATH".toList (pathInject e env "PYTHONPATH".toList) env

/-- The other variables that plainbox sets, ctrl.py 680-695. -/
def dirsStep (j : Job) (nest data : Str) (env : Env) : Env :=
  setOpt "CHECKBOX_SHARE".toList j.provider.checkboxShare
    (setOpt "PLAINBOX_PROVIDER_UNITS".toList j.provider.unitsDir
      (setOpt "PLAINBOX_PROVIDER_DATA".toList j.provider.dataDir
        (dictSet "PLAINBOX_SESSION_SHARE".toList data
          (dictSet "CHECKBOX_DATA".toList data
            (dictSet "PATH".toList (pathInject nest env "PATH".toList) env)))))

/-- The variables of the configuration, ctrl.py 696-706. -/
def configStep : Env → Env → Env
  | [], env => env
  | (k, v) :: cfg, env =>
    configStep cfg (if (env.lookup k).isSome then env else dictSet k v env)

/-- `CheckBoxExecutionController.get_execution_environment`, ctrl.py 656-707. `base` is `os.environ`,
`cfg` is `config.environment` (empty when there is no configuration), `data` is
`get_CHECKBOX_DATA(session_dir)`. -/
def execEnv (base : Env) (j : Job) (cfg : Env) (nest data : Str) : Env :=
  configStep cfg (dirsStep j nest data (pythonStep j (localeStep j base)))

/-- The variables copied on Snappy, ctrl.py 1058-1061. -/
def copied (k : Str) : Bool :=
  decide (k ∈ ["PYTHONHOME".toList, "PYTHONUSERBASE".toList, "LD_LIBRARY_PATH".toList,
    "GI_TYPELIB_PATH".toList]) || "SNAP".toList.isPrefixOf k

/-- The loop of ctrl.py 1060-1062. -/
def copyVars : Env → Env → Env
  | [], delta => delta
  | (k, v) :: base, delta => copyVars base (if copied k then dictSet k v delta else delta)

/-- `os.getenv(k)` as a truth value. (ctrl.py 1041-1063) -/
def truthy (base : Env) (k : Str) : Bool := !((base.lookup k).getD []).isEmpty

/-- `get_differential_execution_environment`, ctrl.py 1041-1063. -/
def diffEnv (base : Env) (j : Job) (cfg : Env) (nest data : Str) : Env :=
  let delta := (execEnv base j cfg nest data).filter fun kv =>
    !decide (base.lookup kv.1 = some kv.2) || decide (kv.1 ∈ j.environ)
  let delta :=
    if "preserve-locale".toList ∉ j.flags then
      dictSet "LC_ALL".toList "C.UTF-8".toList
        (dictSet "LANGUAGE".toList [] (dictSet "LANG".toList "C.UTF-8".toList delta))
    else delta
  if truthy base "SNAP".toList || truthy base "SNAP_APP_PATH".toList then copyVars base delta else delta

end Verif.Ctrl
