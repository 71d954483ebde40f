import Verif.Model.Checksum

/-!
# Model of the trusted launcher

`plainbox/impl/secure/launcher1.py`, and the command lines made by the execution controllers that run a
command as another user (`plainbox/impl/ctrl.py`).

Of `argparse` only what these command lines need is modelled: options spelled in full, arguments that
do not begin with a dash.  Other arguments that begin with a dash (abbreviations, `-tCHECKSUM`,
`--target=CHECKSUM`) end in `unmodelled`.  What the generator job prints, and what the units made of it
are (the models `RFC822` and `Template`), is a parameter.
-/

namespace Verif.Launcher
open Verif
open Verif.Checksum (Str dictSet sortItems)

/-- An environment (launcher1.py 66-79). -/
abbrev Env := List (Str × Str)

/-- The parts of a job definition the launcher looks at. (launcher1.py 58-96) -/
structure Job where
  checksum : Str
  shell : Str
  command : Str
deriving DecidableEq, Repr

/-- `'{}={}'.format(key, value)` (ctrl.py lines 1169, 1175, 1280, 1387). -/
def nameValue (kv : Str × Str) : Str := kv.1 ++ '=' :: kv.2

/-- One option for each variable, sorted by name (ctrl.py lines 1168-1169 and 1174-1175). -/
def envOptions (opt : Str) (env : Env) : List Str :=
  (sortItems env).flatMap fun kv => [opt, nameValue kv]

/-- `RootViaPTL1ExecutionController.get_execution_command` (ctrl.py lines 1128-1176), without the part
for `pkexec` itself.  `via` is the checksum and environment of the generator job. -/
def ptl1Args (via : Option (Str × Env)) (checksum : Str) (env : Env) : List Str :=
  (match via with
    | none => []
    | some (c, e) => ["--generator".toList, c] ++ envOptions "-G".toList e)
  ++ ["--target".toList, checksum] ++ envOptions "-T".toList env

/-- The end of the command lines of the controllers that use `pkexec` and `sudo` directly (ctrl.py lines
1276-1284 and 1382-1390): arguments for env(1). -/
def envArgs (j : Job) (env : Env) : List Str :=
  (sortItems env).map nameValue ++ [j.shell, "-c".toList, j.command]

/-- `value.split('=', 1)` when that gives two values (launcher1.py line 175). -/
def splitEq : Str → Option (Str × Str)
  | [] => none
  | c :: s => if c = '=' then some ([], s) else (splitEq s).map fun p => (c :: p.1, p.2)

/-- What the parser collects (launcher1.py lines 183-219). -/
structure Ns where
  warmup : Bool := false
  target : Option Str := none
  targetEnv : Option Env := none
  generator : Option Str := none
  generatorEnv : Option Env := none
deriving DecidableEq, Repr

/-- Why parsing ends without a result. (Standard library `argparse`, as used in launcher1.py 141-270.) -/
inductive Usage where
  | notNameValue | expectedArgument | exclusive | required | unrecognized
  /-- the model does not say -/
  | unmodelled
deriving DecidableEq, Repr

/-- `UpdateAction.__call__` (launcher1.py lines 164-180). -/
def update (items : Option Env) (values : List Str) : Except Usage Env :=
  values.foldlM (fun items v => match splitEq v with
    | none => .error .notNameValue
    | some (k, x) => .ok (dictSet k x items)) (items.getD [])

/-- Arguments that argparse takes for options, or that begin like one.
(Standard library `argparse`, as used in launcher1.py 183-270.) -/
def dashed : Str → Bool
  | '-' :: _ => true
  | _ => false

/-- `parser.parse_args` (launcher1.py lines 183-219) for the arguments described above.  The fuel is the
number of arguments. -/
def parseLoop : Nat → Ns → List Str → Except Usage Ns
  | _, ns, [] => if ns.warmup ∨ ns.target.isSome then .ok ns else .error .required
  | 0, _, _ => .error .unmodelled
  | fuel + 1, ns, a :: rest =>
    if a = "-w".toList ∨ a = "--warmup".toList then
      if ns.target.isSome then .error .exclusive else parseLoop fuel { ns with warmup := true } rest
    else if a = "-t".toList ∨ a = "--target".toList then
      match rest with
      | [] => .error .expectedArgument
      | v :: rest' =>
        if dashed v then .error .expectedArgument
        else if ns.warmup then .error .exclusive
        else parseLoop fuel { ns with target := some v } rest'
    else if a = "-g".toList ∨ a = "--generator".toList then
      match rest with
      | [] => .error .expectedArgument
      | v :: rest' =>
        if dashed v then .error .expectedArgument
        else parseLoop fuel { ns with generator := some v } rest'
    else if a = "-T".toList ∨ a = "--target-environment".toList then
      let values := rest.takeWhile fun v => !dashed v
      if values = [] then .error .expectedArgument
      else match update ns.targetEnv values with
        | .error e => .error e
        | .ok env => parseLoop fuel { ns with targetEnv := some env } (rest.drop values.length)
    else if a = "-G".toList ∨ a = "--generator-environment".toList then
      let values := rest.takeWhile fun v => !dashed v
      if values = [] then .error .expectedArgument
      else match update ns.generatorEnv values with
        | .error e => .error e
        | .ok env => parseLoop fuel { ns with generatorEnv := some env } (rest.drop values.length)
    else if dashed a then .error .unmodelled
    else .error .unrecognized

/-- `parser.parse_args` (launcher1.py line 252). -/
def parseArgs (args : List Str) : Except Usage Ns := parseLoop args.length {} args

/-- `find_job` (launcher1.py lines 58-64). -/
def findJob (jobs : List Job) (checksum : Str) : Option Job :=
  jobs.find? fun j => decide (j.checksum = checksum)

/-- `modify_execution_environment` (launcher1.py lines 66-79). -/
def modifyEnv (os : Env) (target : Option Env) : Env :=
  match target with
  | none => os
  | some env => env.foldl (fun e kv => dictSet kv.1 kv.2 e) os

/-- A program that is executed. (`subprocess.call` and `check_output`, launcher1.py 81-138.) -/
structure Run where
  argv : List Str
  env : Env
deriving DecidableEq, Repr

/-- The program of a job (launcher1.py lines 95-96 and 112-115). -/
def runOf (os : Env) (j : Job) (env : Option Env) : Run :=
  ⟨[j.shell, "-c".toList, j.command], modifyEnv os env⟩

/-- How the launcher ends. (launcher1.py 222-281) -/
inductive End where
  /-- with the return code of the last program -/
  | returned
  /-- `return 0` for `--warmup` -/
  | warm
  | usage (u : Usage)
  /-- `SystemExit` with a message -/
  | unknownJob
  /-- the generator failed: `CalledProcessError` -/
  | generatorFailed
deriving DecidableEq, Repr

/-- What the launcher executes and how it ends. (launcher1.py 81-138, 222-281) -/
structure Out where
  runs : List Run
  ended : End
deriving DecidableEq, Repr

/-- The world around the launcher: its environment, the jobs of all secure providers, what the units
made from the output of a generator job are (`none`: the generator fails), and the jobs of a session
with all providers. (launcher1.py 46-64, 98-138, 222-281) -/
structure World where
  os : Env
  jobs : List Job
  generate : Job → Option Env → Option (List Job)
  siblings : List Job

/-- `main` (launcher1.py lines 222-281) after parsing; the target is there because the parser requires
it without `--warmup`. -/
def mainNs (w : World) (ns : Ns) : Out :=
  if ns.warmup then ⟨[], .warm⟩
  else
    let last (runs : List Run) (jobs : List Job) : Out :=
      match ns.target.bind (findJob jobs) with
      | none => ⟨runs, .unknownJob⟩
      | some j => ⟨runs ++ [runOf w.os j ns.targetEnv], .returned⟩
    match ns.generator with
    | none => last [] (w.jobs ++ w.siblings)
    | some [] => last [] (w.jobs ++ w.siblings)
    | some g => match findJob w.jobs g with
      | none => ⟨[], .unknownJob⟩
      | some j => match w.generate j ns.generatorEnv with
        | none => ⟨[runOf w.os j ns.generatorEnv], .generatorFailed⟩
        | some l => last [runOf w.os j ns.generatorEnv] (w.jobs ++ l ++ w.siblings)

/-- `main` (launcher1.py lines 222-281). -/
def main (w : World) (args : List Str) : Out :=
  match parseArgs args with
  | .error u => ⟨[], .usage u⟩
  | .ok ns => mainNs w ns

/-- The program env(1) with assignments and a command: what it executes, `none` if there is no
command.  Options of env(1) are not modelled (see `dashed`).
(external program; the commands are those of ctrl.py 743-783, 1356-1390) -/
def envProgram (os : Env) : List Str → Option Run
  | [] => none
  | a :: rest => match splitEq a with
    | some (k, v) => envProgram (dictSet k v os) rest
    | none => some ⟨a :: rest, os⟩

end Verif.Launcher
