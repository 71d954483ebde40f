import Verif.Model.Runner

/-! # Exit statuses

Models how the command line tools end (`plainbox/impl/clitools.py`, "clitools"), the commands whose exit status tells how
another program ended (`plainbox/impl/commands/inv_script.py`, "script"; `plainbox/provider_manager.py`, "manage";
`plainbox/impl/secure/launcher1.py`, "launcher1") and what the interpreter does with `SystemExit`.

Simplified: of exceptions only the kinds that the code looks at are kept; an integer is one that fits into a machine word;
the debugger returns; an exception that ends the interpreter gives the status 1 (so it was for `KeyboardInterrupt` as well in
the versions of Python that the project supports). -/

namespace Verif.Exit

open Verif.Runner (Wait)

/-- What a function returns, or what `SystemExit` carries. (clitools 290-324, 558-603) -/
inductive Value
  | none
  | int (n : Int)
  | other
deriving DecidableEq

/-- Exceptions, as far as they are told apart. (clitools 558-603) -/
inductive Exc
  | systemExit (v : Value)
  | ioError (epipe : Bool)
  | keyboardInterrupt
  | other
deriving DecidableEq

/-- How a call ends. (clitools 558-603) -/
abbrev Out := Except Exc Value

/-- What the interpreter does with `SystemExit`. (standard library; plainbox/impl/box.py 122-127, manage 1498) -/
def sysExit : Value → Wait
  | .none => .exited 0
  | .int n => .exited (n % 256).toNat
  | .other => .exited 1

/-- `raise SystemExit(tool.main(argv))` and the end of the interpreter. (plainbox/impl/box.py 122-127, manage 1498) -/
def interpreter : Out → Wait
  | .ok v => sysExit v
  | .error (.systemExit v) => sysExit v
  | .error _ => .exited 1

/-- The options that `dispatch_and_catch_exceptions` looks at. (clitools 519-537) -/
structure Ns where
  pdb : Bool
  debugInterrupt : Bool
deriving DecidableEq

/-- What to do with an exception. (clitools 575-593) -/
inductive Action
  | ignore
  | raise
  | debug
deriving DecidableEq

/-- Which of them, clitools 575-593. -/
def action (ns : Ns) : Exc → Action
  | .ioError epipe => if epipe then .ignore else .raise
  | .keyboardInterrupt => if ns.debugInterrupt then .debug else .ignore
  | _ => if ns.pdb then .debug else .raise

/-- `dispatch_command`, clitools 539-556: without a command `parser.error` raises `SystemExit(2)`. -/
def dispatchCommand : Option Out → Out
  | none => .error (.systemExit (.int 2))
  | some o => o

/-- `dispatch_and_catch_exceptions`, clitools 558-603: how it ends and whether the debugger was started. -/
def dispatch (ns : Ns) (command : Option Out) : Out × Bool :=
  match dispatchCommand command with
  | .ok v => (.ok v, false)
  | .error (.systemExit v) => (.error (.systemExit v), false)
  | .error e =>
    match action ns e with
    | .ignore => (.ok (.int 0), false)
    | .raise => (.error e, false)
    | .debug => (.ok (.int 1), true)

/-- `ToolBase.main`, clitools 290-324; everything before the command is dispatched gives the options or an exception. -/
def main (init : Except Exc Ns) (command : Option Out) : Out × Bool :=
  match init with
  | .error .keyboardInterrupt => (.ok .none, false)
  | .error e => (.error e, false)
  | .ok ns => dispatch ns command

/-- The exit status of a tool. (plainbox/impl/box.py 122-127, manage 1498) -/
def status (init : Except Exc Ns) (command : Option Out) : Wait := interpreter (main init command).1

/-! ## Commands -/

/-- `ScriptInvocation.run`, script 54-74: the job, if there is one, with its command, if it has one, and how
`_run_command` ended. -/
def script (job : Option (Option Unit)) (ran : Except Exc Int) : Out :=
  match job with
  | none => .ok (.int 126)
  | some none => .ok (.int 125)
  | some (some _) => ran.map .int

/-- `BuildCommand.invoked`, manage 678-706. -/
def build (cmd : Option Unit) (ended : Wait) : Out :=
  match cmd with
  | none => .ok (.int 0)
  | some _ => .ok (.int ended.returncode)

/-- `CleanCommand.invoked`, manage 788-809. -/
def clean (ended : Wait) : Out := .ok (.int ended.returncode)

/-- `DevelopCommand.invoked`, manage 541-560: how it ends, and whether there is a provider file afterwards. -/
def develop (uninstall force : Bool) (file : Bool) : Out × Bool :=
  if uninstall then (.ok .none, false)
  else if file && !force then (.ok (.int 1), true)
  else (.ok .none, true)

/-- The `I18NCommand`, manage 1214-1300: the programs that it runs, with how they ended. What `_cmd` returns is not
looked at. -/
def i18n (hasDomain : Bool) (_ended : List Wait) : Out :=
  if hasDomain then .ok .none else .ok (.int 1)

/-- What the trusted launcher is asked to do and what comes of it: how the generator ended, if one is given, and how the
target ended; `none` is a checksum that is not known. (launcher1 254-281) -/
structure Request where
  warmup : Bool
  generator : Option (Option Wait)
  target : Option Wait
deriving DecidableEq

/-- `main`, launcher1 222-281: `check_output` raises `CalledProcessError` if the generator fails. -/
def launcher (r : Request) : Out :=
  if r.warmup then .ok (.int 0)
  else
    match r.generator with
    | some none => .error (.systemExit .other)
    | some (some w) => if w.returncode = 0 then target else .error .other
    | none => target
where
  /-- The target, launcher1 278-281. -/
  target : Out :=
    match r.target with
    | none => .error (.systemExit .other)
    | some w => .ok (.int w.returncode)

end Verif.Exit
