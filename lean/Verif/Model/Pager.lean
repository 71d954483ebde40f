import Verif.Model.Path
import Verif.Model.Text

/-!
# Model of the choice of a pager

`autopager` and `find_exec` of `plainbox/impl/clitools.py` ("clitools"), by which the output of
`plainbox list` (`plainbox/impl/commands/cmd_list.py` 36) is paged.  Left out: flushing, and what the
pager does with the text.
-/

namespace Verif.Pager

open Verif.Path (Str)

/-- What `os.access(pathname, os.X_OK)` is true for (clitools 895): a program that can be run, or a
directory that can be searched. -/
inductive Kind where
  | program
  | directory
deriving DecidableEq, Repr

/-- What the functions ask the system for: `sys.stdout.isatty()` and `sys.platform` (clitools 843), the
variable `PAGER` (clitools 847), `PATH` and `os.defpath` (`os.get_exec_path`, clitools 891), files
(clitools 895) and `sys.stderr.isatty()` (clitools 866). -/
structure World where
  stdoutTty : Bool
  stderrTty : Bool
  windows : Bool
  pager : Option Str
  path : Option Str
  defpath : Str
  access : Str → Option Kind

/-- `os.get_exec_path()`, clitools 891. -/
def World.dirs (w : World) : List Str := Text.splitOn ':' (w.path.getD w.defpath)

/-- The inner loop of `find_exec`, clitools 893-896. -/
def inDirs (w : World) (name : Str) : List Str → Option Str
  | [] => none
  | d :: ds => if (w.access (Path.join d name)).isSome then some (Path.join d name) else inDirs w name ds

/-- `find_exec`, clitools 877-899: the name and the path name; `none` is `LookupError`. -/
def findExec (w : World) : List Str → Option (Str × Str)
  | [] => none
  | n :: ns =>
    match inDirs w n w.dirs with
    | some p => some (n, p)
    | none => findExec w ns

/-- The default of `pager_list`, clitools 806. -/
def defaults : List Str := ["sensible-pager".toList, "less".toList, "more".toList]

/-- Where the output goes: straight to the terminal, or to a process that is to become the program
`path` called `name`, by way of a pipe, with the errors or without (clitools 851-874). -/
inductive Way where
  | direct
  | piped (path name : Str) (errors : Bool)
deriving DecidableEq, Repr

/-- The list of pagers to try, clitools 847-849. -/
def candidates (w : World) : List Str :=
  match w.pager with
  | some p => p :: defaults
  | none => defaults

/-- `autopager`, clitools 842-874. -/
def autopager (w : World) : Way :=
  if w.stdoutTty = false ∨ w.windows = true then .direct
  else
    match findExec w (candidates w) with
    | none => .direct
    | some (n, p) => .piped p n w.stderrTty

/-- `os.execl(pager_pathname, pager_name)`, clitools 874: does the process become the pager?  A
directory cannot be run (`PermissionError`), and without the process that reads the pipe nothing of the
output is seen. -/
def seen (w : World) : Way → Bool
  | .direct => true
  | .piped p _ _ => w.access p == some .program

end Verif.Pager
