import Verif.Model.Path

/-!
# What commands leave behind

Models `_find_leftovers` and the part of `temporary_cwd` that calls it in `plainbox/impl/ctrl.py` ("ctrl" below), `os.walk`, and
`on_leftover_files` in `plainbox/impl/runner.py` ("runner").

Simplifications: the directory does not change while it is looked at; links to other links count as what these finally are.
-/

namespace Verif.Leftover

open Verif.Path

/-- What a directory holds, entry by entry: anything that is no directory, links to directories, and directories, which can be
read or not. (standard library, `os.scandir`; used in ctrl 538) -/
inductive Tree
  | nil
  | file (name : Str) (rest : Tree)
  | link (name : Str) (rest : Tree)
  | dir (name : Str) (readable : Bool) (inner rest : Tree)
deriving DecidableEq

/-- The third component that `os.walk` yields for a directory: the names that are no directories. Links to directories count as
directories. (standard library; used in ctrl 538) -/
def filenames : Tree → List Str
  | .nil => []
  | .file n r => n :: filenames r
  | .link _ r => filenames r
  | .dir _ _ _ r => filenames r

/-- What `os.walk` yields for the directories in a directory: their path and the names in them. It passes over links, and over
directories that cannot be read. (standard library; used in ctrl 538) -/
def walk (top : Str) : Tree → List (Str × List Str)
  | .nil => []
  | .file _ r => walk top r
  | .link _ r => walk top r
  | .dir n readable inner r =>
    (if readable then (join top n, filenames inner) :: walk (join top n) inner else []) ++ walk top r

/-- The loop of `_find_leftovers`, ctrl 538-543. -/
def collect (cwd : Str) : List (Str × List Str) → List Str
  | [] => []
  | (d, files) :: l => (if d ≠ cwd then [d] else []) ++ files.map (join d) ++ collect cwd l

/-- `_find_leftovers`, ctrl 526-544. -/
def leftovers (cwd : Str) (t : Tree) : List Str := collect cwd ((cwd, filenames t) :: walk cwd t)

/-- `os.path.relpath(item, cwd_dir)` for what lies in that directory. (standard library; used in runner 968-969) -/
def relpath (cwd item : Str) : Str := item.drop (cwd.length + 1)

/-- What is logged about what a command left behind: ctrl 517-520 and `JobRunner.on_leftover_files`, runner 962-972. `logging` is
`log_leftovers`. -/
def warnings (logging : Bool) (flags : List Str) (cwd : Str) (t : Tree) : List Str :=
  if (leftovers cwd t).isEmpty then []
  else if logging && !flags.contains "has-leftovers".toList then (leftovers cwd t).map (relpath cwd)
  else []

end Verif.Leftover
