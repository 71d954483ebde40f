import Verif.Model.Ctrl
import Verif.Model.Classify
import Verif.Model.Sort

/-!
# The programs that a command finds

Models the directory of links that is made for every command (`SymLinkNest` and `configured_filesystem` in
`plainbox/impl/ctrl.py`, "ctrl" below), the list of executables and the namespace of a provider
(`plainbox/impl/secure/providers/v1.py`, "v1"), and the search of the shell for a program along `PATH`.

Simplifications: making a link fails only if there is one of that name; the file system does not change while the command
runs; a word is searched for only if it is no function or command of the shell itself.
-/

namespace Verif.Tools

open Verif.Path

/-- A file unit, as far as it is looked at. (v1 994-1001) -/
structure FileUnit where
  path : Str
  role : Classify.Role
deriving DecidableEq

/-- A provider, as far as it is looked at: its name, its namespace if it has one of its own, and its file units. (v1 685-691,
994-1001) -/
structure Provider where
  name : Str
  dedicated : Option Str := none
  files : List FileUnit
deriving DecidableEq

/-- `Provider1.namespace`, v1 685-691 and 784-799. -/
def Provider.namespace (p : Provider) : Str :=
  match p.dedicated with
  | none => p.name.takeWhile (· ≠ ':')
  | some n => n

/-- `Provider1.executable_list`, v1 994-1001. -/
def Provider.executables (p : Provider) : List Str :=
  Sort.sortBy Sort.strLe ((p.files.filter fun u => decide (u.role = .script) || decide (u.role = .binary)).map (·.path))

/-- The links in the directory: names and what they point to. (ctrl 357-392) -/
abbrev Nest := List (Str × Str)

/-- `SymLinkNest.add_executable`, ctrl 375-392. Making a link raises `OSError`, which is only logged, if there is one of that
name; without a name it would be the directory itself. -/
def addExecutable (nest : Nest) (filename : Str) : Nest :=
  if basename filename = [] ∨ (nest.lookup (basename filename)).isSome then nest
  else nest ++ [(basename filename, filename)]

/-- `SymLinkNest.add_provider`, ctrl 365-373. -/
def addProvider (nest : Nest) (p : Provider) : Nest := p.executables.foldl addExecutable nest

/-- The directory that `configured_filesystem` makes, ctrl 463-490. -/
def configured (job : Provider) (providers : List Provider) : Nest :=
  providers.foldl (fun nest p => if job.namespace = p.namespace then addProvider nest p else nest) []

/-- What the shell sees: the files that can be run, the current directory, and the user who runs plainbox. (the shell; used in
ctrl 780-783) -/
structure World where
  exe : Str → Bool
  cwd : Str
  self : Str

/-- May the user of a command look into a directory that `TemporaryDirectory` makes (ctrl 483)? Only its owner and root may. -/
def mayEnter (self : Str) : Option Str → Bool
  | none => true
  | some u => decide (u = self) || decide (u = "root".toList)

/-- What a directory of the path has under that name: a link of ours, or a file. (the shell; used in ctrl 780-783) -/
def entry (w : World) (inside : Bool) (nestDir : Str) (nest : Nest) (d name : Str) : Option Str :=
  if d = nestDir then (if inside then (nest.lookup name).map (join nestDir) else none)
  else some (join (join w.cwd d) name)

/-- The search for a program: the first directory that has one which can be run. An empty name of a directory is the current
one. (the shell; used in ctrl 780-783) -/
def search (w : World) (inside : Bool) (nestDir : Str) (nest : Nest) : List Str → Str → Option Str
  | [], _ => none
  | d :: ds, name =>
    match entry w inside nestDir nest d name with
    | none => search w inside nestDir nest ds name
    | some p => if w.exe p then some p else search w inside nestDir nest ds name

/-- The path that a shell uses when there is no variable `PATH`. (the shell, which is run by ctrl 780-783) -/
def defaultPath : Str := "/usr/local/sbin:/usr/local/bin:/usr/sbin:/usr/bin:/sbin:/bin".toList

/-- The directories in which a shell with this environment searches. (the shell; used in ctrl 780-783) -/
def dirs (path : Option Str) : List Str := Text.splitOn ':' (path.getD defaultPath)

/-- The value of `PATH` that a command gets: jobs of the user have the environment of ctrl 624-707, others the difference to the
present one, which is put before the command (ctrl 1275-1285, 1381-1389). -/
def pathOf (base : Ctrl.Env) (j : Ctrl.Job) (cfg : Ctrl.Env) (nestDir data : Str) : Option Str :=
  match j.user with
  | none => (Ctrl.execEnv base j cfg nestDir data).lookup "PATH".toList
  | some _ => (Ctrl.diffEnv base j cfg nestDir data).lookup "PATH".toList

/-- The program that is run when the command of a job names one, with the directory of ctrl 463-490. -/
def finds (w : World) (base : Ctrl.Env) (j : Ctrl.Job) (cfg : Ctrl.Env) (nestDir data : Str) (job : Provider)
    (providers : List Provider) (name : Str) : Option Str :=
  search w (mayEnter w.self j.user) nestDir (configured job providers) (dirs (pathOf base j cfg nestDir data)) name

end Verif.Tools
