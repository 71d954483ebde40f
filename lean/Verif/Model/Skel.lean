import Verif.Model.Definition

/-!
# New providers

Models `plainbox startprovider` (`plainbox/impl/commands/inv_startprovider.py`, "start"; `cmd_startprovider.py`, "cmd").

The file system is a map from paths, below the directory where the command is run, to directories and files. Simplified: making and
writing succeed if the directory above is there; the texts of the files are left out, but for the lines of `manage.py` that call
`setup`, and the files that `POTFILES.in` names: no other text has anything to fill in. `repr` of a name puts it in quotes; that it
writes a newline at the end of a name as an escape is left out. Names of things have nothing to fill in either, and the name of a provider has no
braces (see `C149_name`).
-/

namespace Verif.Skel

abbrev Str := List Char
/-- A path, by its components. (start 85-88, 117) -/
abbrev Path := List Str

/-- A directory, or a file with its lines and whether it is executable. (start 91-95, 120) -/
inductive Node
  | dir
  | file (text : Option (List Str)) (executable : Bool)
deriving DecidableEq, Repr

/-- The file system. (start 89-95, 118-120) -/
abbrev FS := Path → Option Node

/-- What a command ends with: nothing, `SomethingInTheWay`, or another exception. (start 48-58, 91, 120, 531) -/
inductive Err
  | inTheWay (p : Path)
  | noDirectory (p : Path)
deriving DecidableEq, Repr

/-- What is to be made: a `Directory` with its name, or a `File` with its parent, name, whether it is executable, and whether it is
`manage.py`, whose text is filled in. (start 77-81, 107-108) -/
inductive Thing
  | dir (name : Str)
  | file (parent : Option Str) (name : Str) (executable : Bool) (filled : Bool)
deriving DecidableEq, Repr

/-- Making something at a path, if the directory above is there. (start 91, 120) -/
def make (fs : FS) (p : Path) (n : Node) : Option Err × FS :=
  if fs p.dropLast = some .dir then (none, fun q => if q = p then some n else fs q)
  else (some (.noDirectory p), fs)

/-- `Directory.instantiate`. (start 116-120) -/
def makeDir (fs : FS) (p : Path) : Option Err × FS :=
  if (fs p).isSome then (some (.inTheWay p), fs) else make fs p .dir

/-- The lines of `manage.py` from `setup(` on. (start 161-166) -/
def manageLines (name domain : Str) : List Str :=
  ["setup(".toList, "    name='".toList ++ name ++ "',".toList, "    version=\"1.0\",".toList,
    "    description=N_(\"The ".toList ++ name ++ " provider\"),".toList,
    "    gettext_domain=\"".toList ++ domain ++ "\",".toList, ")".toList]

/-- `instantiate` of a thing. (start 83-95, 116-120) -/
def Thing.instantiate (t : Thing) (root : Path) (name domain : Str) (fs : FS) : Option Err × FS :=
  match t with
  | .dir n => makeDir fs (root ++ [n])
  | .file parent n x filled =>
    let p := match parent with
      | some d => root ++ [d, n]
      | none => root ++ [n]
    if (fs p).isSome then (some (.inTheWay p), fs)
    else make fs p (.file (if filled then some (manageLines name domain) else none) x)

/-- The loop over the things. (start 135-137) -/
def instantiateAll (root : Path) (name domain : Str) : List Thing → FS → Option Err × FS
  | [], fs => (none, fs)
  | t :: ts, fs =>
    match t.instantiate root name domain fs with
    | (none, fs') => instantiateAll root name domain ts fs'
    | (some e, fs') => (some e, fs')

/-- `Skeleton.instantiate`. (start 133-137) -/
def instantiate (things : List Thing) (name domain : Str) (fs : FS) : Option Err × FS :=
  match makeDir fs [name] with
  | (some e, fs') => (some e, fs')
  | (none, fs') => instantiateAll [name] name domain things fs'

/-- `EmptyProviderSkeleton`. (start 140-167) -/
def empty : List Thing := [.file none "manage.py".toList true true]

/-- `ProviderSkeleton`. (start 170-518) -/
def full : List Thing := empty ++
  [.dir "units".toList, .dir "data".toList, .dir "bin".toList, .dir "po".toList,
   .file none "README.md".toList false false,
   .file (some "units".toList) "examples-trivial.pxu".toList false false,
   .file (some "units".toList) "examples-normal.pxu".toList false false,
   .file (some "units".toList) "examples-intermediate.pxu".toList false false,
   .file (some "po".toList) "POTFILES.in".toList false false,
   .file (some "data".toList) "README.md".toList false false,
   .file (some "data".toList) "example.dat".toList false false,
   .file (some "bin".toList) "README.md".toList false false,
   .file (some "bin".toList) "custom-executable".toList true false,
   .file none ".gitignore".toList false false,
   .file none ".bzrignore".toList false false]

/-- The files that `po/POTFILES.in` names, below the directory of the provider. (start 473-479) -/
def potFiles : List Path :=
  [["jobs".toList, "examples-trivial.txt".toList], ["jobs".toList, "examples-normal.txt".toList],
   ["jobs".toList, "examples-intermediate.txt".toList], ["manage.py".toList]]

/-- `re.sub("[.:]", "_", name)`. (start 530) -/
def domainOf (name : Str) : Str := name.map fun c => if c = '.' ∨ c = ':' then '_' else c

/-- How the command ends: the name is refused when arguments are parsed, it ends with a message, with a traceback, or well.
(start 526-532; cmd 36-40, 84-96) -/
inductive Out
  | badName | refused (p : Path) | crash (p : Path) | done
deriving DecidableEq, Repr

/-- The command. (start 526-532; cmd 74-97) -/
def run (emptyOnly : Bool) (name : Str) (fs : FS) : Out × FS :=
  if Rx.accepts Definition.iqnRx name then
    match instantiate (if emptyOnly then empty else full) name (domainOf name) fs with
    | (none, fs') => (.done, fs')
    | (some (.inTheWay p), fs') => (.refused p, fs')
    | (some (.noDirectory p), fs') => (.crash p, fs')
  else (.badName, fs)

end Verif.Skel
