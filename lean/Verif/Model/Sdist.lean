import Verif.Model.Path

/-!
# Source tarballs of providers

Models `SourceDistributionCommand` in `plainbox/provider_manager.py` ("manager" below), lines 421-482, with `TarFile.add` of the standard
library.

Simplifications: the files of the provider are a tree of directories and files with contents, without links, special files, owners, modes
and times; directories list their entries sorted by name, as `TarFile.add` does. That files cannot be read or written is left out.
-/

namespace Verif.Sdist

open Verif.Path (Str join)

/-- A file with its contents or a directory with its entries. (manager 473-477) -/
inductive Node
  | file (content : Str)
  | dir (entries : List (Str × Node))

/-- What a member of a tarball is: a file with contents (`some`) or a directory. (standard library, `tarfile`; manager 477) -/
abbrev Member := Str × Option Str

mutual
/-- `tarball.add(name, arcname)`: the members that are written. (standard library, `tarfile`; manager 477) -/
def add (arc : Str) : Node → List Member
  | .file c => [(arc, some c)]
  | .dir es => (arc, none) :: addAll arc es
/-- The loop in `TarFile.add`. (standard library, `tarfile`; manager 477) -/
def addAll (arc : Str) : List (Str × Node) → List Member
  | [] => []
  | (n, t) :: es => add (join arc n) t ++ addAll arc es
end

/-- The values of the definition that are used. (manager 443, 448-449, 474) -/
structure Def where
  location : Str
  name : Str
  version : Str

/-- `_INCLUDED_ITEMS`. (manager 425-426) -/
def included : List Str := ["manage.py".toList, "README.md".toList, "units".toList, "jobs".toList, "COPYING".toList, "bin".toList,
  "src".toList, "data".toList, "po".toList]

/-- `dist_dir`. (manager 441-443) -/
def distDir (d : Def) : Str := join d.location "dist".toList

/-- `name.replace(":", ".")`. (manager 448) -/
def dots (s : Str) : Str := s.map fun c => if c = ':' then '.' else c

/-- `toplevel_name`. (manager 445-449) -/
def toplevel (d : Def) : Str := dots d.name ++ '-' :: d.version

/-- `tarball_name`. (manager 451-454) -/
def tarball (d : Def) : Str := join (distDir d) (toplevel d ++ ".tar.gz".toList)

/-- What happens. (manager 470-482) -/
inductive Event
  | mkdir (path : Str)
  | write (path : Str) (members : List Member)
  | shell (command : Str) (cwd : Str)

/-- The members of the tarball; `root` is what is in `location`. (manager 473-477) -/
def members (d : Def) (root : List (Str × Node)) : List Member :=
  included.flatMap fun n =>
    match root.lookup n with
    | none => []
    | some t => add (join (toplevel d) n) t

/-- `invoked`: what happens and the exit status (`None` is 0); `gpg` is what the shell returns. (manager 456-482) -/
def invoked (d : Def) (root : List (Str × Node)) (distExists : Bool) (_gpg : Nat) : List Event × Nat :=
  ((if distExists then [] else [.mkdir (distDir d)]) ++
    [.write (tarball d) (members d root),
     .shell ("gpg --armor --sign --detach-sig ".toList ++ toplevel d ++ ".tar.gz".toList) (distDir d)], 0)

end Verif.Sdist
