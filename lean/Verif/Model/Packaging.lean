import Verif.Model.Text
import Verif.Model.Restart
import Verif.Model.Launcher

/-!
# Packaging meta-data

Model of `plainbox/impl/unit/packaging.py` ("packaging"), of `get_os_release` in
`plainbox/impl/device.py` and of `manage.py packaging` in `plainbox/provider_manager.py`.

The text of /etc/os-release is a list of characters; `shlex.split` is `Restart.split`.  The file
debian/control is given by its paragraphs, since python-debian is not part of the code.  Units are not
parametric (they are not templates), so the values of their fields are the values in the record.  Log
messages and failures to write files are left out.
-/

namespace Verif.Packaging

open Verif.Text

/-- Text, as in packaging.py and device.py:41-55. -/
abbrev Str := List Char

/-- The dictionary of `get_os_release` (device 41-55) as the list of its items in the order of the file;
`none` is `ValueError`, either of `shlex.split` or because an entry has no `=`. -/
def osRelease (text : Str) : Option (List (Str × Str)) :=
  (Restart.split text).bind fun entries => entries.mapM Launcher.splitEq

/-- `os_release[k]`, `k in os_release` and `os_release.get(k)`: the last item made counts (device 52-55). -/
def osGet (os : List (Str × Str)) (k : Str) : Option Str := os.reverse.lookup k

/-- A unit: `Meta.name` of its class and its record (unit/unit.py 608-635 for the values). -/
structure PUnit where
  kind : Str
  record : List (Str × Str)
deriving DecidableEq, Repr

/-- `Unit.get_record_value(name)` of a unit that is not parametric (unit/unit.py 620-622). -/
def PUnit.value (u : PUnit) (name : Str) : Option Str :=
  (u.record.lookup ('_' :: name)).or (u.record.lookup name)

/-- `PackagingMetaDataUnit.os_id` (packaging 145-147, 162). -/
def PUnit.osId (u : PUnit) : Option Str := u.value "os-id".toList

/-- `PackagingMetaDataUnit.os_version_id` (packaging 150-152, 163). -/
def PUnit.osVersion (u : PUnit) : Option Str := u.value "os-version-id".toList

/-- `_strategy_id_version` (packaging 298-306). -/
def strategyIdVersion (u : PUnit) (os : List (Str × Str)) : Bool :=
  (osGet os "ID".toList).isSome && u.osId = osGet os "ID".toList &&
    (osGet os "VERSION_ID".toList).isSome && u.osVersion = osGet os "VERSION_ID".toList

/-- `_strategy_id` (packaging 309-316). -/
def strategyId (u : PUnit) (os : List (Str × Str)) : Bool :=
  (osGet os "ID".toList).isSome && u.osId = osGet os "ID".toList && u.osVersion.isNone

/-- `_strategy_id_like` (packaging 319-326). -/
def strategyIdLike (u : PUnit) (os : List (Str × Str)) : Bool :=
  (osGet os "ID_LIKE".toList).isSome && u.osId = osGet os "ID_LIKE".toList && u.osVersion.isNone

/-- `PackagingMetaDataUnit.Meta.name` (packaging 156). -/
def packagingKind : Str := "packaging meta-data".toList

/-- `PackagingDriverBase.is_applicable` (packaging 336-346). -/
def isApplicable (os : List (Str × Str)) (u : PUnit) : Bool :=
  if u.kind ≠ packagingKind then false
  else if !strategyIdVersion u os && !strategyId u os && !strategyIdLike u os then false
  else true

/-- One more character for the first piece. (packaging 413-419, for `re.split(', *', relations)`) -/
def consHead (c : Char) : List Str → List Str
  | [] => [[c]]
  | p :: ps => (c :: p) :: ps

/-- `re.split(', *', s)` (packaging 417); the flag says that a separator may go on. -/
def splitRel : Bool → Str → List Str
  | _, [] => [[]]
  | skip, c :: s =>
    if skip = true ∧ c = ' ' then splitRel true s
    else if c = ',' then [] :: splitRel true s
    else consHead c (splitRel false s)

/-- One character of `.replace('\n', ' ')`. (packaging 414) -/
def nlToSp (c : Char) : Char := if c = '\n' then ' ' else c

/-- `rel_list` (packaging 413-419). -/
def relList (u : PUnit) (field : Str) : List Str :=
  ((splitRel false (((u.value field).getD []).map nlToSp)).map strip).filter (· ≠ [])

/-- The lists of a `DebianPackagingDriver` (packaging 394-396). -/
structure Lists where
  depends : List Str := []
  suggests : List Str := []
  recommends : List Str := []
deriving DecidableEq, Repr

/-- `DebianPackagingDriver.collect` (packaging 412-422). -/
def collect (l : Lists) (u : PUnit) : Lists :=
  { depends := l.depends ++ relList u "Depends".toList
    suggests := l.suggests ++ relList u "Suggests".toList
    recommends := l.recommends ++ relList u "Recommends".toList }

/-- `PackagingDriverBase.inspect_provider` (packaging 348-351), starting with new lists. -/
def inspectProvider (os : List (Str × Str)) (units : List PUnit) : Lists :=
  units.foldl (fun l u => if isApplicable os u then collect l u else l) {}

/-- `', '.join(list)`. (packaging 430-437) -/
def joinComma : List Str → Str
  | [] => []
  | [a] => a
  | a :: b :: l => a ++ [',', ' '] ++ joinComma (b :: l)

/-- One `if` of `_write_pkg_substvars` (packaging 429-431, 432-434, 435-437). -/
def varLine (name : Str) (l : List Str) : Str :=
  if l ≠ [] then "plainbox:".toList ++ name ++ ['='] ++ joinComma l ++ ['\n'] else []

/-- What `_write_pkg_substvars` appends (packaging 424-437). -/
def substvars (l : Lists) : Str :=
  varLine "Depends".toList l.depends ++ varLine "Suggests".toList l.suggests ++
    varLine "Recommends".toList l.recommends

/-- The contents of the files `debian/{pkg}.substvars`, by package. (packaging 424-428) -/
abbrev Files := Str → Option Str

/-- `_write_pkg_substvars(pkg)`: the file is opened for appending (packaging 425-428). -/
def write (l : Lists) (files : Files) (pkg : Str) : Files :=
  fun p => if p = pkg then some ((files pkg).getD [] ++ substvars l) else files p

/-- A paragraph of debian/control: the fields `Package` and `X-Plainbox-Provider`. (packaging 444-449) -/
structure Para where
  package : Option Str
  flag : Option Str
deriving DecidableEq, Repr

/-- debian/control: it is not there (`ENOENT`), opening or reading it fails with another `OSError`, or it
has these paragraphs. (packaging 439-456) -/
inductive Control where
  | missing
  | unreadable
  | paras (ps : List Para)

/-- The packages `_gen_provider_packages` yields (packaging 444-451). -/
def providerPackages (ps : List Para) : List Str :=
  ps.filterMap fun p => if p.flag = some "yes".toList then p.package else none

/-- How `manage.py packaging` ends: `ValueError` from `get_os_release`, a message and status 1, or success
with these files. (provider_manager.py 1324-1334) -/
inductive Outcome where
  | valueError
  | refused
  | done (files : Files)

/-- The Debian driver in `PackagingCommand.invoked` (provider_manager 1326-1334, packaging 399-410,
439-456). -/
def debianRun (os : List (Str × Str)) (units : List PUnit) (files : Files) : Control → Outcome
  | .missing => .refused
  | .unreadable => .refused
  | .paras ps =>
    if providerPackages ps = [] then .refused
    else .done ((providerPackages ps).foldl (write (inspectProvider os units)) files)

/-- The test for the Debian driver (packaging 463-464). -/
def isDebian (os : List (Str × Str)) : Bool :=
  osGet os "ID".toList = some "debian".toList || osGet os "ID_LIKE".toList = some "debian".toList

/-- `PackagingCommand.invoked` (provider_manager 1324-1334) with `get_packaging_driver` (packaging
459-468); the null driver does nothing (packaging 354-373). -/
def packagingCommand (linux : Bool) (text : Str) (control : Control) (units : List PUnit) (files : Files) :
    Outcome :=
  if linux then
    match osRelease text with
    | none => .valueError
    | some os => if isDebian os then debianRun os units files control else .done files
  else .done files

end Verif.Packaging
