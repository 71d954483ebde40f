import Verif.Model.Locate

/-!
# The translations of a provider

Models `I18NCommand` in `plainbox/provider_manager.py` ("manager" below), lines 1185-1299.

Simplifications: what is in directories and which names are files is looked at with functions, and is the same before and after the
commands are run (they make and change files, but no file of another language); that programs cannot be started and that directories
cannot be made is left out. The provider is made from the definition elsewhere (`Verif.Model.Definition`); here it is its `data_dir`.
-/

namespace Verif.I18n

open Verif.Path (Str join ext)

/-- What happens: a directory is made, a line is printed, a program is run in a directory or in the current one. (manager 1221, 1269, 1282,
1291-1299) -/
inductive Event
  | mkdir (path : Str)
  | say (line : Str)
  | run (argv : List Str) (cwd : Option Str)
deriving DecidableEq

/-- The options. (manager 1199-1211) -/
structure Options where
  dry : Bool
  dontUpdate : Bool
  dontMerge : Bool
  dontBuild : Bool

/-- What the command looks at: the current directory, the definition's location and domain, whether `po` exists, the names in it, the
`data_dir` of the provider, `os.walk` of it, and what the programs return. (manager 1215-1254, 1265, 1278) -/
structure World where
  cwd : Str
  location : Str
  domain : Option Str
  poExists : Bool
  po : List Str
  dataDir : Option Str
  walk : Str → List (Str × List Str)
  isFile : Str → Bool
  status : List Str → Nat

/-- `os.path.relpath(p)`, `os.path.relpath(p, start)`; the paths here are not empty, so there is no `ValueError`. (manager 1254, 1286-1288,
1293) -/
def rel (w : World) (p start : Str) : Str := (Locate.relpath w.cwd p start).getD []

/-- `po_dir`. (manager 1232-1234) -/
def poDir (w : World) : Str := join w.location "po".toList

/-- `mo_dir(lang)`. (manager 1236-1238) -/
def moDir (w : World) (lang : Str) : Str :=
  join (join (join (join w.location "build".toList) "mo".toList) lang) "LC_MESSAGES".toList

/-- `" ".join(words)`. (manager 1293-1295) -/
def words (l : List Str) : Str := [' '].intercalate l

/-- `_cmd`: what happens and the value returned. (manager 1291-1299) -/
def call (w : World) (argv : List Str) (cwd : Option Str) (dry : Bool) : List Event × Nat :=
  (.say (match cwd with
    | some d => words (["(".toList, "cd".toList, rel w d ".".toList, "&&".toList, words argv, ")".toList])
    | none => words argv) ::
  (if dry then [] else [.run argv cwd]), if dry then 0 else w.status argv)

/-- A call of `_cmd` as they all are: the value returned is not looked at. (manager 1241, 1256, 1271, 1284) -/
def cmd (w : World) (argv : List Str) (cwd : Option Str) (dry : Bool) : List Event := (call w argv cwd dry).1

/-- The files for `xgettext`. (manager 1248-1254) -/
def qmlFiles (w : World) (data : Str) : List Str :=
  (w.walk data).flatMap fun x =>
    ((x.2.map (join x.1)).filter fun f => (ext f).map Char.toLower = ".qml".toList && w.isFile f).map fun f => rel w f (poDir w)

/-- `_update_pot`. (manager 1240-1262) -/
def updatePot (w : World) (domain : Str) (dry : Bool) : List Event :=
  cmd w ["intltool-update".toList, "--gettext-package=".toList ++ domain, "--pot".toList] (some (poDir w)) dry ++
  match w.dataDir with
  | none => []
  | some data =>
    if data = [] then []
    else if qmlFiles w data = [] then []
    else cmd w (["xgettext".toList, "-o".toList, domain ++ ".pot".toList, "--qt".toList, "--c++".toList, "--join-existing".toList,
      "--keyword=tr".toList, "--keyword=tr:1,2".toList, "--from-code=UTF-8".toList] ++ qmlFiles w data) (some (poDir w)) dry

/-- `os.path.splitext(item)[0]`. (standard library; manager 1268, 1281) -/
def stem (item : Str) : Str := item.take (item.length - (ext item).length)

/-- The items that are used. (manager 1265-1267, 1278-1280) -/
def items (w : World) : List Str := w.po.filter fun i => ".po".toList.isSuffixOf i

/-- `_merge_po`. (manager 1264-1275) -/
def mergePo (w : World) (domain : Str) (dry : Bool) : List Event :=
  (items w).flatMap fun item =>
    .mkdir (moDir w (stem item)) ::
    cmd w ["intltool-update".toList, "--gettext-package=".toList ++ domain, "--dist".toList, stem item] (some (poDir w)) dry

/-- `_build_mo`. (manager 1277-1289) -/
def buildMo (w : World) (domain : Str) (dry : Bool) : List Event :=
  (items w).flatMap fun item =>
    .mkdir (moDir w (stem item)) ::
    cmd w ["msgfmt".toList, rel w (poDir w) ".".toList ++ '/' :: stem item ++ ".po".toList, "-o".toList,
      rel w (moDir w (stem item) ++ '/' :: domain ++ ".mo".toList) ".".toList] none dry

/-- `invoked`: what happens, and the exit status (`None` is 0). (manager 1214-1230) -/
def invoked (w : World) (o : Options) : List Event × Nat :=
  match w.domain with
  | none => ([.say "This provider doesn't define gettext_domain.".toList, .say "Add it to manage.py and try again".toList], 1)
  | some d =>
    ((if w.poExists then [] else [.mkdir (poDir w)]) ++
     (if o.dontUpdate then [] else updatePot w d o.dry) ++
     (if o.dontMerge then [] else mergePo w d o.dry) ++
     (if o.dontBuild then [] else buildMo w d o.dry), 0)

end Verif.I18n
