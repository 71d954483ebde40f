import Verif.Model.Config
import Verif.Model.Path
import Verif.Model.Rx

/-!
# Provider definitions

Models `Provider1Definition`, `Provider1PlugIn`, `Provider1.from_definition` and the search paths of
`plainbox/impl/secure/providers/v1.py` and `plainbox/impl/providers/v1.py`, on top of the model of
configuration objects.

Simplifications: of the environment the model knows the variables used here, which directories exist and
what a directory lists; the parser of the text is a function (see `Verif.Model.Config`); translation set-up
is left out.
-/

namespace Verif.Definition

open Verif.Config
open Verif.Rx (Rx chr opt plus words cat accepts)

/-- Texts, as lists of characters (`secure/providers/v1.py` 1073-1570). -/
abbrev Str := List Char

/-! ## Patterns -/

/-- `[0-9]`. (`secure/providers/v1.py` 1073-1177) -/
def isDigit (c : Char) : Bool := decide ('0' ≤ c ∧ c ≤ '9')

/-- `[a-z]`. (`secure/providers/v1.py` 1073-1130) -/
def isLower (c : Char) : Bool := decide ('a' ≤ c ∧ c ≤ 'z')

/-- `[a-z0-9-]`. (`secure/providers/v1.py` 1073-1130) -/
def isName (c : Char) : Bool := isLower c || isDigit c || decide (c = '-')

/-- `[a-z][a-z0-9-]*`. (v1.py 1098, 1119) -/
def labelRx : Rx := .seq (.cls isLower) (.star (.cls isName))

/-- `([0-9]{4}\.)?`. (v1.py 1098, 1119) -/
def yearRx : Rx := opt (cat [.cls isDigit, .cls isDigit, .cls isDigit, .cls isDigit, chr '.'])

/-- `([0-9]{4}\.)?[a-z][a-z0-9-]*(\.[a-z][a-z0-9-]*)+:[a-z][a-z0-9-]*` (v1.py 1098, 1120). -/
def iqnBody : Rx := cat [yearRx, labelRx, plus (.seq (chr '.') labelRx), chr ':', labelRx]

/-- The pattern of `IQNValidator` (1096-1098). -/
def iqnRx : Rx := .seq iqnBody .eol

/-- The pattern of `ProviderNameValidator` (1117-1123): `^(…)|([a-z0-9-]+)$`; the anchors belong to one
alternative each. -/
def nameRx : Rx := .alt iqnBody (.seq (plus (.cls isName)) .eol)

/-- `[-_\.]?`. (`secure/providers/v1.py` 1133-1177) -/
def sepRx : Rx := opt (.cls fun c => decide (c = '-' ∨ c = '_' ∨ c = '.'))

/-- `[0-9]+`. (`secure/providers/v1.py` 1133-1177) -/
def numRx : Rx := plus (.cls isDigit)

/-- `[a-z0-9]+`. (v1.py 1169) -/
def alnumRx : Rx := plus (.cls fun c => isLower c || isDigit c)

/-- The pattern of `VersionValidator` (1141-1169). -/
def versionRx : Rx :=
  cat [opt (chr 'v'),
    cat [opt (.seq numRx (chr '!')),
      .seq numRx (.star (.seq (chr '.') numRx)),
      opt (cat [sepRx,
        words ["a".toList, "b".toList, "c".toList, "rc".toList, "alpha".toList, "beta".toList, "pre".toList,
          "preview".toList],
        sepRx, opt numRx]),
      opt (.alt (.seq (chr '-') numRx)
        (cat [sepRx, words ["post".toList, "rev".toList, "r".toList], sepRx, opt numRx])),
      opt (cat [sepRx, words ["dev".toList], sepRx, opt numRx])],
    opt (cat [chr '+', alnumRx, .star (.seq (.cls fun c => decide (c = '-' ∨ c = '_' ∨ c = '.')) alnumRx)])]

/-- The pattern of the variable `gettext_domain` (1274). -/
def domainRx : Rx := plus (.cls fun c => isLower c || isDigit c || decide (c = '_' ∨ c = '-'))

/-! ## Validators -/

/-- `NotUnsetValidator` (config.py 859-880). -/
def notUnsetV : Validator := ⟨true, true, fun v => if v = .unset then .refuse else .ok⟩

/-- `NotEmptyValidator` (config.py 888-901). -/
def notEmptyV : Validator := ⟨false, false, fun v => if v = .str [] then .refuse else .ok⟩

/-- A validator that needs a text; for other values it raises `TypeError` (or `AttributeError`).
(`secure/providers/v1.py` 1100-1102, 1128-1130, 1175-1177, 1185-1197) -/
def textV (f : Str → Bool) : Validator := ⟨false, false, fun v => match v with
  | .str s => if f s then .ok else .refuse
  | _ => .raise⟩

/-- `PatternValidator` (config.py 779-790). -/
def patternV (r : Rx) : Validator := textV (accepts r)

/-- `AbsolutePathValidator` (1190-1197): `os.path.isabs`. -/
def absoluteV : Validator := textV fun s => s.head? == some '/'

/-- `ExistingDirectoryValidator` (1180-1187). -/
def existingV (isDir : Str → Bool) : Validator := textV isDir

/-! ## The definition -/

/-- The section of all variables (1217-1433). -/
def SEC : Str := "PlainBox Provider".toList

/-- `relocatable` (1216-1220). -/
def relocV : Var := mkVar SEC "relocatable".toList .bool .unset []

/-- The validators of directories (1222-1230, 1288-1296, 1324-1332, 1360-1368, 1396-1404, 1432-1440). -/
def dirV (isDir : Str → Bool) (name : Str) : Var :=
  mkVar SEC name .str .unset [notEmptyV, absoluteV, existingV isDir]

/-- `name` (1232-1239). -/
def nameV : Var := mkVar SEC "name".toList .str .unset [notUnsetV, notEmptyV, patternV nameRx]

/-- `namespace` (1241-1247). -/
def namespaceV : Var := mkVar SEC "namespace".toList .str .unset [notEmptyV]

/-- `version` (1256-1263). -/
def versionV : Var := mkVar SEC "version".toList .str .unset [notUnsetV, notEmptyV, patternV versionRx]

/-- `description` (1265-1267). -/
def descriptionV : Var := mkVar SEC "description".toList .str .unset []

/-- `gettext_domain` (1269-1275). -/
def domainV : Var := mkVar SEC "gettext_domain".toList .str .unset [patternV domainRx]

/-- `location` (1222). -/
def locationV (isDir : Str → Bool) : Var := dirV isDir "location".toList
/-- `units_dir` (1288). -/
def unitsV (isDir : Str → Bool) : Var := dirV isDir "units_dir".toList
/-- `jobs_dir` (1324). -/
def jobsV (isDir : Str → Bool) : Var := dirV isDir "jobs_dir".toList
/-- `data_dir` (1360). -/
def dataV (isDir : Str → Bool) : Var := dirV isDir "data_dir".toList
/-- `bin_dir` (1396). -/
def binV (isDir : Str → Bool) : Var := dirV isDir "bin_dir".toList
/-- `locale_dir` (1432). -/
def localeV (isDir : Str → Bool) : Var := dirV isDir "locale_dir".toList

/-- The variables of `Provider1Definition` (1200-1440). -/
def vars (isDir : Str → Bool) : List Var :=
  [relocV, locationV isDir, nameV, namespaceV, versionV, descriptionV, domainV, unitsV isDir, jobsV isDir,
   dataV isDir, binV isDir, localeV isDir]

/-- `bool(value)`, for texts, truth values, `None` and `Unset` (config.py 94-95). -/
def truthy : Val → Bool
  | .bool b => b
  | .str s => !s.isEmpty
  | _ => false

/-- `validate_whole` (1482-1497). -/
def whole (st : St) : Verdict :=
  if truthy (namespaceV.get st) then .ok else (patternV iqnRx).check (nameV.get st)

/-- `implicit_*_dir` (1299-1462). -/
def implicit (isDir : Str → Bool) (st : St) (subs : List Str) : Option Str :=
  match (locationV isDir).get st with
  | .str l => some (subs.foldl Path.join l)
  | _ => none

/-- The implicit value if it is a directory. (`secure/providers/v1.py` 1310-1480) -/
def existing (isDir : Str → Bool) (o : Option Str) : Option Str := o.filter isDir

/-- `effective_*_dir` (1310-1480); for `locale_dir` a second place is tried. -/
def effective (isDir : Str → Bool) (st : St) (x : Var) (places : List (List Str)) : Option Str :=
  match x.get st with
  | .str d => some d
  | _ => places.findSome? fun subs => existing isDir (implicit isDir st subs)

/-! ## The provider -/

/-- The attributes of a `Provider1` (685-715). -/
structure Provider where
  name : Str
  namesp : Str
  dedicated : Bool
  version : Val
  description : Val
  secure : Bool
  domain : Val
  units : Option Str
  jobs : Option Str
  data : Option Str
  bin : Option Str
  locale : Option Str
  base : Option Str
  deriving DecidableEq, Repr

/-- `name.split(':', 1)[0]` (686). -/
def beforeColon (s : Str) : Str := s.takeWhile (· ≠ ':')

/-- `value or None`, for a text or `Unset`. (`secure/providers/v1.py` 729-768) -/
def orNone : Val → Option Str
  | .str (c :: s) => some (c :: s)
  | _ => none

/-- `from_definition` (729-770) and `__init__` (684-704); `none` is the exception for a name that is not a
text. -/
def fromDefinition (isDir : Str → Bool) (st : St) (secure : Bool) : Option Provider :=
  match nameV.get st with
  | .str n => some
    { name := n
      namesp := (orNone (namespaceV.get st)).getD (beforeColon n)
      dedicated := truthy (namespaceV.get st)
      version := versionV.get st
      description := descriptionV.get st
      secure := secure
      domain := if domainV.get st = .unset then .none else domainV.get st
      units := effective isDir st (unitsV isDir) [["units".toList]]
      jobs := effective isDir st (jobsV isDir) [["jobs".toList]]
      data := effective isDir st (dataV isDir) [["data".toList]]
      bin := effective isDir st (binV isDir) [["bin".toList]]
      locale := effective isDir st (localeV isDir) [["locale".toList], ["build".toList, "mo".toList]]
      base := orNone ((locationV isDir).get st) }
  | _ => none

/-! ## Search paths -/

/-- The part of the environment used here; `listDir` is `none` for a path that does not exist.
(`secure/providers/v1.py` 1549-1570, `providers/v1.py` 42-91) -/
structure Env where
  snap : Option Str
  snapAppPath : Option Str
  listDir : Str → Option (List Str)
  xdgDataHome : Option Str
  home : Str
  providerPath : Option Str

/-- `a or b` for values that may be `None` or empty. (`secure/providers/v1.py` 1549-1570) -/
def orElse (a b : Option Str) : Option Str :=
  match a with
  | some (c :: s) => some (c :: s)
  | _ => b

/-- `get_secure_PROVIDERPATH_list` (1549-1570). -/
def secureDirs (e : Env) : List Str :=
  match orElse e.snap e.snapAppPath with
  | some (c :: s) =>
    match e.listDir (Path.join (c :: s) "providers".toList) with
    | some l => l.map fun n => Path.join (Path.join (c :: s) "providers".toList) n
    | none => []
  | _ => ["/usr/local/share/plainbox-providers-1".toList, "/usr/share/plainbox-providers-1".toList]

/-- `get_user_PROVIDERPATH_entry` (providers/v1.py 42-51); `home` is what `~` expands to. -/
def userDir (e : Env) : Str :=
  Path.join (e.xdgDataHome.getD (e.home ++ "/.local/share/".toList)) "plainbox-providers-1".toList

/-- `str.split(':')`. (`providers/v1.py` 84-91) -/
def splitColon : Str → List Str
  | [] => [[]]
  | c :: s =>
    if c = ':' then [] :: splitColon s
    else match splitColon s with
      | [] => [[c]]
      | l :: ls => (c :: l) :: ls

/-- The directories that `InsecureProvider1PlugInCollection` searches (providers/v1.py 54-91). -/
def searchDirs (e : Env) : List Str :=
  match e.providerPath with
  | none => secureDirs e ++ [userDir e]
  | some p => splitColon p

/-! ## The plug-in -/

/-- How making a plug-in ends: a provider, `PlugInError`, another exception. (`secure/providers/v1.py` 1506-1542) -/
inductive Made
  | ok (p : Provider)
  | plugInError
  | raises
  deriving DecidableEq, Repr

/-- Assignments of `Unset` to the directories (1523-1527); none of the validators is asked. -/
def reset (isDir : Str → Bool) (st : St) : St :=
  [unitsV isDir, jobsV isDir, dataV isDir, binV isDir, localeV isDir].foldl
    (fun st x => (x.set .unset st).1) st

/-- What `relocatable` does (1521-1527); `none` is the exception of the assignment. -/
def relocate (isDir : Str → Bool) (filename : Str) (st : St) : Option St :=
  if truthy (relocV.get st) then
    match (locationV isDir).set (.str (Path.dirname filename)) st with
    | (st', .ok) => some (reset isDir st')
    | _ => none
  else some st

/-- The rest of `Provider1PlugIn.__init__` (1528-1542). The first problem is asked for its variable, which
a syntax error does not have. -/
def finish (isDir : Str → Bool) (e : Env) (filename : Str) (st : St) : Made :=
  match st.problems with
  | .syntax :: _ => .raises
  | _ :: _ => .plugInError
  | [] =>
    match fromDefinition isDir st (decide (Path.dirname filename ∈ secureDirs e)) with
    | some p => .ok p
    | none => .raises

/-- `Provider1PlugIn.__init__` (1506-1542); `syn` tells that parsing the text failed, `p` is the parser
afterwards. -/
def plugIn (w : World) (isDir : Str → Bool) (e : Env) (filename : Str) (syn : Bool) (p : Parser) : Made :=
  let r := step w (vars isDir) whole (.readString syn p false) init
  if r.2 then .raises
  else match relocate isDir filename r.1 with
    | none => .raises
    | some st => finish isDir e filename st

end Verif.Definition
