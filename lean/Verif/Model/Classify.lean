import Verif.Model.Path

/-!
# Classification of the files of a provider

Models `ProviderContentClassifier` of `plainbox/impl/secure/providers/v1.py` and the directories that
`Provider1` computes from its base directory.

Simplifications: the file system does not change while files are classified; `EXECUTABLES` is the set
read from the hint file, which is readable text if it exists.
-/

namespace Verif.Classify

open Verif.Path

/-- The symbols of `FileRole` (`plainbox/impl/unit/file.py` 43-63) that the classifier uses. -/
inductive Role
  | unitSource | data | script | binary | i18n | build | src | legal | docs | managePy | vcs | unknown
  deriving DecidableEq, Repr

/-- The plug-in class: `None`, `ProviderContentPlugIn`, `UnitPlugIn`. (v1.py 344-369, 442-536) -/
inductive Plug
  | none | content | units
  deriving DecidableEq, Repr

/-- What a function of the classifier does: return `None`, return a triple, raise an exception, or run
forever. (v1.py 344-369, 442-536) -/
inductive Res
  | pass
  | found (r : Role) (base : Option Str) (p : Plug)
  | raises
  | hangs
  deriving DecidableEq, Repr

/-- The directories of a provider (697-702). -/
structure Dirs where
  jobs : Option Str
  units : Option Str
  data : Option Str
  bin : Option Str
  base : Option Str

/-- `build_dir` (876-883). -/
def Dirs.build (d : Dirs) : Option Str := d.base.map fun b => join b "build".toList

/-- `build_bin_dir` (886-893). -/
def Dirs.buildBin (d : Dirs) : Option Str := d.base.map fun b => join (join b "build".toList) "bin".toList

/-- `build_mo_dir` (896-903). -/
def Dirs.buildMo (d : Dirs) : Option Str := d.base.map fun b => join (join b "build".toList) "mo".toList

/-- `src_dir` (906-913). -/
def Dirs.src (d : Dirs) : Option Str := d.base.map fun b => join b "src".toList

/-- `po_dir` (916-923). -/
def Dirs.po (d : Dirs) : Option Str := d.base.map fun b => join b "po".toList

/-- What the classifier asks the file system: may the file be executed (468), do its first two bytes
read `#!` (469-471; `none` if it cannot be opened), is a name listed in `src/EXECUTABLES` (424-440). -/
structure Fs where
  access : Str → Bool
  hashBang : Str → Option Bool
  executables : Str → Bool

/-- `filename.startswith(dir)`. (v1.py 442-536) -/
def startsWith (f dir : Str) : Bool := dir.isPrefixOf f

/-- `_classify_pxu_jobs` (442-448). -/
def pxuJobs (dir f : Str) : Res :=
  if startsWith f dir then
    if ext f ∈ [".txt".toList, ".in".toList, ".pxu".toList] then .found .unitSource (some dir) .units
    else .pass
  else .pass

/-- `_classify_pxu_units` (450-457). -/
def pxuUnits (dir f : Str) : Res :=
  if startsWith f dir then
    if ext f ∈ [".txt".toList, ".txt.in".toList, ".pxu".toList] then
      .found .unitSource (some dir) .units
    else .pass
  else .pass

/-- `_classify_data` (459-463). -/
def dataFn (dir f : Str) : Res :=
  if startsWith f dir then .found .data (some dir) .content else .pass

/-- Reading two bytes and choosing the role (469-472, 479-482). -/
def execRole (hb : Option Bool) (dir : Str) : Res :=
  match hb with
  | none => .raises
  | some true => .found .script (some dir) .content
  | some false => .found .binary (some dir) .content

/-- `_classify_exec` (465-472). -/
def execFn (fs : Fs) (dir f : Str) : Res :=
  if startsWith f dir && fs.access f then execRole (fs.hashBang f) dir else .pass

/-- `_classify_built_exec` (474-482). -/
def builtExec (fs : Fs) (dir f : Str) : Res :=
  if startsWith f dir && fs.access f && fs.executables (basename f) then
    execRole (fs.hashBang f) dir
  else .pass

/-- `_classify_built_i18n` (484-489): the base is the directory of built programs. -/
def builtI18n (d : Dirs) (dir f : Str) : Res :=
  if startsWith f dir && ext f = ".mo".toList then .found .i18n d.buildBin .content else .pass

/-- `_classify_build` (491-494). -/
def buildFn (dir f : Str) : Res :=
  if startsWith f dir then .found .build (some dir) .none else .pass

/-- `_classify_po` (513-517). -/
def poFn (d : Dirs) (dir f : Str) : Res :=
  if dirname f = dir ∧ (ext f ∈ [".po".toList, ".pot".toList] ∨ basename f = "POTFILES.in".toList) then
    .found .src d.base .none
  else .pass

/-- `_classify_src` (519-521). -/
def srcFn (d : Dirs) (dir f : Str) : Res :=
  if startsWith f dir then .found .src d.base .none else .pass

/-- `LEGAL_SET` (330). -/
def legalSet : List Str := ["COPYING".toList, "COPYING.LESSER".toList, "LICENSE".toList]

/-- `DOC_SET` (331). -/
def docSet : List Str := ["README".toList, "README.md".toList, "README.rst".toList, "README.txt".toList]

/-- `_classify_legal` (496-500). -/
def legalFn (b f : Str) : Res :=
  if basename f ∈ legalSet then .found .legal (some b) .content else .pass

/-- `_classify_docs` (502-506). -/
def docsFn (b f : Str) : Res :=
  if basename f ∈ docSet then .found .docs (some b) .content else .pass

/-- `_classify_manage_py` (508-511). -/
def managePy (b f : Str) : Res :=
  if join b "manage.py".toList = f then .found .managePy (some b) .none else .pass

/-- The loop of `_classify_vcs` (526-532), with a bound on the number of rounds. -/
def vcsLoop (b : Str) : Nat → Str → Res
  | 0, _ => .hangs
  | n + 1, head =>
    if head = b ∨ head = [] ∨ head = ['/'] then .pass
    else if basename head ∈ [".git".toList, ".bzr".toList] then .found .vcs (some b) .none
    else vcsLoop b n (dirname head)

/-- `_classify_vcs` (523-532). The head gets shorter in every round or stays the same for ever, so the
bound is never the reason for the answer (`vcsLoop_hangs`). -/
def vcsFn (b f : Str) : Res :=
  if basename f ∈ [".gitignore".toList, ".bzrignore".toList] then .found .vcs (some b) .none
  else vcsLoop b (f.length + 1) f

/-- `_classify_unknown` (534-536). -/
def unknownFn (d : Dirs) (_ : Str) : Res := .found .unknown d.base .none

/-- `if self.provider.some_dir: classify_fn_list.append(…)` (397-416): neither `None` nor empty. -/
def on (dir : Option Str) (fn : Str → Str → Res) : List (Str → Res) :=
  match dir with
  | none => []
  | some [] => []
  | some (c :: l) => [fn (c :: l)]

/-- `_get_classify_fn_list` (382-422). -/
def fnList (d : Dirs) (fs : Fs) : List (Str → Res) :=
  on d.jobs pxuJobs ++ on d.units pxuUnits ++ on d.data dataFn ++ on d.bin (execFn fs) ++
  on d.buildBin (builtExec fs) ++ on d.buildMo (builtI18n d) ++ on d.build buildFn ++
  on d.po (poFn d) ++ on d.src (srcFn d) ++ on d.base legalFn ++ on d.base docsFn ++
  on d.base managePy ++ on d.base vcsFn ++ [unknownFn d]

/-- The loop of `classify` (364-369); `pass` at the end is the `ValueError`. -/
def first (f : Str) : List (Str → Res) → Res
  | [] => .pass
  | fn :: fns =>
    match fn f with
    | .pass => first f fns
    | r => r

/-- `classify` (344-369). -/
def classify (d : Dirs) (fs : Fs) (f : Str) : Res := first f (fnList d fs)

end Verif.Classify
