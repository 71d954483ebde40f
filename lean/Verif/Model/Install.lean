import Verif.Model.Definition

/-!
# Installing a provider

Models `setup` and `InstallCommand` of `plainbox/provider_manager.py`, on top of the models of provider
definitions and of configuration objects.

Simplifications: the file system is a function from paths, as they are written, to what is there, so that
two ways to write a path are two paths; permissions and links are left out; nothing else runs at the same
time; dictionaries keep the order in which the source writes them; a provider file holds the data of the
parser object that was written to it (its text is not modelled); the executables are given (their
discovery is modelled in `Verif.Model.Content` and `Verif.Model.Classify`).
-/

namespace Verif.Install

open Verif.Config Verif.Definition

/-- Texts, as lists of characters (provider_manager.py 169-387). -/
abbrev Str := List Char

/-- What a path leads to: a directory, a file, a file that `PlainBoxConfigParser.write` wrote.
(What provider_manager.py 295-387 makes and reads.) -/
inductive Node
  | dir
  | bytes (b : Str)
  | defn (d : Data)

/-- The file system (provider_manager.py 295-387). -/
abbrev FS := Str → Option Node

/-- `os.path.isdir`. (As used in provider_manager.py 276-387.) -/
def isDir (fs : FS) (p : Str) : Bool :=
  match fs p with
  | some .dir => true
  | _ => false

/-- `os.path.exists`. (As used in provider_manager.py 276-387.) -/
def present (fs : FS) (p : Str) : Bool := (fs p).isSome

/-- There is a file. (As used in provider_manager.py 276-387.) -/
def isFile (fs : FS) (p : Str) : Bool := present fs p && !isDir fs p

/-- The directory `q` has to be there for `p` to be.
(Part of `os.makedirs` and of opening files, provider_manager.py 276-387.) -/
def isAbove (q p : Str) : Bool := !q.isEmpty && (q ++ ['/']).isPrefixOf p

/-- A file is where a directory would have to be. (Part of `os.makedirs`, provider_manager.py 276-387.) -/
def blocked (fs : FS) (p : Str) : Bool :=
  (List.range p.length).any fun i => isAbove (p.take i) p && isFile fs (p.take i)

/-- `os.makedirs(p, exist_ok=True)` with `IOError` caught. (provider_manager.py 276-293) -/
def makedirs (p : Str) (fs : FS) : FS :=
  if blocked fs p then fs
  else fun q => if !present fs q && (q == p || isAbove q p) then some .dir else fs q

/-- Something is put at a path. (As used in provider_manager.py 276-387.) -/
def put (p : Str) (n : Node) (fs : FS) : FS := fun q => if q = p then some n else fs q

/-- The exceptions: of the operating system (`shutil.Error` included), `ValueError` of
`ConfigParser.set`, `AssertionError`, another one. (provider_manager.py 276-387) -/
inductive Err
  | os | value | assertion | other
  deriving DecidableEq, Repr

/-- A command that changes the file system: what is there afterwards, and the exception, if any.
(provider_manager.py 276-387) -/
abbrev Res := FS × Option Err

/-- The next command, unless there was an exception. (provider_manager.py 276-293) -/
def Res.andThen (r : Res) (f : FS → Res) : Res :=
  match r.2 with
  | none => f r.1
  | some _ => r

/-- `shutil.copytree(src, dst)` (before Python 3.8): the destination must not exist.
(called in provider_manager.py 332) -/
def copytree (src dst : Str) (fs : FS) : Res :=
  if isDir fs src = false ∨ present fs dst = true ∨ blocked fs dst = true then (fs, some .os)
  else (fun q =>
    if present fs q then fs q
    else if q == dst || isAbove q dst then some .dir
    else if isAbove dst q then fs (src ++ q.drop dst.length)
    else none, none)

/-- `shutil.copy(src, dst)`: into the directory, else onto the file. (provider_manager.py 302-313) -/
def copyFile (src dst : Str) (fs : FS) : Res :=
  match fs src with
  | none => (fs, some .os)
  | some .dir => (fs, some .os)
  | some n =>
    if isDir fs dst then
      if isDir fs (Path.join dst (Path.basename src)) then (fs, some .os)
      else (put (Path.join dst (Path.basename src)) n fs, none)
    else if isFile fs dst then (put dst n fs, none)
    else (fs, some .os)

/-! ## The definition -/

/-- The keyword arguments of `setup` (1464-1479) that matter here; `none`: not given. -/
structure Kwargs where
  name : Option Str
  namesp : Option Str
  version : Option Str
  description : Option Str
  domain : Option Str

/-- `kwargs.get(key, None)`. (provider_manager.py 1450-1498) -/
def orNil : Option Str → Val
  | some s => .str s
  | none => .none

/-- `kwargs.get(key, Unset)`. (provider_manager.py 1450-1498) -/
def orUnset : Option Str → Val
  | some s => .str s
  | none => .unset

/-- Assignments, one after the other; `none` is the first exception. (provider_manager.py 1450-1498) -/
def assigns : List (Var × Val) → St → Option St
  | [], st => some st
  | (x, v) :: l, st =>
    match x.set v st with
    | (st', .ok) => assigns l st'
    | _ => none

/-- `setup` (1485-1496): the definition, or the exit because of a bad value. -/
def setup (fs : FS) (location : Str) (k : Kwargs) : Option St :=
  assigns [(locationV (isDir fs), .str location), (nameV, orNil k.name), (namespaceV, orUnset k.namesp),
    (versionV, orNil k.version), (descriptionV, orNil k.description), (domainV, orUnset k.domain)] init

/-- `definition.name` inside a format string. (provider_manager.py 295-342) -/
def nameOf (st : St) : Str :=
  match nameV.get st with
  | .str n => n
  | _ => []

/-- `name_without_colon` (secure/providers/v1.py 1249-1254). -/
def withoutColon (s : Str) : Str := s.map fun c => if c = ':' then '.' else c

/-! ## Layouts -/

/-- The layouts (provider_manager.py 177-233). -/
inductive Layout
  | unix | flat | relocatable
  deriving DecidableEq, Repr

/-- The place of the provider file: the entry `provider` of `_INSTALL_LAYOUT` (188-190, 209-211,
219-220). -/
def providerPath : Layout → Str → Str → Str
  | .relocatable, pfx, n => pfx ++ '/' :: (withoutColon n ++ ".provider".toList)
  | _, pfx, n => pfx ++ ("/share/plainbox-providers-1/".toList ++ (withoutColon n ++ ".provider".toList))

/-- `_LOCATION_TEMPLATE` (172-174). -/
def flatLocation (pfx n : Str) : Str := pfx ++ ("/lib/plainbox-providers-1/".toList ++ n)

/-- The entry `bin` (179-180, 193-195, 213). -/
def binPath : Layout → Str → Str → Str
  | .unix, pfx, n => pfx ++ ("/lib/".toList ++ (n ++ "/bin".toList))
  | .flat, pfx, n => flatLocation pfx n ++ "/bin".toList
  | .relocatable, pfx, _ => pfx ++ "/bin".toList

/-- The entry `build/mo` (181, 196-198, 214). -/
def localePath : Layout → Str → Str → Str
  | .unix, pfx, _ => pfx ++ "/share/locale".toList
  | .flat, pfx, n => flatLocation pfx n ++ "/locale".toList
  | .relocatable, pfx, _ => pfx ++ "/locale".toList

/-- The entries `data`, `jobs`, `units` (182-187, 199-207, 215-217). -/
def subPath : Layout → Str → Str → Str → Str
  | .unix, pfx, n, s => pfx ++ ("/share/".toList ++ (n ++ '/' :: s))
  | .flat, pfx, n, s => flatLocation pfx n ++ '/' :: s
  | .relocatable, pfx, _, s => pfx ++ '/' :: s

/-- `_get_dest_map` (338-347); the entry `po` has no destination. -/
def destMap (l : Layout) (pfx n : Str) : List (Str × Str) :=
  [("bin".toList, binPath l pfx n), ("build/mo".toList, localePath l pfx n),
   ("data".toList, subPath l pfx n "data".toList), ("jobs".toList, subPath l pfx n "jobs".toList),
   ("units".toList, subPath l pfx n "units".toList), ("provider".toList, providerPath l pfx n)]

/-- `_DEF_MAP` (224-230) with the destinations: source, key, destination. -/
def defMap (l : Layout) (pfx n : Str) : List (Str × Str × Str) :=
  [("bin".toList, "bin_dir".toList, binPath l pfx n),
   ("build/mo".toList, "locale_dir".toList, localePath l pfx n),
   ("data".toList, "data_dir".toList, subPath l pfx n "data".toList),
   ("jobs".toList, "jobs_dir".toList, subPath l pfx n "jobs".toList),
   ("units".toList, "units_dir".toList, subPath l pfx n "units".toList)]

/-! ## The provider file -/

/-- `config_obj.set(section, option, value)`; `none` is `ValueError`. (provider_manager.py 344-379) -/
def setOpt (o v : Str) (d : Data) : Option Data :=
  if Restart.settable v then some { d with opts := storeOpt (SEC, o) v d.opts } else none

/-- `config_obj.remove_option(section, option)`. (provider_manager.py 344-379) -/
def removeOpt (o : Str) (d : Data) : Data := { d with opts := d.opts.filter fun e => e.1 ≠ (SEC, o) }

/-- The loop over `_DEF_MAP` (366-372). -/
def emitDirs (fs : FS) (location : Str) : List (Str × Str × Str) → Data → Option Data
  | [], d => some d
  | (s, k, dst) :: l, d =>
    if present fs (Path.join location s) then (setOpt k dst d).bind (emitDirs fs location l)
    else emitDirs fs location l d

/-- `_get_provider_config_obj` (349-379). -/
def configObj (pr : Printer) (fs : FS) (st : St) (location : Str) (execs : List Str) (l : Layout) (pfx : Str) :
    Option Data :=
  (toParser pr st (vars (isDir fs)) { sections := [], opts := [] }).bind fun d =>
    match l with
    | .flat => setOpt "location".toList (flatLocation pfx (nameOf st)) d
    | .relocatable => (setOpt "relocatable".toList "True".toList d).map (removeOpt "location".toList)
    | .unix =>
      (emitDirs fs location (defMap .unix pfx (nameOf st)) (removeOpt "location".toList d)).bind fun d =>
        if execs = [] then some d else setOpt "bin_dir".toList (binPath .unix pfx (nameOf st)) d

/-- `_write_provider_file` (295-300) with `_write_to_file` (381-387): the file is opened, and emptied,
before the data is computed. -/
def writeProvider (pr : Printer) (st : St) (location : Str) (execs : List Str) (root pfx : Str) (l : Layout)
    (fs : FS) : Res :=
  let path := providerPath l pfx (nameOf st)
  let fs1 := makedirs (root ++ Path.dirname path) fs
  if isDir fs1 (root ++ path) ∨ isDir fs1 (root ++ Path.dirname path) = false then (fs1, some .os)
  else
    let fs2 := put (root ++ path) (.bytes []) fs1
    match configObj pr fs2 st location execs l pfx with
    | none => (fs2, some .value)
    | some d => (put (root ++ path) (.defn d) fs2, none)

/-! ## The content -/

/-- The loop over the executables (312-313). -/
def copyFiles (dst : Str) : List Str → FS → Res
  | [], fs => (fs, none)
  | e :: es, fs => (copyFile e dst fs).andThen (copyFiles dst es)

/-- `_copy_all_executables` (302-313). -/
def copyExecs (execs : List Str) (dst : Str) (fs : FS) : Res :=
  if execs = [] then (fs, none) else copyFiles dst execs (makedirs dst fs)

/-- The loop of `_copy_all_data` (318-336). -/
def copyData (location root : Str) : List (Str × Str) → FS → Res
  | [], fs => (fs, none)
  | (s, dst) :: l, fs =>
    if s = "bin".toList then copyData location root l fs
    else if dst.head? ≠ some '/' then (fs, some .assertion)
    else if present fs (Path.join location s) then
      (copytree (Path.join location s) (root ++ dst) (makedirs (Path.dirname (root ++ dst)) fs)).andThen
        (copyData location root l)
    else copyData location root l fs

/-- `invoked` (276-293) for the definition that `setup` made of the directory of `manage.py`. -/
def install (pr : Printer) (st : St) (location : Str) (execs : List Str) (root pfx : Str) (l : Layout)
    (fs : FS) : Res :=
  ((writeProvider pr st location execs root pfx l fs).andThen
    (copyExecs execs (root ++ binPath l pfx (nameOf st)))).andThen
    (copyData location root (destMap l pfx (nameOf st)))

/-! ## Loading -/

/-- What is at a path for a system whose root directory is `root`.
(The `--root` option, provider_manager.py 249-293.) -/
def inside (root : Str) (fs : FS) : FS := fun p => fs (root ++ p)

/-- `Provider1PlugIn(filename, text)` for a file that was installed. (`secure/providers/v1.py` 1506-1542) -/
def load (w : World) (e : Env) (fs : FS) (filename : Str) : Option Made :=
  match fs filename with
  | some (.defn d) => some (plugIn w (isDir fs) e filename false d.get)
  | _ => none

end Verif.Install
