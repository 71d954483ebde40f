/-!
# Model of the resource job cache

`plainbox/impl/jobcache.py`.  File contents are lists of bytes.  The cache directory is a map from
entry names (job checksums) to directories, a directory a map from file names to contents.  What
`os.walk` and `shutil.rmtree` find in a directory is given as a list, in any order.

Simplified: an entry directory has no sub-directories (nothing ever makes one), `os.makedirs` and the
copy of the log never fail for lack of permission or space, and there is one process at a time.
-/

namespace Verif.Cache

/-- Contents of files, read and written in binary mode (jobcache.py lines 78-80, 119-130). -/
abbrev Bytes := List UInt8
/-- Names of files and directories (jobcache.py lines 75, 106, 119). -/
abbrev Name := List Char

/-- A pathname: one outside of the cache, split into its directory and base name, or
`<cache>/<checksum>/<base>` (jobcache.py lines 106, 118-119). -/
inductive Path where
  | outside (dir base : Name)
  | cached (cks base : Name)
deriving DecidableEq, Repr

/-- `os.path.basename` of a path (jobcache.py line 119). -/
def Path.base : Path → Name
  | .outside _ b => b
  | .cached _ b => b

/-- A result as the dictionary `get_builder().as_dict()` (jobcache.py line 67): the value of
`io_log_filename`, if there is one, and the rest. -/
structure Data (β : Type) where
  fields : β
  log : Option Path

/-- What can be seen of the file system: the files outside of the cache and the cache directory.
(What jobcache.py lines 47-134 reads and writes.) -/
structure Disk where
  outside : Name → Name → Option Bytes
  cache : Name → Option (Name → Option Bytes)

/-- Contents of a file, `none` if there is no such file.
(`open(...).read()` and `os.path.exists`, jobcache.py lines 78-82, 107.) -/
def Disk.read (d : Disk) : Path → Option Bytes
  | .outside dir b => d.outside dir b
  | .cached c b => (d.cache c).bind fun e => e b

/-- The memory of the cache object, `self._cache` (jobcache.py line 45). -/
abbrev Mem (β : Type) := Name → Option (Data β)

/-- How results are written to and read from `result.json` (jobcache.py lines 80-81 and 122-128).  The
text codec itself (`json.dumps`, `json.loads`) is a parameter. -/
structure Codec (β : Type) where
  render : Data β → Bytes
  parse : Bytes → Option (Data β)

/-- The file name used for the data of an entry (jobcache.py lines 78 and 129). -/
def jsonName : Name := "result.json".toList

/-- The exceptions that can leave the cache. (jobcache.py lines 61-134) -/
inductive Exn where
  /-- from `logger.warrning`, which does not exist (jobcache.py line 89) -/
  | attributeError
  /-- from `result['io_log_filename']` (jobcache.py line 119) -/
  | keyError
  /-- from `shutil.copyfile` (jobcache.py line 120) -/
  | fileNotFound
deriving DecidableEq, Repr

/-- Replace one value of a map. (Assignments to `self._cache`, jobcache.py lines 87, 134, and changes of the disk.) -/
def set {α β : Type} [DecidableEq α] (f : α → β) (a : α) (b : β) : α → β :=
  fun x => if x = a then b else f x

/-- Primitive changes of the cache directory.
(Made by `shutil.rmtree`, `os.makedirs`, `shutil.copyfile` and `write`, jobcache.py lines 110, 116, 119,
128-130.) -/
inductive Op where
  | unlink (c b : Name)
  | rmdir (c : Name)
  | mkdir (c : Name)
  | create (c b : Name)
  | append (c b : Name) (x : UInt8)

/-- The effect of a primitive change.  Changes of things that do not exist have no effect; `_store`
never asks for one. (jobcache.py lines 110-130) -/
def Op.run (k : Disk) : Op → Disk
  | .unlink c b => match k.cache c with
    | none => k
    | some e => { k with cache := set k.cache c (some (set e b none)) }
  | .rmdir c => { k with cache := set k.cache c none }
  | .mkdir c => { k with cache := set k.cache c (some fun _ => none) }
  | .create c b => match k.cache c with
    | none => k
    | some e => { k with cache := set k.cache c (some (set e b (some []))) }
  | .append c b x => match k.cache c with
    | none => k
    | some e => { k with cache := set k.cache c (some (set e b (some ((e b).getD [] ++ [x])))) }

/-- Several changes, one after the other. (jobcache.py lines 103-134) -/
def runOps (k : Disk) (ops : List Op) : Disk := ops.foldl Op.run k

/-- `_try_load_cache_entry` (jobcache.py lines 74-89).  Every exception inside is caught, and the
handler then calls the missing method `logger.warrning`. -/
def tryLoad {β : Type} (cd : Codec β) (k : Disk) (m : Mem β) (c : Name) : Except Exn (Mem β) :=
  match k.read (.cached c jsonName) with
  | none => .error .attributeError
  | some bytes => match cd.parse bytes with
    | none => .error .attributeError
    | some d => match d.log with
      | none => .error .attributeError
      | some p => if (k.read p).isSome then .ok (set m c (some d)) else .ok m

/-- `load` (jobcache.py lines 56-59) for the directories found by `os.walk`. -/
def load {β : Type} (cd : Codec β) (k : Disk) : Mem β → List Name → Except Exn (Mem β)
  | m, [] => .ok m
  | m, c :: cs => match tryLoad cd k m c with
    | .error e => .error e
    | .ok m' => load cd k m' cs

/-- Removal of an old entry, `shutil.rmtree` (jobcache.py lines 107-111), `files` being what is in it. -/
def rmtree (k : Disk) (c : Name) (files : List Name) : List Op :=
  match k.cache c with
  | none => []
  | some _ => files.map (.unlink c) ++ [.rmdir c]

/-- Write bytes to a new file.
(`shutil.copyfile`, jobcache.py line 119, and opening and writing, lines 128-130; simplified to one byte at a
time.) -/
def writeFile (c b : Name) (data : Bytes) : List Op :=
  .create c b :: data.map (.append c b)

/-- The changes `_store` makes to the disk when the removal of an old entry does not fail, and how it
ends (jobcache.py lines 103-134): with the data to be remembered, or with an exception. -/
def storeOps {β : Type} (cd : Codec β) (k : Disk) (c : Name) (files : List Name) (d : Data β) :
    List Op × Except Exn (Data β) :=
  match d.log with
  | none => (rmtree k c files ++ [.mkdir c], .error .keyError)
  | some p => match (runOps k (rmtree k c files ++ [.mkdir c])).read p with
    | none => (rmtree k c files ++ [.mkdir c], .error .fileNotFound)
    | some bytes =>
      let d' : Data β := ⟨d.fields, some (.cached c p.base)⟩
      (rmtree k c files ++ [.mkdir c] ++ writeFile c p.base bytes ++ writeFile c jsonName (cd.render d'),
        .ok d')

/-- The cache object and the disk. (`self._cache`, jobcache.py line 45, and the file system.) -/
structure State (β : Type) where
  disk : Disk
  mem : Mem β

/-- Circumstances of a call: the files in the old entry, if any, and whether their removal fails, and
then after how many steps (jobcache.py lines 107-116). -/
structure Env where
  files : List Name
  rmFails : Option Nat

/-- `_store` (jobcache.py lines 103-134).  When the removal of an old entry fails nothing is stored. -/
def store {β : Type} (cd : Codec β) (s : State β) (env : Env) (c : Name) (d : Data β) :
    State β × Except Exn Unit :=
  match env.rmFails, s.disk.cache c with
  | some n, some _ => ({ s with disk := runOps s.disk ((rmtree s.disk c env.files).take n) }, .ok ())
  | _, _ =>
    match storeOps cd s.disk c env.files d with
    | (ops, .error e) => ({ s with disk := runOps s.disk ops }, .error e)
    | (ops, .ok d') => (⟨runOps s.disk ops, set s.mem c (some d')⟩, .ok ())

/-- What a call of `get` gives: whether `compute_fn` was called, and the result. (jobcache.py lines 61-72) -/
structure Got (β : Type) where
  ran : Bool
  result : Except Exn (Data β)

/-- `get` (jobcache.py lines 61-72).  Running `compute_fn` may change files outside of the cache: it
gives the new contents of these and the result. -/
def get {β : Type} (cd : Codec β) (s : State β) (env : Env) (c : Name)
    (fn : (Name → Name → Option Bytes) × Data β) : State β × Got β :=
  match s.mem c with
  | some d => (s, ⟨false, .ok d⟩)
  | none =>
    let s1 : State β := { s with disk := { s.disk with outside := fn.1 } }
    match store cd s1 env c fn.2 with
    | (s2, .error e) => (s2, ⟨true, .error e⟩)
    | (s2, .ok ()) => (s2, ⟨true, .ok fn.2⟩)

end Verif.Cache
