import Verif.Model.Sort

/-!
# Collections of plug-ins

Models `plainbox/impl/secure/plugins.py`: the common base class, the collections of files and entry
points, and the lazy collection.

Simplifications: times are left out; the wrapper and reading or importing are parameters that depend
on the name (and the discovery data) only; `os.walk` and `os.listdir` are lists of entries per
directory, `os.path.join` is a parameter.
-/

namespace Verif.Plugins

/-- Names of plug-ins and files (plugins 159-163). -/
abbrev Str := List Char

/-- What reading a file, importing an entry point or calling a callable gives: a value, an exception
that is recorded (578-580, 501-503, 737-739) or one that is not. -/
inductive Got (T Q : Type)
  | value (t : T)
  | problem (q : Q)
  | raises
  deriving DecidableEq, Repr

/-- A collection: `_plugins`, `_problem_list`, `_loaded` (302-304). -/
structure Coll (P Q : Type) where
  plugins : List (Str × P)
  problems : List Q
  loaded : Bool
  deriving DecidableEq, Repr

/-- A new collection (302-304). -/
def empty {P Q : Type} : Coll P Q := ⟨[], [], false⟩

/-- Item assignment of an ordered dictionary (420). -/
def put {P : Type} (k : Str) (p : P) : List (Str × P) → List (Str × P)
  | [] => [(k, p)]
  | (k', p') :: l => if k' = k then (k, p) :: l else (k', p') :: put k p l

/-- Lookup in a dictionary. (plugins 309-320) -/
def find {P : Type} (k : Str) : List (Str × P) → Option P
  | [] => none
  | (k', p) :: l => if k' = k then some p else find k l

variable {T P Q : Type}

/-- `wrap_and_add_plugin` (394-420): a `PlugInError` of the wrapper is a problem, other exceptions
propagate; the second component tells whether one did. -/
def wrapAdd (wrap : Str → T → Got P Q) (c : Coll P Q) (name : Str) (t : T) : Coll P Q × Bool :=
  match wrap name t with
  | .value p => ({ c with plugins := put name p c.plugins }, false)
  | .problem q => ({ c with problems := c.problems ++ [q] }, false)
  | .raises => (c, true)

/-- One round of the loops (574-582, 497-506) and `load_one` (732-742). -/
def loadOne (get : Str → Got T Q) (wrap : Str → T → Got P Q) (c : Coll P Q) (name : Str) :
    Coll P Q × Bool :=
  match get name with
  | .problem q => ({ c with problems := c.problems ++ [q] }, false)
  | .raises => (c, true)
  | .value t => wrapAdd wrap c name t

/-- The loops (574-582, 497-506): they end with the first exception that is not recorded. -/
def loadAll (get : Str → Got T Q) (wrap : Str → T → Got P Q) : List Str → Coll P Q → Coll P Q × Bool
  | [], c => (c, false)
  | n :: ns, c =>
    match loadOne get wrap c n with
    | (c', true) => (c', true)
    | (c', false) => loadAll get wrap ns c'

/-- `FsPlugInCollection.load` (560-582); `files` is what `_get_plugin_files` generates. -/
def fsLoad (get : Str → Got T Q) (wrap : Str → T → Got P Q) (files : List Str) (c : Coll P Q) :
    Coll P Q × Bool :=
  if c.loaded then (c, false)
  else loadAll get wrap (Sort.sortBy Sort.strLe files) { c with loaded := true }

/-- `PkgResourcesPlugInCollection.load` (480-507); `names` are the entry points. -/
def pkgLoad (get : Str → Got T Q) (wrap : Str → T → Got P Q) (names : List Str) (c : Coll P Q) :
    Coll P Q × Bool :=
  if c.loaded then (c, false)
  else
    match loadAll get wrap (Sort.sortBy Sort.strLe names) c with
    | (c', true) => (c', true)
    | (c', false) => ({ c' with loaded := true }, false)

/-- The argument `ext` (536-539): `None` (all files), a text or a list of texts. -/
inductive Ext
  | all
  | one (e : Str)
  | many (es : List Str)
  deriving DecidableEq, Repr

/-- The tests of lines 612-620. -/
def Ext.fits : Ext → Str → Bool
  | .all, _ => true
  | .one e, n => e.isSuffixOf n
  | .many es, n => es.any (fun e => e.isSuffixOf n)

/-- `_get_plugin_files` (588-625); a directory that cannot be listed has `none`. -/
def pluginFiles (join : Str → Str → Str) (isfile : Str → Bool) (ext : Ext)
    (dirs : List (Str × Option (List Str))) : List Str :=
  dirs.flatMap (fun d => match d.2 with
    | none => []
    | some entries => ((entries.filter ext.fits).map (join d.1)).filter isfile)

/-! ## Lazy collection -/

/-- `LazyPlugInCollection.load` (715-724), the loop: names already there are skipped. -/
def lazyLoop (get : Str → Got T Q) (wrap : Str → T → Got P Q) : List Str → Coll P Q → Coll P Q × Bool
  | [], c => (c, false)
  | n :: ns, c =>
    if (find n c.plugins).isSome then lazyLoop get wrap ns c
    else match loadOne get wrap c n with
      | (c', true) => (c', true)
      | (c', false) => lazyLoop get wrap ns c'

/-- `LazyPlugInCollection.load` (715-724); `names` are the keys of the mapping. -/
def lazyLoad (get : Str → Got T Q) (wrap : Str → T → Got P Q) (names : List Str) (c : Coll P Q) :
    Coll P Q × Bool :=
  if c.loaded then (c, false) else lazyLoop get wrap names { c with loaded := true }

/-- Answer of `get_by_name`: a plug-in, `KeyError`, or another exception. (plugins 309-320, 778-794) -/
inductive Answer (P : Type)
  | plugin (p : P)
  | keyError
  | raised
  deriving DecidableEq, Repr

/-- `get_by_name` of the base class (309-320). -/
def baseGet (c : Coll P Q) (n : Str) : Answer P :=
  match find n c.plugins with
  | some p => .plugin p
  | none => .keyError

/-- `LazyPlugInCollection.get_by_name` (778-794). -/
def lazyGet (get : Str → Got T Q) (wrap : Str → T → Got P Q) (names : List Str) (c : Coll P Q)
    (n : Str) : Coll P Q × Answer P :=
  if c.loaded then (c, baseGet c n)
  else
    match find n c.plugins with
    | some p => (c, .plugin p)
    | none =>
      if n ∈ names then
        match loadOne get wrap c n with
        | (c', true) => (c', .raised)
        | (c', false) => (c', baseGet c' n)
      else (c, .keyError)

/-- `get_all_names` (322-329, 766-776). -/
def lazyNames (names : List Str) (c : Coll P Q) : List Str :=
  if c.loaded then c.plugins.map (·.1) else names

/-- Calls on a lazy collection. (plugins 715-724, 766-794) -/
inductive Call
  | load
  | get (n : Str)
  | names
  deriving DecidableEq, Repr

/-- The effect of a call (715-794). -/
def call (get : Str → Got T Q) (wrap : Str → T → Got P Q) (names : List Str) (c : Coll P Q) :
    Call → Coll P Q
  | .load => (lazyLoad get wrap names c).1
  | .get n => (lazyGet get wrap names c n).1
  | .names => c

/-- A sequence of calls; exceptions are caught by the caller, who goes on. (plugins 715-794) -/
def calls (get : Str → Got T Q) (wrap : Str → T → Got P Q) (names : List Str) (c : Coll P Q)
    (l : List Call) : Coll P Q := l.foldl (call get wrap names) c

/-! ## Fake plug-ins -/

/-- Entering the block of `fake_plugins` (376-386). -/
def enterFake (fakes : List (Str × P)) (problems : List Q) : Coll P Q :=
  { plugins := fakes.foldl (fun l p => put p.1 p.2 l) [], problems := problems, loaded := true }

/-- `fake_plugins` (362-392) around the calls of a block; `old` is the state before, the three saved
fields are put back however the block ends. -/
def withFake (old : Coll P Q) (fakes : List (Str × P)) (problems : List Q)
    (body : Coll P Q → Coll P Q) : Coll P Q :=
  let inside := body (enterFake fakes problems)
  { inside with loaded := old.loaded, plugins := old.plugins, problems := old.problems }

end Verif.Plugins
