import Verif.Model.Classify
import Verif.Model.Plugins

/-!
# Loading the content of a provider

Models `UnitPlugIn`, `ProviderContentPlugIn` and `ProviderContentLoader` of
`plainbox/impl/secure/providers/v1.py`, and how `Provider1` uses the loader.

Simplifications: parsing, the unit classes and their checks are functions of the text and of the record
(`World`); the classification of a file does not change while it is being loaded; running forever and
raising are the same to the loader; messages of problems are reduced to their kind.
-/

namespace Verif.Content

open Verif.Classify (Role Plug Res)

/-- Texts, as lists of characters.  (v1.py 61-232, 539-607) -/
abbrev Str := List Char

/-- What defining a unit gives: a unit, a `ValueError`, another exception (191-195). -/
inductive Made (U : Type)
  | ok (u : U)
  | valueError
  | raises

/-- What a check gives: nothing wrong (advice and warnings included), an error, an exception.
(`unit.check()`, v1.py 196-207.) -/
inductive Verdict
  | fine | wrong | raises
  deriving DecidableEq, Repr

/-- What reading and parsing a file gives (175-181): records, `RFC822SyntaxError`, another exception (the
text is read lazily, so it may turn out to be unreadable here). -/
inductive Parsed (R : Type)
  | records (rs : List R)
  | syntaxError
  | raises

/-- Everything outside the loader. `idOf` and `pathOf` are `none` for units without such a field
(604, 606); the value of the field may be `None`. -/
structure World (R U : Type) where
  classify : Str → Res
  parse : Str → Parsed R
  unitName : R → Str
  known : Str → Bool
  make : R → Made U
  check : U → Verdict
  validate : U → Verdict
  idOf : U → Option (Option Str)
  pathOf : U → Option (Option Str)

/-- The kinds of problems (179, 188, 193, 199, 205, 89). -/
inductive Prob
  | syntax | unknownUnit (n : Str) | cannotDefine | issue | field | other
  deriving DecidableEq, Repr

variable {R U : Type} (w : World R U)

/-- One round of the loop of `UnitPlugIn.inspect` (184-208). -/
def inspectOne (check validate : Bool) (r : R) : Except Prob U :=
  if w.known (w.unitName r) = false then .error (.unknownUnit (w.unitName r))
  else match w.make r with
    | .valueError => .error .cannotDefine
    | .raises => .error .other
    | .ok u =>
      match (if check then w.check u else .fine) with
      | .wrong => .error .issue
      | .raises => .error .other
      | .fine =>
        match (if validate then w.validate u else .fine) with
        | .wrong => .error .field
        | .raises => .error .other
        | .fine => .ok u

/-- The loop of `UnitPlugIn.inspect` (182-210). -/
def inspectAll (check validate : Bool) : List R → Except Prob (List U)
  | [] => .ok []
  | r :: rs =>
    match inspectOne w check validate r with
    | .error p => .error p
    | .ok u =>
      match inspectAll check validate rs with
      | .error p => .error p
      | .ok us => .ok (u :: us)

/-- `UnitPlugIn.inspect` (145-210) inside `ProviderContentPlugIn.__init__` (79-89), which makes every
exception a `PlugInError`. -/
def inspect (check validate : Bool) (f : Str) : Except Prob (List U) :=
  match w.parse f with
  | .syntaxError => .error .syntax
  | .raises => .error .other
  | .records rs => inspectAll w check validate rs

/-- A loaded unit: one defined in a file, or the `FileUnit` of a file (127-136). -/
inductive Obj (U : Type)
  | decl (u : U)
  | file (path : Str) (role : Role) (base : Option Str)
  deriving DecidableEq, Repr

/-- `unit.id`, for units that have the field (604). -/
def Obj.id : Obj U → Option (Option Str)
  | .decl u => w.idOf u
  | .file _ _ _ => none

/-- `unit.path`, for units that have the field (606). -/
def Obj.path : Obj U → Option (Option Str)
  | .decl u => w.pathOf u
  | .file p _ _ => some (some p)

/-- The attributes of the loader (573-577). -/
structure Loader (U : Type) where
  loaded : Bool
  units : List (Obj U)
  problems : List (Str × Prob)
  idMap : List (Option Str × List (Obj U))
  pathMap : List (Option Str × List (Obj U))

/-- A new loader (571-577). -/
def new : Loader U := ⟨false, [], [], [], []⟩

/-- `mapping[key].append(value)` for a `defaultdict(list)`. (v1.py 576-577, 605, 607.) -/
def push (k : Option Str) (u : Obj U) : List (Option Str × List (Obj U)) → List (Option Str × List (Obj U))
  | [] => [(k, [u])]
  | (k', us) :: m => if k' = k then (k', us ++ [u]) :: m else (k', us) :: push k u m

/-- `mapping[key]` for a `defaultdict(list)`. (v1.py 1012-1033) -/
def look (k : Option Str) : List (Option Str × List (Obj U)) → List (Obj U)
  | [] => []
  | (k', us) :: m => if k' = k then us else look k m

/-- Put a unit under its key, if it has one (604-607). -/
def enter (key : Option (Option Str)) (u : Obj U) (m : List (Option Str × List (Obj U))) :
    List (Option Str × List (Obj U)) :=
  match key with
  | none => m
  | some k => push k u m

/-- One round of the loop over the units of a plug-in (603-607). -/
def index (l : Loader U) (u : Obj U) : Loader U :=
  { l with idMap := enter (u.id w) u l.idMap, pathMap := enter (u.path w) u l.pathMap }

/-- The units of a file are taken over (602-607). -/
def adopt (l : Loader U) (us : List (Obj U)) : Loader U :=
  us.foldl (index w) { l with units := l.units ++ us }

/-- `_load_file` (589-607) with `discover_units` (125, 216-218); the flag tells that an exception comes
out. -/
def loadFile (check validate : Bool) (l : Loader U) (f : Str) : Loader U × Bool :=
  match w.classify f with
  | .found _ _ .none => (l, false)
  | .found r b .content => (adopt w l [.file f r b], false)
  | .found r b .units =>
    match inspect w check validate f with
    | .error p => ({ l with problems := l.problems ++ [(f, p)] }, false)
    | .ok us => (adopt w l (us.map .decl ++ [.file f r b]), false)
  | _ => (l, true)

/-- The loop of `load` (582-585). -/
def loadFiles (check validate : Bool) : List Str → Loader U → Loader U × Bool
  | [], l => (l, false)
  | f :: fs, l =>
    match loadFile w check validate l f with
    | (l', true) => (l', true)
    | (l', false) => loadFiles check validate fs l'

/-- The names in the content collection (252-291): `found` are the files that walking the directories
gives; reading is lazy and cannot fail (680-681 of `plugins.py`). -/
def content (found : List Str) : List Str :=
  (Plugins.fsLoad (Q := Unit) (fun _ => .value ()) (fun _ _ => .value ()) found Plugins.empty).1.plugins.map
    (·.1)

/-- `load` (579-587); the content collection has no problems of its own. -/
def load (check validate : Bool) (found : List Str) (l : Loader U) : Loader U × Bool :=
  match loadFiles w check validate (content found) l with
  | (l', true) => (l', true)
  | (l', false) => ({ l' with loaded := true }, false)

/-- `Provider1._ensure_loaded` (717-719), called by `unit_list`, `problem_list`, `id_map` and `path_map`
(969-1033). -/
def ensure (check validate : Bool) (found : List Str) (l : Loader U) : Loader U × Bool :=
  if l.loaded then (l, false) else load w check validate found l

/-- So many accesses to these attributes, exceptions being caught by the caller. (v1.py 969-1033) -/
def accesses (check validate : Bool) (found : List Str) : Nat → Loader U → Loader U
  | 0, l => l
  | n + 1, l => accesses check validate found n (ensure w check validate found l).1

end Verif.Content
