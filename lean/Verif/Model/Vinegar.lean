import Verif.Model.Brine
import Verif.Model.Registry

/-! # Exceptions over the network (`plainbox/vendor/rpyc/core/vinegar.py`)

An exception is dumped into a value that `brine` can write, and made into an exception again on the other side. -/

namespace Verif.Vinegar

open Verif.Brine (Val)
open Verif.Registry (Text get put)

/-! ## Dumping -/

/-- A Python object: its value — `Val.other` in it for what `brine` does not know — and its `repr`. (vinegar.py 62-65, 74-75) -/
structure Obj where
  val : Val
  repr : Text

/-- What `getattr` does: it gives a value, raises `AttributeError`, or another exception. (vinegar.py 69-73) -/
inductive Attr
  | value (o : Obj)
  | missing
  | raises

/-- An exception to be dumped: the class, whether it is `StopIteration` itself, `args`, the result of `dir` with the
attributes, and the formatted traceback. (vinegar.py 33-79) -/
structure Exc where
  modname : Text
  clsname : Text
  stop : Bool
  args : List Obj
  dir : List (Text × Attr)
  tb : Text

/-- ASCII text by code points. (The constants of vinegar.py.) -/
def txt (s : String) : Text := s.toList.map Char.toNat

/-- A value as it is, or its `repr` if it cannot be dumped. (vinegar.py 62-65, 74-75) -/
def show' (o : Obj) : Val := if Brine.dumpable o.val then o.val else .str o.repr

/-- The loop over `dir(val)`, vinegar.py 59-76: the arguments and the attributes; `none` if `getattr` raises. -/
def collect (args : List Obj) : List (Text × Attr) → Option (List Val × List Val)
  | [] => some ([], [])
  | (n, x) :: rest =>
    if n = txt "args" then (collect args rest).map fun r => (args.map show' ++ r.1, r.2)
    else if n.head? = some 95 ∨ n = txt "_remote_tb" ∨ n = txt "with_traceback" then collect args rest
    else
      match x with
      | .value o => (collect args rest).map fun r => (r.1, .tup [.str n, show' o] :: r.2)
      | .missing => collect args rest
      | .raises => none

/-- `vinegar.dump`, 33-77.  Exceptions that are strings do not exist in Python 3. -/
def dump (localTb : Bool) (e : Exc) : Option Val :=
  if e.stop then some (.int 1)
  else
    (collect e.args e.dir).map fun r =>
      .tup [.tup [.str e.modname, .str e.clsname], .tup r.1, .tup r.2, .str (if localTb then e.tb else txt "<traceback denied>")]

/-! ## Loading -/

/-- What a name is in a module. (vinegar.py 121-135) -/
inductive Member
  | exception   -- a class derived from `BaseException`
  | other
deriving DecidableEq, Repr

/-- The other side: the modules loaded, those that can be imported, and which attributes of an exception of a class can
be set to which values. (vinegar.py 113-126, 159) -/
structure World where
  loaded : Text → Option (Text → Option Member)
  importable : Text → Option (Text → Option Member)
  sets : Text × Text → Text → Val → Bool

/-- The settings, protocol.py 47-50.  Old-style exceptions do not exist in Python 3. -/
structure Config where
  import_ : Bool
  custom : Bool

/-- The default settings, protocol.py 48-49. -/
def defaults : Config := ⟨false, false⟩

/-- The class of an exception that was loaded: an existing one, or a generic one with its `__name__` and its
`__module__`. (vinegar.py 118-149) -/
inductive Cls
  | known (modname clsname : Text)
  | generic (name module : Text)
deriving DecidableEq, Repr

/-- A loaded exception. (vinegar.py 151-161) -/
structure Loaded where
  cls : Cls
  args : List Val
  attrs : List (Text × Val)
  tb : Val

/-- What `load` gives: the class `StopIteration`, a text, or an exception; it raises; or the model does not say, for names
that are not texts. (vinegar.py 81-161) -/
inductive Result
  | stopIteration
  | text (s : Text)
  | exc (e : Loaded)
  | raised
  | unmodelled

/-- `_generic_exceptions_cache`: the `__module__` of the class with a full name. (vinegar.py 137-147, 169) -/
abbrev Cache := List (Text × Text)

/-- The modules imported, vinegar.py 113-117, and the members of the module afterwards. -/
def importModule (w : World) (c : Config) (m : Text) : List Text × Option (Text → Option Member) :=
  if c.import_ ∧ (w.loaded m).isNone then ([m], w.importable m) else ([], w.loaded m)

/-- The class, or `None`; vinegar.py 119-135. -/
def findClass (w : World) (c : Config) (mem : Option (Text → Option Member)) (m n : Text) : Bool :=
  let x :=
    if c.custom then mem.bind fun f => f n
    else if m = txt "builtins" then (w.loaded (txt "builtins")).bind fun f => f n
    else none
  x = some .exception

/-- `"%s.%s" % (modname, clsname)`, vinegar.py 138. -/
def fullname (m n : Text) : Text := m ++ 46 :: n

/-- The generic class and the cache, vinegar.py 137-147. -/
def genericClass (cache : Cache) (m n : Text) : Cls × Cache :=
  match get (fullname m n) cache with
  | some mod => (.generic (fullname m n) mod, cache)
  | none =>
    let mod := txt "plainbox.vendor.rpyc.core.vinegar/" ++ m
    (.generic (fullname m n) mod, put (fullname m n) mod cache)

/-- `setattr(exc, name, attrval)`, vinegar.py 158-159: `args` becomes a tuple.  A generic class is a plain Python class: names
that do not begin with an underscore can be set; what else can be set is up to the class. -/
def setAttr (w : World) (cls : Cls) (e : List Val × List (Text × Val)) (n : Text) (v : Val) :
    Option (List Val × List (Text × Val)) :=
  if n = txt "args" then
    match Brine.items v with
    | .ok l => some (l, e.2)
    | .error _ => none
  else
    match cls with
    | .generic a b => if n.head? = some 95 ∧ w.sets (b, a) n v = false then none else some (e.1, put n v e.2)
    | .known a b => if w.sets (a, b) n v then some (e.1, put n v e.2) else none

/-- `for name, attrval in attrs`, vinegar.py 158-159. -/
def setAll (w : World) (cls : Cls) : List Val → List Val × List (Text × Val) → Option (List Val × List (Text × Val))
  | [], e => some e
  | p :: rest, e =>
    match Brine.items p with
    | .ok [.str n, v] => (setAttr w cls e n v).bind (setAll w cls rest)
    | _ => none

/-- The exception itself, vinegar.py 155-161. -/
def build (w : World) (cls : Cls) (args attrs tb : Val) : Result :=
  match Brine.items args, Brine.items attrs with
  | .ok a, .ok l =>
    match setAll w cls l (a, []) with
    | some e => .exc ⟨cls, e.1, e.2, tb⟩
    | none => .raised
  | _, _ => .raised

/-- `vinegar.load`, 81-161: the modules imported, the result and the cache.  Simplified: `1.0` and `1+0j`, which are equal
to the constant too, are not distinguished from other values that are no tuples. -/
def load (w : World) (c : Config) (cache : Cache) (v : Val) : List Text × Result × Cache :=
  match v with
  | .int 1 => ([], .stopIteration, cache)
  | .bool true => ([], .stopIteration, cache)
  | .str s => ([], .text s, cache)
  | v =>
    match Brine.items v with
    | .ok [names, args, attrs, tb] =>
      match Brine.items names with
      | .ok [.str m, .str n] =>
        let i := importModule w c m
        if findClass w c i.2 m n then (i.1, build w (.known m n) args attrs tb, cache)
        else
          let g := genericClass cache m n
          (i.1, build w g.1 args attrs tb, g.2)
      | .ok [_, _] => ([], .unmodelled, cache)
      | _ => ([], .raised, cache)
    | _ => ([], .raised, cache)

end Verif.Vinegar
