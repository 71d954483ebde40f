import Verif.Model.Checksum
import Verif.Model.Sort

/-!
# Symbols and types of units

Models `plainbox/impl/symbol.py` ("sym" below), `UnitType.__new__` in `plainbox/impl/unit/unit.py` ("unit"), lines 284-365, and the order
in which `UnitValidator.check` (unit 114-126) goes over fields.

Simplifications: names of symbols are texts; in the body of a `SymbolDef` what is assigned is a text, a symbol or something else, and
names of the language and of modules are given by `allow_outer`; a type of units has at most one base type that is a type of units (as all
in plainbox).
-/

namespace Verif.Symbols

open Verif.Checksum (dictSet)
open Verif.Sort (strLe sortBy)

/-- Texts (sym 51-194). -/
abbrev Str := List Char

/-! ## Symbols -/

/-- A `Symbol` object: its identity and its name. (sym 40-71) -/
structure Sym where
  id : Nat
  name : Str
deriving DecidableEq

/-- `Symbol(name)`: `__new__` and `__init__`, sym 51-70. The table `__symbols` has the names in the order of their objects. -/
def mkSymbol (table : List Str) (name : Str) : Sym × List Str :=
  match table.idxOf? name with
  | some i => (⟨i, name⟩, table)
  | none => (⟨table.length, name⟩, table ++ [name])

/-- The objects of a sequence of calls of `Symbol`. (sym 51-70) -/
def mkSymbols : List Str → List Str → List Sym
  | _, [] => []
  | table, n :: ns => (mkSymbol table n).1 :: mkSymbols (mkSymbol table n).2 ns

/-- What symbols are compared with: symbols, texts and other objects. (sym 91-111) -/
inductive Obj
  | sym (s : Sym)
  | text (s : Str)
  | other (id : Nat)
deriving DecidableEq

/-- `Symbol.__eq__`, sym 91-100; `none` is `NotImplemented`. -/
def eqMethod (s : Sym) : Obj → Option Bool
  | .sym t => some (s.id == t.id)
  | .text t => some (s.name == t)
  | .other _ => none

/-- `a == b`: the method of the left one, then of the right one, then identity. (language, with sym 91-100) -/
def equal : Obj → Obj → Bool
  | .sym s, o => (eqMethod s o).getD false
  | .text t, .sym s => (eqMethod s (.text t)).getD false
  | .text s, .text t => s == t
  | .text _, .other _ => false
  | .other i, .other j => i == j
  | .other i, .sym s => (eqMethod s (.other i)).getD false
  | .other _, .text _ => false

/-- `a < b` of texts. (language, used in sym 106, 108) -/
def strLt (a b : Str) : Bool := !strLe b a

/-- `Symbol.__lt__`, sym 102-111; `none` is `NotImplemented`. -/
def ltMethod (s : Sym) : Obj → Option Bool
  | .sym t => some (strLt s.name t.name)
  | .text t => some (strLt s.name t)
  | .other _ => none

/-- `__gt__` of `total_ordering` (sym 39): `not (a < b) and a != b`. -/
def gtMethod (s : Sym) (o : Obj) : Option Bool := (ltMethod s o).map fun x => !x && !equal (.sym s) o

/-- `a < b`; `none` is `TypeError`. (language, with sym 39, 102-111) -/
def less : Obj → Obj → Option Bool
  | .sym s, o => ltMethod s o
  | .text t, .sym s => gtMethod s (.text t)
  | .text s, .text t => some (strLt s t)
  | .other i, .sym s => gtMethod s (.other i)
  | .text _, .other _ => none
  | .other _, .text _ => none
  | .other _, .other _ => none

/-- `hash`, given that of texts. (sym 113-117) -/
def hash (h : Str → Nat) (h' : Nat → Nat) : Obj → Nat
  | .sym s => h s.name
  | .text s => h s
  | .other i => h' i

/-! ## Definitions of symbols -/

/-- What is in a namespace: a symbol, or something else under one of the special names. (sym 131-143) -/
inductive Val
  | sym (name : Str)
  | plain
deriving DecidableEq

/-- What is assigned: a text, a symbol or something else. (sym 135-143) -/
inductive Rhs
  | text (s : Str)
  | sym (s : Str)
  | other
deriving DecidableEq

/-- A statement in the body: a name alone, or an assignment. (sym 196-205) -/
inductive Stmt
  | name (n : Str)
  | assign (n : Str) (r : Rhs)
deriving DecidableEq

/-- `PASSTHRU`, sym 129. -/
def passThru : List Str := ["__name__".toList, "__qualname__".toList, "__doc__".toList, "__module__".toList]

/-- What is raised: `ValueError` (sym 143), `KeyError` (unit 364), `TypeError` (unit 360), `AttributeError` (unit 364) or
`AssertionError` (unit 326). -/
inductive Err
  | value
  | key
  | type
  | attribute
  | assertion
deriving DecidableEq

/-- `SymbolDefNs.__setitem__`, sym 135-143. -/
def setItem (n : Str) (r : Rhs) (data : List (Str × Val)) : Except Err (List (Str × Val)) :=
  if n ∈ passThru then .ok (dictSet n .plain data)
  else
    match r with
    | .sym s => .ok (dictSet n (.sym s) data)
    | .text s => .ok (dictSet n (.sym s) data)
    | .other => .error .value

/-- `SymbolDefNs.__getitem__`, sym 145-157: what it leaves in the namespace. -/
def getItem (outer : List Str) (n : Str) (data : List (Str × Val)) : List (Str × Val) :=
  if n ∈ passThru then data
  else if n ∈ outer then data
  else if (data.lookup n).isSome then data
  else if n = "Symbol".toList then data
  else dictSet n (.sym n) data

/-- The body of a `SymbolDef`, sym 166-170, 196-205. -/
def body (outer : List Str) : List Stmt → List (Str × Val) → Except Err (List (Str × Val))
  | [], d => .ok d
  | .name n :: b, d => body outer b (getItem outer n d)
  | .assign n r :: b, d => (setItem n r d).bind (body outer b)

/-- `SymbolDefMeta.__new__`, sym 172-175: the namespace of the class. -/
def define (outer : List Str) (b : List Stmt) : Except Err (List (Str × Val)) :=
  (body outer b []).map fun d => dictSet "get_all_symbols".toList .plain d

/-- The attributes of a class, given the namespaces of it and its base classes, nearest first. (language, used in sym 191) -/
def attributes : List (List (Str × Val)) → List (Str × Val)
  | [] => []
  | d :: ds => d.foldl (fun m p => dictSet p.1 p.2 m) (attributes ds)

/-- `get_all_symbols`, sym 183-194: `classify_class_attrs` goes over the names in order. -/
def allSymbols (ds : List (List (Str × Val))) : List Str :=
  (sortBy (fun a b => strLe a.1 b.1) (attributes ds)).filterMap fun p =>
    match p.2 with
    | .sym s => if p.1 = "__locals__".toList then none else some s
    | .plain => none

/-! ## Types of units -/

/-- The class `Meta` in the definition of a type of units: `name`, the namespace of `fields`, whether the only base of `fields` is
`SymbolDef`, and `field_validators`. (unit 284-365) -/
structure Meta (V : Type) where
  name : Option Str
  fields : Option (List (Str × Val))
  direct : Bool
  validators : Option (List (Str × V))

/-- A type of units: the namespaces of `Meta.fields`, nearest first, and `Meta.field_validators`. (unit 284-365) -/
structure Kind (V : Type) where
  fields : List (List (Str × Val))
  validators : Option (List (Str × V))

/-- `update` of a dictionary (unit 319, 320). -/
def update {V : Type} (m : List (Str × V)) (l : List (Str × V)) : List (Str × V) := l.foldl (fun m p => dictSet p.1 p.2 m) m

/-- Merging validators, unit 315-321; without them the attribute is inherited. -/
def mergeValidators {V : Type} (base : Option (List (Str × V))) : Option (List (Str × V)) → Option (List (Str × V))
  | some ours => some (update (update [] (base.getD [])) ours)
  | none => base

/-- The symbols that are copied, unit 343-347. -/
def copySymbols (d : List (Str × Val)) : List (Str × Val) :=
  d.filter fun p => match p.2 with
    | .sym _ => true
    | .plain => false

/-- A type of units derived from another, unit 285-365. The own symbols are copied to a class derived from the fields of the base
type. -/
def derive {V : Type} (base : Kind V) (m : Option (Meta V)) : Except Err (Kind V) :=
  match m with
  | none => .error .key
  | some m =>
    if m.fields.isSome && !m.direct then .error .assertion
    else if m.name.isNone then .error .type
    else
      match m.fields with
      | none => .ok ⟨base.fields, mergeValidators base.validators m.validators⟩
      | some d =>
        .ok ⟨dictSet "__doc__".toList .plain (dictSet "get_all_symbols".toList .plain (copySymbols d)) :: base.fields,
          mergeValidators base.validators m.validators⟩

/-- The first type of units, unit 284-288, 363-365. -/
def root {V : Type} (m : Option (Meta V)) : Except Err (Kind V) :=
  match m with
  | none => .error .key
  | some m =>
    match m.fields with
    | none => .error .attribute
    | some d => .ok ⟨[d], m.validators⟩

/-- A type of units derived from another, and so on. (unit 284-365) -/
def deriveAll {V : Type} : List (Option (Meta V)) → Kind V → Except Err (Kind V)
  | [], k => .ok k
  | m :: ms, k => (derive k m).bind (deriveAll ms)

/-- The fields in the order in which they are checked, with their validators; a type without validators has no such attribute.
(unit 123-126) -/
def checks {V : Type} (k : Kind V) : Option (List (Str × V)) := k.validators.map (sortBy fun a b => strLe a.1 b.1)

end Verif.Symbols
