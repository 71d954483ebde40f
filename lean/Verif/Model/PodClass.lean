import Verif.Model.Pod
import Verif.Model.Sort

/-!
# Classes of plain old data, comparison and conversion

Models how `PODMeta` and `podify` make classes (`_FieldCollection`), how objects are compared (`PODBase.__eq__`,
`PODBase.__lt__` and what `functools.total_ordering` adds) and `as_tuple` of `plainbox/impl/pod.py` ("pod").

Simplifications: names of fields are identifiers that are no keywords; signals that fields add to classes are left out;
field objects are used in one class body under one name; attributes that hide fields of a base class are left out.
-/

namespace Verif.PodClass

open Verif.Pod (Val Err Field Obj)

/-- Texts: names and docstrings of fields and classes. (pod 113-196) -/
abbrev Str := List Char

/-! ## Classes -/

/-- A field in a class body: the number that its creation gave to it, and the field but for its name, which it gains
in the class. (pod 204-226, 271-284) -/
structure Decl where
  counter : Nat
  field : Field

/-- A class: its name and `field_list` (pod 364-369, 585-591). -/
structure Cls where
  name : Str
  fields : List Field

/-- `_FieldCollection` (pod 479-498). -/
structure Coll where
  fields : List Field
  origin : List (Str × Str)

/-- `_FieldCollection.__init__` (pod 496-498). -/
def Coll.empty : Coll := ⟨[], []⟩

/-- `_FieldCollection.add_field` (pod 554-574). -/
def addField (f : Field) (cls : Str) (c : Coll) : Except Err Coll :=
  if (c.origin.lookup f.name).isSome then .error .typeError
  else .ok ⟨c.fields ++ [f], c.origin ++ [(f.name, cls)]⟩

/-- The loops that add the fields of one class (pod 519-520, 540-541). -/
def addFields (cls : Str) : List Field → Coll → Except Err Coll
  | [], c => .ok c
  | f :: fs, c => (addField f cls c).bind (addFields cls fs)

/-- `inspect_base_classes` (pod 505-520); `none` is a base class that is no subclass of `PODBase`. -/
def inspectBases : List (Option Cls) → Coll → Except Err Coll
  | [], c => .ok c
  | none :: bs, c => inspectBases bs c
  | some b :: bs, c => (addFields b.name b.fields c).bind (inspectBases bs)

/-- `gain_name` (pod 271-284). -/
def gainName (n : Str) (f : Field) : Field := { f with name := n }

/-- The fields of a class body, each with its number (pod 533-538); `none` is an attribute that is no field. -/
def bodyFields : List (Str × Option Decl) → List (Nat × Field)
  | [] => []
  | (_, none) :: ns => bodyFields ns
  | (n, some d) :: ns => (d.counter, gainName n d.field) :: bodyFields ns

/-- `fields.sort(key=lambda field: field.counter)` (pod 539). -/
def sortFields (l : List (Nat × Field)) : List (Nat × Field) := Sort.sortBy (fun a b => decide (a.1 ≤ b.1)) l

/-- `inspect_namespace` (pod 522-541). -/
def inspectNamespace (ns : List (Str × Option Decl)) (cls : Str) (c : Coll) : Except Err Coll :=
  addFields cls ((sortFields (bodyFields ns)).map (·.2)) c

/-- `get_namedtuple_cls` (pod 543-552): `namedtuple` takes no names that begin with an underscore. -/
def namedtupleOk (fs : List Field) : Bool := fs.all fun f => f.name.head? ≠ some '_'

/-- `PODMeta.__new__` (pod 585-594) and `podify` (pod 608-625). -/
def mkClass (name : Str) (bases : List (Option Cls)) (ns : List (Str × Option Decl)) : Except Err Cls :=
  match (inspectBases bases Coll.empty).bind (inspectNamespace ns name) with
  | .error e => .error e
  | .ok c => if namedtupleOk c.fields then .ok ⟨name, c.fields⟩ else .error .valueError

/-- `as_tuple` (pod 453-463). -/
def asTuple (cls : List Field) (o : Obj) : List Val := cls.map fun f => o.get f.name

/-! ## Comparison -/

/-- How values are compared: `==`, and `<`, which may raise. (Used in pod 440 and 451.) -/
structure Ops (V : Type) where
  eq : V → V → Bool
  lt : V → V → Except Err Bool

/-- `==` of tuples (standard library, used in pod 440; names and classes of named tuples do not count). -/
def tupleEq {V : Type} (o : Ops V) : List V → List V → Bool
  | [], [] => true
  | a :: as, b :: bs => o.eq a b && tupleEq o as bs
  | _, _ => false

/-- `<` of tuples: the first items that are not equal are compared (standard library, used in pod 451). -/
def tupleLt {V : Type} (o : Ops V) : List V → List V → Except Err Bool
  | [], bs => .ok (!bs.isEmpty)
  | _ :: _, [] => .ok false
  | a :: as, b :: bs => if o.eq a b then tupleLt o as bs else o.lt a b

/-- An object: its identity, its class, whether that class derives from `POD` (`podify` is also used on classes that
derive from `PODBase` only), and what `as_tuple` gives. (pod 364-463, 608-625) -/
structure Item (V : Type) where
  ident : Nat
  cls : Str
  pod : Bool
  values : List V

/-- `PODBase.__eq__` (pod 431-440); `none` is `NotImplemented`. -/
def eqMethod {V : Type} (o : Ops V) (a b : Item V) : Option Bool :=
  if b.pod then some (tupleEq o a.values b.values) else none

/-- `a == b`: the method of the left one, of the right one, identity. (Language, with pod 431-440. That the method of
the right one comes first if its class is a proper subclass makes no difference if `==` of values is symmetric.) -/
def equal {V : Type} (o : Ops V) (a b : Item V) : Bool :=
  ((eqMethod o a b).or (eqMethod o b a)).getD (a.ident == b.ident)

/-- `PODBase.__lt__` (pod 442-451); `none` is `NotImplemented`. -/
def ltMethod {V : Type} (o : Ops V) (a b : Item V) : Option (Except Err Bool) :=
  if b.pod then some (tupleLt o a.values b.values) else none

/-- `__gt__` of `total_ordering`: `not (a < b) and a != b` (standard library, used in pod 363). -/
def gtMethod {V : Type} (o : Ops V) (a b : Item V) : Option (Except Err Bool) :=
  (ltMethod o a b).map fun r => r.map fun x => !x && !equal o a b

/-- `__le__` of `total_ordering`: `a < b or a == b` (standard library, used in pod 363). -/
def leMethod {V : Type} (o : Ops V) (a b : Item V) : Option (Except Err Bool) :=
  (ltMethod o a b).map fun r => r.map fun x => x || equal o a b

/-- `__ge__` of `total_ordering`: `not (a < b)` (standard library, used in pod 363). -/
def geMethod {V : Type} (o : Ops V) (a b : Item V) : Option (Except Err Bool) :=
  (ltMethod o a b).map fun r => r.map fun x => !x

/-- `a < b` (language, with pod 363 and 442-451). -/
def less {V : Type} (o : Ops V) (a b : Item V) : Except Err Bool :=
  ((ltMethod o a b).or (gtMethod o b a)).getD (.error .typeError)

/-- `a > b` (language, with pod 363 and 442-451). -/
def greater {V : Type} (o : Ops V) (a b : Item V) : Except Err Bool :=
  ((gtMethod o a b).or (ltMethod o b a)).getD (.error .typeError)

/-- `a <= b` (language, with pod 363 and 442-451). -/
def atMost {V : Type} (o : Ops V) (a b : Item V) : Except Err Bool :=
  ((leMethod o a b).or (geMethod o b a)).getD (.error .typeError)

/-- `a >= b` (language, with pod 363 and 442-451). -/
def atLeast {V : Type} (o : Ops V) (a b : Item V) : Except Err Bool :=
  ((geMethod o a b).or (leMethod o b a)).getD (.error .typeError)

end Verif.PodClass
