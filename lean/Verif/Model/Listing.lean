import Verif.Basic

/-!
# Model of `plainbox list`

`PlainBoxObject` and `Explorer.get_object_tree` of `plainbox/impl/highlevel.py` ("highlevel") and
`ListInvocation` of `plainbox/impl/commands/inv_list.py` ("inv_list").  Simplified: names and the values
of attributes are given as their `repr`, and which attributes a unit has is given; the class of a unit
is given by the name of its type.
-/

namespace Verif.Listing

/-- Texts (highlevel 38-123). -/
abbrev Str := List Char

/-- `PlainBoxObject`, highlevel 38-123, with the `repr` of its name and of the values of its
attributes. -/
inductive Obj where
  | mk (group name : Str) (attrs : List (Str × Str)) (children : List Obj)

/-- A unit as `Explorer` sees it: `unit.Meta.name` and the `repr` of the three things that may be its
name (highlevel 236-337). -/
structure Unit where
  type : Str
  id : Str
  path : Str
  osId : Str
  attrs : List (Str × Str)

/-- A provider (highlevel 176-198). -/
structure Provider where
  name : Str
  attrs : List (Str × Str)
  units : List Unit

/-- A storage of a session (highlevel 206-213). -/
structure Storage where
  location : Str
  attrs : List (Str × Str)

/-- A repository of storages (highlevel 200-206). -/
structure Repository where
  location : Str
  storages : List Storage

/-- `Explorer`, highlevel 131-148. -/
structure Explorer where
  providers : List Provider
  repositories : List Repository

/-- `_unit_to_obj` with `_job_to_obj` and so on, highlevel 215-337; `none` is `NotImplementedError`. -/
def unitToObj (u : Unit) : Option Obj :=
  if u.type = "test plan".toList then some (.mk u.type u.id u.attrs [])
  else if u.type = "job".toList then some (.mk u.type u.id u.attrs [])
  else if u.type = "category".toList then some (.mk u.type u.id u.attrs [])
  else if u.type = "file".toList then some (.mk u.type u.path u.attrs [])
  else if u.type = "template".toList then some (.mk u.type u.id u.attrs [])
  else if u.type = "manifest entry".toList then some (.mk u.type u.id u.attrs [])
  else if u.type = "packaging meta-data".toList then some (.mk u.type u.osId u.attrs [])
  else if u.type = "exporter".toList then some (.mk u.type u.id u.attrs [])
  else none

/-- The loop over the units of a provider, highlevel 196-197. -/
def unitsToObjs : List Unit → Option (List Obj)
  | [] => some []
  | u :: us => (unitToObj u).bind fun o => (unitsToObjs us).map fun os => o :: os

/-- The loop over the providers, highlevel 175-198. -/
def providersToObjs : List Provider → Option (List Obj)
  | [] => some []
  | p :: ps =>
    (unitsToObjs p.units).bind fun os =>
      (providersToObjs ps).map fun rest => .mk "provider".toList p.name p.attrs os :: rest

/-- A storage, highlevel 206-213. -/
def storageToObj (s : Storage) : Obj := .mk "storage".toList s.location s.attrs []

/-- A repository, highlevel 200-213. -/
def repositoryToObj (r : Repository) : Obj :=
  .mk "repository".toList r.location [] (r.storages.map storageToObj)

/-- `get_object_tree`, highlevel 150-213. -/
def objectTree (e : Explorer) : Option Obj :=
  (providersToObjs e.providers).map fun ps =>
    .mk "service".toList "'service object'".toList [] (ps ++ e.repositories.map repositoryToObj)

/-- `"{:15}"`: at least fifteen characters (inv_list 46). -/
def pad15 (s : Str) : Str := s ++ List.replicate (15 - s.length) ' '

/-- The line of an object, inv_list 41. -/
def headLine (indent group name : Str) : Str := indent ++ group ++ ' ' :: name

/-- The lines of the attributes, inv_list 44-46. -/
def attrLines (indent : Str) (attrs : List (Str × Str)) : List Str :=
  attrs.map fun a => indent ++ pad15 a.1 ++ ": ".toList ++ a.2

mutual
/-- `_show`, inv_list 37-54: the lines that are printed. -/
def shows (group : Option Str) (attrs : Bool) (indent : Str) : Obj → List Str
  | .mk g n as cs =>
    let here := group = none ∨ group = some g
    let indent1 := if here then indent ++ "  ".toList else indent
    (if here then headLine indent g n :: (if attrs then attrLines indent1 as else []) else []) ++
    (if cs.isEmpty then []
     else if group = none then
       (indent1 ++ "children".toList) :: showAll group attrs (indent1 ++ "  ".toList) cs
     else showAll group attrs indent1 cs)

/-- The loop over the children, inv_list 53-54. -/
def showAll (group : Option Str) (attrs : Bool) (indent : Str) : List Obj → List Str
  | [] => []
  | o :: os => shows group attrs indent o ++ showAll group attrs indent os
end

/-- `ListInvocation.run`, inv_list 33-35: the lines, or `NotImplementedError` before any of them. -/
def run (e : Explorer) (group : Option Str) (attrs : Bool) : Option (List Str) :=
  (objectTree e).map fun o => shows group attrs [] o

end Verif.Listing
