import Verif.Model.Path
import Verif.Model.Sort

/-! # What validators share through the context

Models `UnitValidationContext` with `compute_shared`, `field2prop`, `compute_value_map`, and the two validators
that look at other units, `UniqueValueValidator` and `UnitReferenceValidator`, with the units that they report
(`plainbox/impl/unit/validators.py`, "validators"). `Verif/Model/Validate.lean` has the same validators without the
cache and without what they report.

Simplified: a unit is its identity, its checksum (`Unit.__eq__`, `plainbox/impl/unit/unit.py` 451-452) and what reading
its attributes gives; values are hashable; whether the constraints of a reference hold is given, and they do not raise;
messages are kept as the things that are put into them. -/

namespace Verif.Shared

open Verif.Path (Str)

/-- What `getattr` of a unit does: a value, an `AttributeError`, or another exception. (validators 553-556, 582) -/
inductive Got (V : Type) where
  | value (v : V)
  | missing
  | raises
deriving DecidableEq

/-- A unit: the object it is (`is`), its checksum (`==`, unit.py 451-452) and its attributes. (validators 552-560) -/
structure Unit (V : Type) where
  ident : Nat
  checksum : Nat
  attr : Str → Got V

variable {V : Type} [DecidableEq V]

/-- A value map, in the order of the keys. (validators 545-549) -/
abbrev ValueMap (V : Type) := List (V × List (Unit V))

/-- `value_map[v]`, `none` for `KeyError`. (validators 583, 658-660) -/
def ValueMap.find (m : ValueMap V) (v : V) : Option (List (Unit V)) :=
  match m with
  | [] => none
  | (w, us) :: m => if w = v then some us else ValueMap.find m v

/-- A unit is put into the list of its value. (validators 557-560) -/
def ValueMap.add (m : ValueMap V) (v : V) (u : Unit V) : ValueMap V :=
  match m with
  | [] => [(v, [u])]
  | (w, us) :: m => if w = v then (w, us ++ [u]) :: m else (w, us) :: ValueMap.add m v u

/-- `field2prop`. (validators 59-68) -/
def field2prop (field : Str) : Str := field.map fun c => if c = '-' then '_' else c

/-- The loop of `compute_value_map`; `none` for an exception. (validators 552-561) -/
def fill (prop : Str) (m : ValueMap V) : List (Unit V) → Option (ValueMap V)
  | [] => some m
  | u :: us =>
    match u.attr prop with
    | .value v => fill prop (m.add v u) us
    | .missing => fill prop m us
    | .raises => none

/-- `UnitValidationContext`: the units of each provider, and the shared cache; `calls` is for the keys for which
something was computed, in order, which is only looked at by theorems. (validators 82-88) -/
structure Context (V : Type) where
  providers : List (List (Unit V))
  cache : List (Str × ValueMap V)
  calls : List Str

/-- A new context. (validators 82-88) -/
def Context.new (providers : List (List (Unit V))) : Context V := ⟨providers, [], []⟩

/-- `compute_value_map(context, field)`. (validators 537-561) -/
def computeValueMap (c : Context V) (field : Str) : Option (ValueMap V) :=
  fill (field2prop field) [] c.providers.flatten

/-- `cache_key in self.shared_cache` and `self.shared_cache[cache_key]`. (validators 112, 114) -/
def cached (key : Str) : List (Str × ValueMap V) → Option (ValueMap V)
  | [] => none
  | (k, m) :: l => if k = key then some m else cached key l

/-- `compute_shared`. An exception of the function leaves the cache as it is. (validators 90-114) -/
def computeShared (c : Context V) (key : Str) (f : Context V → Option (ValueMap V)) : Context V × Option (ValueMap V) :=
  match cached key c.cache with
  | some m => (c, some m)
  | none =>
    match f c with
    | some m => ({ c with cache := c.cache ++ [(key, m)], calls := c.calls ++ [key] }, some m)
    | none => ({ c with calls := c.calls ++ [key] }, none)

/-- `"field_value_map[{}]".format(field)`. (validators 580) -/
def keyOf (field : Str) : Str := "field_value_map[".toList ++ field ++ "]".toList

/-- What is reported. (validators 592-602, 649, 662-666, 678-681, 684-695) -/
inductive Issue (V : Type) where
  /-- not unique: the units, the number in the message, the units to look at -/
  | clash (units : List (Unit V)) (number : Nat) (lookAt : List (Unit V))
  /-- the references could not be found out -/
  | wrong
  /-- there is no such unit -/
  | unavailable (id : V)
  /-- a constraint, counted from zero, does not hold -/
  | constraint (id : V) (n : Nat)
  /-- there are several such units -/
  | several (id : V) (units : List (Unit V))

/-- `unit_list.index(a_unit)`, which compares checksums. (validators 591) -/
def indexOf (a : Unit V) : List (Unit V) → Nat
  | [] => 0
  | b :: l => if b.checksum = a.checksum then 0 else indexOf a l + 1

/-- The key for sorting. (validators 590-591) -/
def sortKey (u : Unit V) (l : List (Unit V)) (a : Unit V) : Nat :=
  if a.ident = u.ident then 0 else indexOf a l + 1

/-- `UniqueValueValidator.check_in_context`; `none` for an exception. (validators 578-602) -/
def unique (c : Context V) (u : Unit V) (field : Str) : Context V × Option (List (Issue V)) :=
  match computeShared c (keyOf field) (computeValueMap · field) with
  | (c, none) => (c, none)
  | (c, some m) =>
    match u.attr (field2prop field) with
    | .value v =>
      match m.find v with
      | none => (c, none)
      | some us =>
        if us.length > 1 then
          (c, some [.clash (Sort.sortBy (fun a b => decide (sortKey u us a ≤ sortKey u us b)) us) (us.length - 1)
            (us.filter fun o => o.ident ≠ u.ident)])
        else (c, some [])
    | _ => (c, none)

/-- The loop over the constraints, from the one with number `n` on; of each constraint, whether it is to be looked at and
whether it holds. (validators 673-681) -/
def constraintIssues (id : V) (n : Nat) : List (Bool × Bool) → List (Issue V)
  | [] => []
  | (onlyif, holds) :: cs =>
    if onlyif = false then constraintIssues id (n + 1) cs
    else if holds = false then .constraint id n :: constraintIssues id (n + 1) cs
    else constraintIssues id (n + 1) cs

/-- One pass of the loop over the references. (validators 657-695) -/
def refIssues (m : ValueMap V) (constraints : Unit V → List (Bool × Bool)) (id : V) : List (Issue V) :=
  match m.find id with
  | none => [.unavailable id]
  | some us =>
    match us with
    | [r] => constraintIssues id 0 (constraints r)
    | [] => []
    | us => [.several id us]

/-- `UnitReferenceValidator.check_in_context`; the references are `none` if finding them out raises an exception, and
empty for `None`; the result is `none` for an exception. (validators 645-695) -/
def references (c : Context V) (refs : Option (List V)) (constraints : Unit V → List (Bool × Bool)) :
    Context V × Option (List (Issue V)) :=
  match computeShared c (keyOf "id".toList) (computeValueMap · "id".toList) with
  | (c, none) => (c, none)
  | (c, some m) =>
    match refs with
    | none => (c, some [.wrong])
    | some l => (c, some (l.flatMap (refIssues m constraints)))

/-- What is done with a context: a unit is checked by one of the two validators, or other providers are assigned.
(validators 82-84, 578, 645) -/
inductive Op (V : Type) where
  | unique (u : Unit V) (field : Str)
  | references (refs : Option (List V)) (constraints : Unit V → List (Bool × Bool))
  | assign (providers : List (List (Unit V)))

/-- One such thing, and what is reported. (validators 82-84, 578-602, 645-695) -/
def step (c : Context V) : Op V → Context V × Option (List (Issue V))
  | .unique u field => unique c u field
  | .references refs cs => references c refs cs
  | .assign ps => ({ c with providers := ps }, some [])

/-- One after the other. (validators 578-602, 645-695) -/
def run (c : Context V) : List (Op V) → Context V × List (Option (List (Issue V)))
  | [] => (c, [])
  | o :: os =>
    let (c, r) := step c o
    let (c, rs) := run c os
    (c, r :: rs)

end Verif.Shared
