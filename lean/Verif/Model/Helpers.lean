import Verif.Model.Text

/-!
# Reading remote iterators in chunks, and restricted objects

Models `buffiter` and `restricted` (`plainbox/vendor/rpyc/utils/helpers.py`, "helpers") with the handlers of the other side
(`plainbox/vendor/rpyc/core/protocol.py`, "protocol").

An iterator is what it will give: elements, and then its end or an exception. Simplified: it ends at some time; sizes and the
factor are natural numbers. An object is a map from names of attributes to values; a restricted object is accessed over the
connection, where `_access_attr` finds the two overriders (protocol 589, 596).
-/

namespace Verif.Helpers

/-- What an iterator will give: elements, and an exception if it does not just end. (protocol 646-650) -/
structure Iter (V E : Type) where
  items : List V
  error : Option E
deriving DecidableEq, Repr

/-- The loop of `_handle_buffiter`: the elements, or the exception. (protocol 644-651) -/
def collect {V E : Type} (error : Option E) : Nat → List V → Except E (List V) × List V
  | 0, l => (.ok [], l)
  | _ + 1, [] => (match error with
    | none => .ok []
    | some e => .error e, [])
  | n + 1, v :: l =>
    match collect error n l with
    | (.ok vs, rest) => (.ok (v :: vs), rest)
    | (.error e, rest) => (.error e, rest)

/-- How reading ends: with the iterator, or with an exception; or it was not followed to its end. (helpers 40-46) -/
inductive End (E : Type)
  | done | raised (e : E) | open_
deriving DecidableEq, Repr

/-- What was asked for, what was yielded, and the end. (helpers 40-46) -/
structure Trace (V E : Type) where
  counts : List Nat
  out : List V
  fin : End E
deriving DecidableEq, Repr

/-- The loop of `buffiter`, followed for some rounds. (helpers 40-46) -/
def loop {V E : Type} (maxChunk factor : Nat) (error : Option E) : Nat → Nat → List V → Trace V E
  | 0, _, _ => ⟨[], [], .open_⟩
  | n + 1, count, l =>
    match collect error count l with
    | (.error e, _) => ⟨[count], [], .raised e⟩
    | (.ok items, rest) =>
      if items.isEmpty then ⟨[count], [], .done⟩
      else
        let r := loop maxChunk factor error n (min (count * factor) maxChunk) rest
        ⟨count :: r.counts, items ++ r.out, r.fin⟩

/-- `buffiter`; `none` is the `ValueError`. Each round but the last reads an element. (helpers 12-46) -/
def buffiter {V E : Type} (it : Iter V E) (chunk maxChunk factor : Nat) : Option (Trace V E) :=
  if factor < 1 then none
  else some (loop maxChunk factor it.error (it.items.length + 1) chunk it.items)

/-- An object: the values of its attributes. (helpers 78, 83) -/
abbrev Obj (V : Type) := String → Option V

/-- What an access gives. (helpers 75-83) -/
inductive Out (V : Type)
  | value (v : V) | attributeError | done
deriving DecidableEq, Repr

/-- `wattrs`: that of `attrs` if none is given. (helpers 72-73) -/
def writable (attrs : List String) : Option (List String) → List String
  | none => attrs
  | some w => w

/-- `_rpyc_getattr`. (helpers 75-78) -/
def read {V : Type} (attrs : List String) (o : Obj V) (n : String) : Out V :=
  if n ∉ attrs then .attributeError
  else match o n with
    | none => .attributeError
    | some v => .value v

/-- `_rpyc_setattr`. (helpers 80-83) -/
def write {V : Type} (attrs : List String) (wattrs : Option (List String)) (o : Obj V) (n : String) (v : V) : Out V × Obj V :=
  if n ∉ writable attrs wattrs then (.attributeError, o)
  else (.done, fun m => if m = n then some v else o m)

end Verif.Helpers
