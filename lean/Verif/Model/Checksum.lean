import Verif.Model.Sort
import Verif.Model.IOLog

/-! # Unit checksums

Models `Unit._compute_checksum` (`plainbox/impl/unit/unit.py` 810-847) up to the hash function, which
is a parameter. The texts are ASCII (`json.dumps` escapes everything else), so encoding them as UTF-8
changes nothing. Values of fields are strings; the case of `Symbol` objects, which are written as
strings too, is left out. Values of parameters are strings, or numbers for `__index__`. -/

namespace Verif.Checksum

/-- Texts, as lists of characters (unit.py 810-847). -/
abbrev Str := List Char

/-- The value of a template parameter. (unit.py 839-845; see template.py 380-383 for where parameters come from.) -/
inductive PVal
  | str (s : Str)
  | num (n : Nat)
deriving DecidableEq

/-- The part of a unit that the checksum looks at: `_data`, the namespace of the provider if there is
a provider, and `_parameters` if the unit comes from a template (unit.py 383-429). Dictionaries are
lists of items; in all uses the keys are distinct. -/
structure Unit' where
  data : List (Str × Str)
  ns : Option Str
  params : Option (List (Str × PVal))

/-- Python's `sorted(d.items())`: the keys are distinct, so the values are never compared. (unit.py 818, 840-841) -/
def sortItems {V : Type} (l : List (Str × V)) : List (Str × V) :=
  Sort.sortBy (fun a b => Sort.strLe a.1 b.1) l

/-- Assignment to a dictionary. (unit.py 828-829) -/
def dictSet {V : Type} (k : Str) (v : V) : List (Str × V) → List (Str × V)
  | [] => [(k, v)]
  | (k', v') :: l => if k' = k then (k, v) :: l else (k', v') :: dictSet k v l

/-- The items of a dictionary as `json.dumps(..., separators=(',', ':'))` writes them, up to the
closing brace. (unit.py 832-835, 842-844) -/
def dumpItems {V : Type} (ser : V → Str) : List (Str × V) → Str
  | [] => ['}']
  | [(k, v)] => IOLog.jsonStr k ++ ':' :: (ser v ++ ['}'])
  | (k, v) :: l => IOLog.jsonStr k ++ ':' :: (ser v ++ ',' :: dumpItems ser l)

/-- `json.dumps` of a dictionary. (unit.py 832-835, 842-844) -/
def dumpDict {V : Type} (ser : V → Str) (l : List (Str × V)) : Str := '{' :: dumpItems ser l

/-- `json.dumps` of a parameter. (unit.py 842-844) -/
def serP : PVal → Str
  | .str s => IOLog.jsonStr s
  | .num n => Nat.toDigits 10 n

/-- `if self._provider and self._provider.namespace`, unit.py 829-830. -/
def addNamespace (ns : Option Str) (l : List (Str × Str)) : List (Str × Str) :=
  match ns with
  | none => l
  | some n => if n = [] then l else dictSet "namespace".toList n l

/-- The text that is hashed, unit.py 818-844. -/
def canonical (u : Unit') : Str :=
  dumpDict IOLog.jsonStr (addNamespace u.ns (sortItems u.data)) ++
    match u.params with
    | none => []
    | some ps => dumpDict serP (sortItems ps)

/-- `checksum`, unit.py 793-808, 847. -/
def checksum {D : Type} (sha : Str → D) (u : Unit') : D := sha (canonical u)

end Verif.Checksum
