import Verif.Model.Text

/-!
# Test cases with parameters

Models `TestCaseParameters` and `TestCaseWithParameters` (`plainbox/testing_utils/testcases.py`, "tc").

A class is a number, with the text that `strclass` gives for it; values are a type with equality, and a text for each. Running a
test case is that it is run: what `TestCase.run` does is left out, as are `__str__` and `__repr__`, which are put together like
`id`.
-/

namespace Verif.Params

abbrev Str := List Char

/-- `TestCaseParameters`. (tc 49-69) -/
structure Params (V : Type) where
  names : List Str
  values : List V
deriving DecidableEq, Repr

/-- What reading an attribute gives: something that the object has anyway, a value, or `AttributeError`. (tc 77-83) -/
inductive Got (V : Type)
  | own | value (v : V) | missing
deriving DecidableEq, Repr

/-- `index`: the first place of a name. (tc 79) -/
def index (n : Str) : List Str → Option Nat
  | [] => none
  | m :: ms => if m = n then some 0 else (index n ms).map (· + 1)

/-- Reading an attribute: `__getattr__` is asked if there is none otherwise. `own` are the attributes that the object has.
(tc 61, 77-83) -/
def Params.get {V : Type} (own : Str → Bool) (p : Params V) (n : Str) : Got V :=
  if own n then .own
  else match index n p.names with
    | none => .missing
    | some i => match p.values[i]? with
      | none => .missing
      | some v => .value v

/-- `", ".join`. (tc 86) -/
def join : List Str → Str
  | [] => []
  | [s] => s
  | s :: ss => s ++ ',' :: ' ' :: join ss

/-- `__str__` of the parameters. (tc 85-88) -/
def Params.text {V : Type} (str : V → Str) (p : Params V) : Str :=
  join ((p.names.zip p.values).map fun x => x.1 ++ ':' :: ' ' :: str x.2)

/-- A class: its names of parameters and their values. (tc 165-182) -/
structure Cls (V : Type) where
  id : Nat
  text : Str
  names : List Str
  values : List (List V)
deriving DecidableEq, Repr

/-- An instance. (tc 143-152) -/
structure Case (V : Type) where
  cls : Cls V
  method : Str
  params : Option (Params V)
deriving DecidableEq, Repr

/-- `_parametrize`. (tc 184-192) -/
def Case.bind {V : Type} (c : Case V) (p : Params V) : Case V := ⟨c.cls, c.method, some p⟩

/-- `countTestCases`. (tc 194-212) -/
def Case.count {V : Type} (c : Case V) : Nat :=
  match c.params with
  | none => c.cls.values.length
  | some _ => 1

/-- The loop of `run`: the cases that are run, and the number, the expected and the actual length of values that are refused.
(tc 229-240) -/
def runFrom {V : Type} (c : Case V) (i : Nat) : List (List V) → List (Case V) × Option (Nat × Nat × Nat)
  | [] => ([], none)
  | vs :: rest =>
    if vs.length ≠ c.cls.names.length then ([], some (i, c.cls.names.length, vs.length))
    else
      let r := runFrom c (i + 1) rest
      (c.bind ⟨c.cls.names, vs⟩ :: r.1, r.2)

/-- `run`. (tc 214-240) -/
def Case.run {V : Type} (c : Case V) : List (Case V) × Option (Nat × Nat × Nat) := runFrom c 0 c.cls.values

/-- `id`. (tc 242-256) -/
def Case.ident {V : Type} (str : V → Str) (c : Case V) : Str :=
  match c.params with
  | none => c.cls.text ++ '.' :: c.method ++ " [<unparameterized>]".toList
  | some p => c.cls.text ++ '.' :: c.method ++ ' ' :: '[' :: p.text str ++ [']']

/-- `__eq__`. (tc 71-75, 285-294) -/
def Case.eq {V : Type} [DecidableEq V] (a b : Case V) : Bool := a.method = b.method ∧ a.params = b.params

/-- `__hash__`: what is hashed. A class that defines `__eq__` but no `__hash__`, as that of the parameters, has no hash: there is a
`TypeError`. (tc 71, 296-302) -/
def Case.hash {V : Type} (c : Case V) : Option (Nat × Str) :=
  match c.params with
  | none => some (c.cls.id, c.method)
  | some _ => none

end Verif.Params
