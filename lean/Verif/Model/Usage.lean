import Verif.Model.Sort

/-!
# Usage expectations and declared exceptions

Models `UsageExpectation` (`plainbox/impl/developer.py`, "developer") and `raises` (`plainbox/impl/decorators.py`, "decorators").

A function is its code object, and, if it was made by a decorator that uses `functools.wraps`, the function in its attribute
`__wrapped__`. Bound methods are the functions they are made of. Objects that are classes are not modelled (the attribute of a
class would be found through its instances).
-/

namespace Verif.Usage

/-- Texts. (standard library) -/
abbrev Str := List Char

/-- A code object: who it is, and `co_name`. (developer 185-189, 210) -/
structure Code where
  uid : Nat
  name : Str
deriving DecidableEq, Repr

/-- Functions, with and without `__wrapped__`. (developer 186-187; decorators 130-131) -/
inductive Fn
  | plain (c : Code)
  | wraps (c : Code) (inner : Fn)
deriving DecidableEq, Repr

/-- `func.__code__`. (developer 187) -/
def Fn.code : Fn → Code
  | .plain c => c
  | .wraps c _ => c

/-- `func.__wrapped__ if hasattr(func, '__wrapped__') else func`. (developer 186-187, 212) -/
def Fn.under : Fn → Fn
  | .plain c => .plain c
  | .wraps _ f => f

/-- The frames of a call, the innermost one first: a wrapper calls what it wraps. (decorators 131-134) -/
def Fn.frames : Fn → List Code
  | .plain c => [c]
  | .wraps c f => f.frames ++ [c]

/-- `allowed_code`. (developer 185-189) -/
def allowedCode (calls : List (Fn × Str)) : List Code := calls.map fun p => p.1.under.code

/-- `d[k] = v`. (standard library; developer 211-214) -/
def put (k : Fn) (v : Str) : List (Fn × Str) → List (Fn × Str)
  | [] => [(k, v)]
  | (k', v') :: d => if k = k' then (k', v) :: d else (k', v') :: put k v d

/-- `allowed_undecorated_calls`. (developer 211-214) -/
def undecorated (calls : List (Fn × Str)) : List (Fn × Str) := calls.foldl (fun d p => put p.1.under p.2 d) []

/-- `allowed_pairs`. (developer 215-220) -/
def allowedPairs (calls : List (Fn × Str)) : List (Str × Str) :=
  (Sort.sortBy (fun a b => Sort.strLe a.1.code.name b.1.code.name) (undecorated calls)).map fun p => (p.1.code.name, p.2)

/-- How `enforce` ends: it returns, it returns after a warning that proposes another value of `back`, it raises
`UnexpectedMethodCall`, or there are not that many frames. (developer 163-226) -/
inductive Verdict
  | accepted
  | warned (back : Nat)
  | unexpected (fn : Str) (pairs : List (Str × Str))
  | indexError
deriving DecidableEq, Repr

/-- `UsageExpectation.enforce`, developer 163-226; `stack` is `inspect.stack(0)`, which begins with the frame of `enforce`. -/
def enforce (calls : List (Fn × Str)) (stack : List Code) (back : Nat) : Verdict :=
  match stack[back]? with
  | none => .indexError
  | some caller =>
    if caller ∈ allowedCode calls then .accepted
    else
      match (if back > 1 then stack[back - 1]? else none) with
      | some alt => if alt ∈ allowedCode calls then .warned (back - 1) else .unexpected caller.name (allowedPairs calls)
      | none => .unexpected caller.name (allowedPairs calls)

/-- The attribute `__usage_expectation` of the objects, and the number of expectations made so far. (developer 144-149) -/
structure Heap where
  attrs : List (Nat × Nat) := []
  made : Nat := 0
deriving Repr

/-- `UsageExpectation.of`, developer 134-149: which of the expectations it gives. -/
def of (h : Heap) (obj : Nat) : Heap × Nat :=
  match h.attrs.lookup obj with
  | some e => (h, e)
  | none => (⟨(obj, h.made) :: h.attrs, h.made + 1⟩, h.made)

/-- A sequence of calls of `of`. (developer 134-149) -/
def ofAll : Heap → List Nat → List Nat
  | _, [] => []
  | h, o :: os => (of h o).2 :: ofAll (of h o).1 os

/-! ## Declared exceptions -/

/-- A value given to `raises`: a class of exceptions or something else. (decorators 119-121) -/
inductive Arg
  | exc (name : Str)
  | other
deriving DecidableEq, Repr

/-- What `raises(...)(func)` does: make the wrapper, or raise `TypeError` or `UndocumentedException`. (decorators 119-128) -/
inductive Decorated
  | wrapper
  | typeError
  | undocumented (name : Str)
deriving DecidableEq, Repr

/-- `needle in s`. (standard library; decorators 127) -/
def contains (needle : Str) : Str → Bool
  | [] => needle.isEmpty
  | c :: s => needle.isPrefixOf (c :: s) || contains needle s

/-- The loop over the exceptions, decorators 126-128. -/
def undocumented (doc : Str) : List Str → Option Str
  | [] => none
  | n :: ns => if contains (":raises ".toList ++ n ++ ":".toList) doc then undocumented doc ns else some n

/-- `raises(*args)(func)`, decorators 119-128; `doc` is `func.__doc__`. -/
def decorate (args : List Arg) (doc : Option Str) : Decorated :=
  if args.any (fun a => a = .other) then .typeError
  else
    match doc with
    | none => .wrapper
    | some d =>
      match undocumented d (args.filterMap fun a => match a with | .exc n => some n | .other => none) with
      | none => .wrapper
      | some n => .undocumented n

/-- The classes of exceptions: whether one is a subclass of another one, and of `Exception`. (decorators 135-136) -/
structure Classes where
  sub : Str → Str → Bool
  isException : Str → Bool

/-- How a call ends: with a value, or with an exception of a class. (decorators 133-140) -/
inductive End (α : Type)
  | value (a : α)
  | raised (cls : Str) (exc : α)
deriving DecidableEq, Repr

/-- A call of the wrapper, decorators 132-140: how it ends, and the messages "Undeclared exception ... raised from ...". -/
def wrapped {α : Type} (k : Classes) (declared : List Str) (fn : Str) (e : End α) : End α × List (Str × Str) :=
  match e with
  | .value a => (.value a, [])
  | .raised c x =>
    if k.isException c then
      if declared.any (k.sub c) then (.raised c x, []) else (.raised c x, [(c, fn)])
    else (.raised c x, [])

end Verif.Usage
