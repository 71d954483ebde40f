/-!
# Signals

Model of `signal` and `remove_signals_listeners` (plainbox/vendor/morris/__init__.py).

Listeners run arbitrary programs that connect, disconnect and fire signals again.  Simplifications:
listeners are identified by a number, and two bound methods are the same listener when they compare
equal (same object and same function); the per-object signal that `__get__` (493-526) makes on first
access, with its first responder connected, exists from the start; arguments are numbers; logging is
left out; nobody changes the list behind the property `listeners`; the recursion limit of Python is
the fuel of `fire`.
-/

namespace Verif.Signal

/-- A callable. `owner` is the object of a bound method (`inspect.ismethod`), `none` for anything else,
in particular for the `boundmethod` helper of morris (742-760). -/
structure Listener where
  id : Nat
  owner : Option Nat
deriving DecidableEq, Repr

/-- `listenerinfo` (morris 631-660). -/
structure Info where
  listener : Listener
  pass : Bool
deriving DecidableEq, Repr

/-- Signals, by number (morris 427-476). -/
abbrev Sig := Nat

/-- A call of a listener. `depth` counts the `fire` calls in progress (not part of the program). (morris 694-706) -/
structure Call where
  depth : Nat
  sig : Sig
  info : Info
  arg : Nat
deriving DecidableEq, Repr

/-- `__listeners__` of an object: absent, or a `defaultdict(list)` as an association list.
(morris 631-692, 865-873) -/
abbrev Track := Option (List (Listener × List Sig))

/-- The state of all signals and objects (morris 577-587, 631-692). -/
structure St where
  /-- `_listeners` of each signal -/
  listeners : Sig → List Info
  /-- `__listeners__` of each object -/
  track : Nat → Track
  /-- the calls made so far (not part of the program) -/
  log : List Call

/-- Change a function at one point. (for the attributes set in morris 631-692) -/
def set {α β : Type} [DecidableEq α] (f : α → β) (a : α) (b : β) : α → β := fun x => if x = a then b else f x

/-- `dict[key]` of a `defaultdict(list)`. (morris 650-660, 680-692) -/
def entry (l : Listener) (d : List (Listener × List Sig)) : List Sig := (d.lookup l).getD []

/-- `dict[key] = value`. (morris 650-660) -/
def put (l : Listener) (v : List Sig) : List (Listener × List Sig) → List (Listener × List Sig)
  | [] => [(l, v)]
  | (k, w) :: d => if k = l then (k, v) :: d else (k, w) :: put l v d

/-- `del dict[key]`. (morris 680-692) -/
def del (l : Listener) (d : List (Listener × List Sig)) : List (Listener × List Sig) :=
  d.filter fun e => e.1 ≠ l

/-- `connect` (morris 631-660). -/
def connect (s : Sig) (l : Listener) (pass : Bool) (st : St) : St :=
  let st1 := { st with listeners := set st.listeners s (st.listeners s ++ [⟨l, pass⟩]) }
  match l.owner with
  | none => st1
  | some o =>
    let d := (st.track o).getD []
    { st1 with track := set st.track o (some (put l (entry l d ++ [s]) d)) }

/-- `disconnect` (morris 662-692); the flag tells that `ValueError` is raised. -/
def disconnect (s : Sig) (l : Listener) (pass : Bool) (st : St) : St × Bool :=
  if ⟨l, pass⟩ ∈ st.listeners s then
    let st1 := { st with listeners := set st.listeners s ((st.listeners s).erase ⟨l, pass⟩) }
    match l.owner with
    | none => (st1, false)
    | some o => match st.track o with
      | none => (st1, false)
      | some d =>
        if s ∈ entry l d then
          let v := (entry l d).erase s
          if v = [] then ({ st1 with track := set st.track o (some (del l d)) }, false)
          else ({ st1 with track := set st.track o (some (put l v d)) }, false)
        -- the lookup leaves an empty list in the dictionary
        else ({ st1 with track := set st.track o (some (put l (entry l d) d)) }, true)
  else (st, true)

/-- The inner loop of `remove_signals_listeners` (morris 872-873): it walks by position along a list
that `disconnect` shortens. `n` bounds the number of turns; every turn shortens the list or raises. -/
def removeLoop (o : Nat) (l : Listener) : Nat → Nat → St → St × Bool
  | 0, _, st => (st, false)
  | n + 1, i, st =>
    match (entry l ((st.track o).getD []))[i]? with
    | none => (st, false)
    | some s =>
      if (disconnect s l false st).2 then ((disconnect s l false st).1, true)
      else removeLoop o l n (i + 1) (disconnect s l false st).1

/-- The outer loop (morris 871). -/
def removeEach (o : Nat) : List Listener → St → St × Bool
  | [], st => (st, false)
  | l :: ls, st =>
    let r := removeLoop o l ((entry l ((st.track o).getD [])).length + 1) 0 st
    if r.2 then r else removeEach o ls r.1

/-- `remove_signals_listeners` (morris 865-873). -/
def removeAll (o : Nat) (st : St) : St × Bool :=
  match st.track o with
  | none => (st, false)
  | some d => removeEach o (d.map (·.1)) st

/-- What a listener does: any sequence of operations; it learns whether each one raised an exception and
may go on, or raise itself. (the listeners called in morris 694-706) -/
inductive Prog
  | done
  | raise
  | connect (s : Sig) (l : Listener) (pass : Bool) (k : Prog)
  | disconnect (s : Sig) (l : Listener) (pass : Bool) (k : Bool → Prog)
  | removeAll (o : Nat) (k : Bool → Prog)
  | fire (s : Sig) (arg : Nat) (k : Bool → Prog)

/-- What each listener does when called; it may depend on everything that happened before. (morris 694-706) -/
abbrev Body := St → Info → Sig → Nat → Prog

/-- The loop of `fire` (morris 702-706) over a copy of the list. `call` runs a listener. -/
def fireLoop (call : Info → St → Option (St × Bool)) : List Info → St → Option (St × Bool)
  | [], st => some (st, false)
  | i :: is, st => (call i st).bind fun r => if r.2 then some r else fireLoop call is r.1

/-- Run a program, given what firing a signal does. (the body of a listener, morris 702-706) -/
def execWith (fire : Sig → Nat → St → Option (St × Bool)) : Prog → St → Option (St × Bool)
  | .done, st => some (st, false)
  | .raise, st => some (st, true)
  | .connect s l p k, st => execWith fire k (connect s l p st)
  | .disconnect s l p k, st => execWith fire (k (disconnect s l p st).2) (disconnect s l p st).1
  | .removeAll o k, st => execWith fire (k (removeAll o st).2) (removeAll o st).1
  | .fire s a k, st => (fire s a st).bind fun r => execWith fire (k r.2) r.1

/-- `fire` (morris 694-706) inside `d` other calls of `fire`; `none` when `f`, the limit on nested
calls, is used up. -/
def fire (body : Body) : Nat → Nat → Sig → Nat → St → Option (St × Bool)
  | 0, _, _, _, _ => none
  | f + 1, d, s, a, st =>
    fireLoop (fun i st => execWith (fire body f (d + 1)) (body st i s a)
      { st with log := st.log ++ [⟨d, s, i, a⟩] }) (st.listeners s) st

/-- Signals with their first responders (morris 443-476, 516-524), which are put into the list
directly. -/
def init (first : Sig → List Info) : St := { listeners := first, track := fun _ => none, log := [] }

end Verif.Signal
