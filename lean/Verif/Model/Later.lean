import Verif.Model.Text

/-!
# Results that arrive later

Models `AsyncResult` (`plainbox/vendor/rpyc/core/async.py`, "async") with `poll`, `serve` of `Connection` as it uses them
(`plainbox/vendor/rpyc/core/protocol.py`, "protocol").

Time is a number. What will come over the connection is a list of messages, each with the time at which it can be received and
the time that it takes to handle it; at most one of them is the answer that the result waits for. Simplified: time passes only
while the connection is waited for or a message is handled; the connection stays open; there is one thread. A callback is a
number, with whether it raises an exception; what callbacks do otherwise is left out.
-/

namespace Verif.Later

/-- A callback. (async 38-39, 60-71) -/
structure Callback where
  id : Nat
  fails : Bool
deriving DecidableEq, Repr

/-- `AsyncResult`; `_obj` and `_is_exc` together. (async 14-20) -/
structure Result (V : Type) where
  ready : Bool
  obj : Option (Bool × V)
  callbacks : List Callback
  ttl : Option Nat
deriving DecidableEq, Repr

/-- `__init__`. (async 14-20) -/
def Result.new (V : Type) : Result V := ⟨false, none, [], none⟩

/-- `expired`. (async 98-103) -/
def Result.expired {V : Type} (r : Result V) (now : Nat) : Bool :=
  if r.ready then false
  else match r.ttl with
    | none => false
    | some t => t < now

/-- The loop over the callbacks: those that are called, and whether the last one raised. (async 38-39) -/
def callAll : List Callback → List Nat × Bool
  | [] => ([], false)
  | c :: cs => if c.fails then ([c.id], true) else let r := callAll cs; (c.id :: r.1, r.2)

/-- `__call__`: the result, the callbacks that were called and whether one raised. (async 32-40) -/
def Result.arrive {V : Type} (r : Result V) (now : Nat) (x : Bool × V) : Result V × List Nat × Bool :=
  if r.expired now then (r, [], false)
  else
    let r := { r with obj := some x, ready := true }
    match callAll r.callbacks with
    | (ids, true) => (r, ids, true)
    | (ids, false) => ({ r with callbacks := [] }, ids, false)

/-- `add_callback`. (async 60-71) -/
def Result.add {V : Type} (r : Result V) (c : Callback) : Result V × List Nat × Bool :=
  if r.ready then (r, [c.id], c.fails)
  else ({ r with callbacks := r.callbacks ++ [c] }, [], false)

/-- `set_expiry`. (async 72-81) -/
def Result.setExpiry {V : Type} (r : Result V) (now : Nat) : Option Nat → Result V
  | none => { r with ttl := none }
  | some t => { r with ttl := some (now + t) }

/-- A message: when it can be received, the answer if it is the one, and how long handling it takes.
(protocol 363-378, 398-407) -/
structure Item (V : Type) where
  at_ : Nat
  mine : Option (Bool × V)
  cost : Nat
deriving DecidableEq, Repr

/-- The result together with the time and what will come. (async 42-58) -/
structure World (V : Type) where
  now : Nat
  queue : List (Item V)
  res : Result V
deriving DecidableEq, Repr

/-- Receive and handle one message. Callbacks that raise are left out here. (protocol 387-388, 417, 363-378) -/
def World.handle {V : Type} (w : World V) (i : Item V) (q : List (Item V)) : World V :=
  let t := max w.now i.at_
  ⟨t + i.cost, q, match i.mine with
    | none => w.res
    | some x => (w.res.arrive t x).1⟩

/-- `poll(timeout)`. (protocol 387-390, 409-431) -/
def World.poll {V : Type} (w : World V) (timeout : Nat) : World V :=
  match w.queue with
  | [] => { w with now := w.now + timeout }
  | i :: q => if i.at_ ≤ w.now + timeout then w.handle i q else { w with now := w.now + timeout }

/-- How `wait` ends: it returns, raises `AsyncResultTimeout`, or never ends. (async 42-58) -/
inductive Wait
  | done | timeout | never
deriving DecidableEq, Repr

/-- The loop of `wait` without an expiry: `serve` is called until the result is there. (async 48-50; protocol 433-442) -/
def waitForever {V : Type} : List (Item V) → World V → Wait × World V
  | [], w => if w.res.ready then (.done, w) else (.never, w)
  | i :: q, w => if w.res.ready then (.done, w) else waitForever q (w.handle i q)

/-- The loop of `wait` with an expiry. It goes around at most twice more than there are messages. (async 52-58) -/
def waitUntil {V : Type} (ttl : Nat) : Nat → World V → Wait × World V
  | 0, w => (.never, w)
  | n + 1, w =>
    let timeout := ttl - w.now
    let w' := w.poll timeout
    if w'.res.ready then (.done, w')
    else if ttl ≤ w.now then (.timeout, w')
    else waitUntil ttl n w'

/-- `wait`. (async 42-58) -/
def World.wait {V : Type} (w : World V) : Wait × World V :=
  if w.res.ready then (.done, w)
  else match w.res.ttl with
    | none => waitForever w.queue w
    | some t => waitUntil t (w.queue.length + 2) w

/-- `value`: a value, an exception from the other side, or how waiting ended. (async 106-117) -/
inductive Value (V : Type)
  | ret (v : V) | raised (v : V) | timeout | never | nothing
deriving DecidableEq, Repr

/-- `value`. (async 106-117) -/
def World.value {V : Type} (w : World V) : Value V :=
  match w.wait with
  | (.timeout, _) => .timeout
  | (.never, _) => .never
  | (.done, w) =>
    match w.res.obj with
    | none => .nothing
    | some (true, v) => .raised v
    | some (false, v) => .ret v

end Verif.Later
