import Verif.Basic

/-! # Threads waiting for their replies

Models the loop of `Connection.sync_request` with `sync_recv_and_dispatch` and `_recv`
(`plainbox/vendor/rpyc/core/protocol.py`, "protocol") for several threads: `_sync_lock`, `_sync_event` and
`_sync_replies`. Every operation on these is one step; the steps of all threads are interleaved in any way.

Simplified: the call number `i` is a thread that waits for the reply number `i`; a thread that dispatches does
not make calls itself; threads that serve the connection besides (`poll`, `serve`) are left out; so is
`_recvlock`, which is only taken with `_sync_lock` held; what is received is C84. -/

namespace Verif.Wake

/-- Where a call is. `check`: at the `while` of protocol 518. `acquire`: at 411. `clear`: at 413. `recv`: in
`_recv`, 414 and 383-396. `dispatch`: at 417, with the message. `release`, `set`: at 420, 421, and whether an
exception is on its way. `wait`: at 423. `blocked`: inside of `Event.wait`. `returned`: after 521.
`raised`: an exception left the loop. -/
inductive PC
  | check
  | acquire
  | clear
  | recv
  | dispatch (m : Option Nat)
  | release (raising : Bool)
  | set (raising : Bool)
  | wait
  | blocked
  | returned
  | raised
deriving DecidableEq, Repr

/-- The calls, `_sync_lock` with its owner, `_sync_event`, the keys of `_sync_replies` (protocol 147-149), and
the messages that have arrived: the reply for a call, or something else. -/
structure State where
  pcs : List PC
  lock : Option Nat
  event : Bool
  replies : List Nat
  chan : List (Option Nat)
deriving DecidableEq, Repr

/-- `Event.set`: the threads inside of `wait` go on. (protocol 421, Python's `threading`) -/
def awaken : PC → PC
  | .blocked => .check
  | c => c

/-- What happens. `go i b`: a step of the call `i`; if it waits for a message and there is none, `b` says that
the time is up; if it dispatches, `b` says that this raises. (protocol 409-423, 508-525) -/
inductive Act
  | call
  | arrive (m : Option Nat)
  | go (i : Nat) (b : Bool)
deriving DecidableEq, Repr

/-- One step of the call `i`, protocol 383-396, 409-423, 518-521. The lock is not taken by a thread that has it
(this needs calls made while dispatching). -/
def State.go (s : State) (i : Nat) (b : Bool) : PC → State
  | .check =>
    if i ∈ s.replies then
      { s with
        pcs := s.pcs.set i .returned
        replies := s.replies.filter fun k => decide (k ≠ i) }
    else { s with pcs := s.pcs.set i .acquire }
  | .acquire =>
    if s.lock = none then
      { s with
        pcs := s.pcs.set i .clear
        lock := some i }
    else { s with pcs := s.pcs.set i .wait }
  | .clear =>
    { s with
      pcs := s.pcs.set i .recv
      event := false }
  | .recv =>
    match s.chan with
    | m :: l =>
      { s with
        pcs := s.pcs.set i (.dispatch m)
        chan := l }
    | [] => if b then { s with pcs := s.pcs.set i (.release false) } else s
  | .dispatch m =>
    if b then { s with pcs := s.pcs.set i (.release true) }
    else
      { s with
        pcs := s.pcs.set i (.release false)
        replies := m.toList ++ s.replies }
  | .release r =>
    { s with
      pcs := s.pcs.set i (.set r)
      lock := none }
  | .set r =>
    { s with
      pcs := (s.pcs.map awaken).set i (if r then .raised else .check)
      event := true }
  | .wait => { s with pcs := s.pcs.set i (if s.event then .check else .blocked) }
  | .blocked => s
  | .returned => s
  | .raised => s

/-- One step: a new call starts its loop (protocol 508-518), a message arrives, or a call goes on. -/
def State.step (s : State) : Act → State
  | .call => { s with pcs := s.pcs ++ [.check] }
  | .arrive m => { s with chan := s.chan ++ [m] }
  | .go i b =>
    match s.pcs[i]? with
    | none => s
    | some c => s.go i b c

/-- A new connection (protocol 146-149). -/
def State.start : State := ⟨[], none, false, [], []⟩

/-- Any steps. (No counterpart in the code: any interleaving.) -/
def State.run (s : State) (l : List Act) : State := l.foldl State.step s

end Verif.Wake
