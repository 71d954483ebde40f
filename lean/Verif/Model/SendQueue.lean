import Verif.Basic

/-!
# Sending from several threads

Model of `Connection._send` (plainbox/vendor/rpyc/core/protocol.py 239-266, "protocol"), which may be called at
any time: by several threads, by a handler while another message is being sent, and by the destructor of a proxy
when the garbage collector runs in the middle of another call.

Every operation on the queue or on the lock is one step; the steps of all calls are interleaved in any way.  (A
call that interrupts another one in the same thread is one of these interleavings.)

Simplified: list operations are atomic (as the code assumes); what `channel.send` does on the wire is C79, here it
either sends the message or raises.
-/

namespace Verif.SendQueue

/-- Where a call is.  `append`: before protocol 250.  `check`: at the `while` of 252.  `acquire`: at 253.
`recheck`: at 260.  `pop`: at 265.  `send`: at 266, with `data`.  `release`: at 268, and whether an exception is on
its way.  `done`: it has returned.  `raised`: it has raised. -/
inductive PC (M : Type)
  | append
  | check
  | acquire
  | recheck
  | pop
  | send (data : M)
  | release (raising : Bool)
  | done
  | raised
deriving DecidableEq, Repr

/-- What somebody outside sees of a step: a message was put into the queue, was sent, or could not be sent.
(protocol 239-266) -/
inductive Event (M : Type)
  | appended (m : M)
  | sent (m : M)
  | lost (m : M)
  | quiet
deriving DecidableEq, Repr

variable {M : Type}

/-- One step of the call that sends `m`, protocol 250-268, with the queue and the lock; `fails`: if
`channel.send` is called now it raises. -/
def act (m : M) (fails : Bool) : PC M → List M → Bool → PC M × List M × Bool × Event M
  | .append, q, l => (.check, q ++ [m], l, .appended m)
  | .check, q, l => (if q = [] then .done else .acquire, q, l, .quiet)
  | .acquire, q, l => if l then (.done, q, l, .quiet) else (.recheck, q, true, .quiet)
  | .recheck, q, l => (if q = [] then .release false else .pop, q, l, .quiet)
  | .pop, [], l => (.release true, [], l, .quiet)
  | .pop, x :: q, l => (.send x, q, l, .quiet)
  | .send x, q, l => if fails then (.release true, q, l, .lost x) else (.release false, q, l, .sent x)
  | .release r, q, _ => (if r then .raised else .check, q, false, .quiet)
  | .done, q, l => (.done, q, l, .quiet)
  | .raised, q, l => (.raised, q, l, .quiet)

/-- A call of `_send`: its argument, already dumped (protocol 240), and where it is. -/
structure Call (M : Type) where
  msg : M
  pc : PC M
deriving DecidableEq, Repr

/-- `_send_queue`, `_sendlock` (protocol 146, 156) and all calls that were ever made. -/
structure State (M : Type) where
  queue : List M
  lock : Bool
  calls : List (Call M)
deriving DecidableEq, Repr

/-- Something happens: `_send` is called, or a call makes a step. (protocol 239-266) -/
inductive Act (M : Type)
  | call (m : M)
  | go (i : Nat) (fails : Bool)
deriving DecidableEq, Repr

/-- One step of the whole, protocol 239-268. -/
def step (s : State M) : Act M → State M × Event M
  | .call m => ({ s with calls := s.calls ++ [⟨m, .append⟩] }, .quiet)
  | .go i fails =>
    match s.calls[i]? with
    | none => (s, .quiet)
    | some c =>
      let r := act c.msg fails c.pc s.queue s.lock
      (⟨r.2.1, r.2.2.1, s.calls.set i { c with pc := r.1 }⟩, r.2.2.2)

/-- Steps one after the other, with what is seen of them. (protocol 239-266) -/
def run (s : State M) : List (Act M) → State M × List (Event M)
  | [] => (s, [])
  | a :: l => ((run (step s a).1 l).1, (step s a).2 :: (run (step s a).1 l).2)

/-- A new connection (protocol 146, 156). -/
def start : State M := ⟨[], false, []⟩

end Verif.SendQueue
