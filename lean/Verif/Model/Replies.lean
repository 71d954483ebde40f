import Verif.Basic

/-! # Requests and replies between the two ends of a connection

Models the requests and replies of `Connection` (`plainbox/vendor/rpyc/core/protocol.py`) and
`AsyncResult` (`plainbox/vendor/rpyc/core/async.py`): sequence numbers, `_sync_replies`,
`_async_callbacks`, dispatching. Both ends send requests over one connection, and both number them from
zero. Any number of threads and nested calls: between receiving a message and dispatching it other
messages can be handled (unboxing a reply asks the other end about classes, a handler calls back), so
messages that were received are kept in a list and are dispatched in any order.

Simplified: the connection is not closed; messages arrive unchanged and in order (C79, C81); what is
sent is a parameter, with whether sending and unboxing raise. Locks and events are in `Wake`. -/

namespace Verif.Replies

variable {Q A : Type}

/-- What can go wrong with requests and answers: `_box` and `brine.dump` raise for a request
(protocol 239-240, 270-271) or an answer (protocol 273-279; also if it is `SystemExit` or `KeyboardInterrupt` and is not sent at all,
protocol 355-358), `_unbox` or `vinegar.load` raise for an
answer (protocol 304-341, 363-374). -/
structure Wire (Q A : Type) where
  sendQ : Q → Bool
  sendA : A → Bool
  unbox : A → Bool

/-- Messages: `MSG_REQUEST`, and `MSG_REPLY` or `MSG_EXCEPTION` (the answer says which)
(protocol 270-279, 398-407). -/
inductive Msg (Q A : Type)
  | req (seq : Nat) (q : Q)
  | rep (seq : Nat) (a : A)
deriving DecidableEq, Repr

/-- One end, protocol 138-165: `_seqcounter`; the sequence numbers of the `sync_request`s that wait;
`_sync_replies`; `_async_callbacks`, each with whether its `AsyncResult` has expired (async 16-29,
111-117); messages that were received; requests whose handlers run. -/
structure Party (Q A : Type) where
  next : Nat
  waiting : List Nat
  replies : List (Nat × A)
  callbacks : List (Nat × Bool)
  hand : List (Msg Q A)
  serving : List (Nat × Q)

/-- What happens, for the requests of the end `b`: a request is made (synchronous or not), its sending
raises; the handler of the other end ends with an answer; this answer cannot be sent, cannot be unboxed;
a synchronous call returns the answer (or raises it), or raises because a message that it handled cannot
be unboxed; an asynchronous result is set, expires, is ignored because it had expired.
(No counterpart in the code: a record for the statements.) -/
inductive Event (Q A : Type)
  | sent (b : Bool) (sync : Bool) (seq : Nat) (q : Q)
  | refused (b : Bool) (seq : Nat)
  | answered (b : Bool) (seq : Nat) (q : Q) (a : A)
  | unsent (b : Bool) (seq : Nat)
  | lost (b : Bool) (seq : Nat)
  | returned (b : Bool) (seq : Nat) (a : A)
  | failed (b : Bool) (seq : Nat)
  | settled (b : Bool) (seq : Nat) (a : A)
  | expired (b : Bool) (seq : Nat)
  | ignored (b : Bool) (seq : Nat)
deriving DecidableEq, Repr

/-- The kinds of events. (No counterpart in the code.) -/
inductive Kind
  | sync | async | refused | answered | unsent | lost | returned | failed | settled | expired | ignored
deriving DecidableEq, Repr

/-- The kind of an event, and the request that it is about. (No counterpart in the code.) -/
def Event.kind : Event Q A → Kind × Bool × Nat
  | .sent b sync s _ => (if sync then .sync else .async, b, s)
  | .refused b s => (.refused, b, s)
  | .answered b s _ _ => (.answered, b, s)
  | .unsent b s => (.unsent, b, s)
  | .lost b s => (.lost, b, s)
  | .returned b s _ => (.returned, b, s)
  | .failed b s => (.failed, b, s)
  | .settled b s _ => (.settled, b, s)
  | .expired b s => (.expired, b, s)
  | .ignored b s => (.ignored, b, s)

/-- Both ends, the messages on the way to each, and what has happened, the latest first.
(protocol 138-165; the channels are those of C79) -/
structure World (Q A : Type) where
  party : Bool → Party Q A
  chan : Bool → List (Msg Q A)
  log : List (Event Q A)

/-- Change of one end. (No counterpart in the code: the ends are separate objects.) -/
def upd {T : Type} (f : Bool → T) (b : Bool) (v : T) : Bool → T := fun x => if x = b then v else f x

/-- Assignment to a dictionary. (Python; protocol 368, 378, 529.) -/
def put {T : Type} (m : List (Nat × T)) (k : Nat) (v : T) : List (Nat × T) :=
  (k, v) :: m.filter fun x => decide (x.1 ≠ k)

/-- An exception leaves `sync_recv_and_dispatch` (protocol 409-420, its `try` has no `except`): it ends the
synchronous call whose loop this was (protocol 518-519), if any. -/
def World.blame (w : World Q A) (b : Bool) : Option Nat → World Q A
  | none => w
  | some t =>
    let p := w.party b
    if t ∈ p.waiting then
      { w with
        party := upd w.party b { p with waiting := p.waiting.filter fun y => decide (y ≠ t) }
        log := .failed b t :: w.log }
    else w

/-- Steps. `dispatch` and `finish` are done by the thread of a call that waits, or by another one.
(No counterpart in the code: the methods listed at `World.step`.) -/
inductive Act (Q A : Type)
  | call (b : Bool) (sync : Bool) (q : Q)
  | recv (b : Bool)
  | dispatch (b : Bool) (k : Nat) (by' : Option Nat)
  | finish (b : Bool) (k : Nat) (a : A) (by' : Option Nat)
  | wake (b : Bool) (seq : Nat)
  | expire (b : Bool) (seq : Nat)

/-- One step; what is not possible changes nothing.

* `call`: `sync_request` up to its loop, protocol 508-517; `_async_request`, protocol 527-535.
* `recv`: `_recv`, protocol 383-396, with the first message on the way.
* `dispatch`: `_dispatch`, protocol 398-407. A request is unboxed and handled (343-346). The answer is
  unboxed (363-364, 370-374); if this raises, so does the call that dispatches.
  Otherwise it goes to the callback, which is removed, or is stored (365-368, 375-378); the
  `AsyncResult` ignores it if it has expired (async 40-43).
* `finish`: the handler returned or raised, protocol 346-361; if the answer cannot be sent the call that
  dispatches raises.
* `wake`: the loop of `sync_request` ends, protocol 518-525.
* `expire`: the time of an `AsyncResult` that is not ready has passed, async 111-117. -/
def World.step (x : Wire Q A) (w : World Q A) : Act Q A → World Q A
  | .call b sync q =>
    let p := w.party b
    if x.sendQ q then
      { party := upd w.party b { p with
          next := p.next + 1
          waiting := if sync then p.next :: p.waiting else p.waiting
          callbacks := if sync then p.callbacks else put p.callbacks p.next false }
        chan := upd w.chan (!b) (w.chan (!b) ++ [.req p.next q])
        log := .sent b sync p.next q :: w.log }
    else
      { w with
        party := upd w.party b { p with next := p.next + 1 }
        log := .refused b p.next :: w.log }
  | .recv b =>
    match w.chan b with
    | [] => w
    | m :: l =>
      { w with
        party := upd w.party b { w.party b with hand := (w.party b).hand ++ [m] }
        chan := upd w.chan b l }
  | .dispatch b k by' =>
    let p := w.party b
    match p.hand[k]? with
    | none => w
    | some (.req s q) =>
      { w with party := upd w.party b { p with
          hand := p.hand.eraseIdx k
          serving := p.serving ++ [(s, q)] } }
    | some (.rep s a) =>
      if x.unbox a then
        match p.callbacks.lookup s with
        | some old =>
          { w with
            party := upd w.party b { p with
              hand := p.hand.eraseIdx k
              callbacks := p.callbacks.filter fun y => decide (y.1 ≠ s) }
            log := (if old then .ignored b s else .settled b s a) :: w.log }
        | none =>
          { w with party := upd w.party b { p with
              hand := p.hand.eraseIdx k
              replies := put p.replies s a } }
      else
        World.blame { w with
          party := upd w.party b { p with hand := p.hand.eraseIdx k }
          log := .lost b s :: w.log } b by'
  | .finish b k a by' =>
    let p := w.party b
    match p.serving[k]? with
    | none => w
    | some (s, q) =>
      if x.sendA a then
        { party := upd w.party b { p with serving := p.serving.eraseIdx k }
          chan := upd w.chan (!b) (w.chan (!b) ++ [.rep s a])
          log := .answered (!b) s q a :: w.log }
      else
        World.blame { w with
          party := upd w.party b { p with serving := p.serving.eraseIdx k }
          log := .unsent (!b) s :: w.log } b by'
  | .wake b s =>
    let p := w.party b
    match p.replies.lookup s with
    | none => w
    | some a =>
      if s ∈ p.waiting then
        { w with
          party := upd w.party b { p with
            waiting := p.waiting.filter fun y => decide (y ≠ s)
            replies := p.replies.filter fun y => decide (y.1 ≠ s) }
          log := .returned b s a :: w.log }
      else w
  | .expire b s =>
    let p := w.party b
    match p.callbacks.lookup s with
    | some false =>
      { w with
        party := upd w.party b { p with callbacks := put p.callbacks s true }
        log := .expired b s :: w.log }
    | _ => w

/-- A new connection, protocol 138-165. -/
def World.start : World Q A := ⟨fun _ => ⟨0, [], [], [], [], []⟩, fun _ => [], []⟩

/-- Any steps of both ends. (No counterpart in the code: any interleaving of the methods above.) -/
def World.run (x : Wire Q A) (l : List (Act Q A)) : World Q A := l.foldl (fun w a => w.step x a) .start

end Verif.Replies
