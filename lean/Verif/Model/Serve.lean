import Verif.Model.Text

/-!
# A server and its clients

Models `Server` with a thread for each client, as in `ThreadedServer` (`plainbox/vendor/rpyc/utils/server.py`, "server"), as steps
of several threads: the one that accepts connections, one for each client, and one that closes the server.

Connections are numbers. Simplified: `close` is one step, as are the two ends of serving a client; errors of the listener end the
loop of `start`, which then closes the server; registering, logging and what is served are left out.
-/

namespace Verif.Serve

/-- Where the thread that accepts connections is: it waits, it has one, or it has one and has found the server active.
(server 133-155) -/
inductive Main
  | idle | got (s : Nat) | checked (s : Nat)
deriving DecidableEq, Repr

/-- Where the thread of a client is. (server 164-189) -/
inductive Phase
  | none | auth | serving | ending | gone
deriving DecidableEq, Repr

/-- The server. `isOpen` and `phase` are about connections.
(server 49-63, 103-127) -/
structure State where
  active : Bool
  closed : Bool
  main : Main
  clients : List Nat
  isOpen : Nat → Bool
  phase : Nat → Phase

/-- A server that was started. (server 53-54, 63, 249) -/
def init : State := ⟨true, false, .idle, [], fun _ => false, fun _ => .none⟩

/-- Changing one place of a function. -/
def set {α : Type} (f : Nat → α) (s : Nat) (a : α) : Nat → α := fun t => if t = s then a else f t

/-- A step of some thread. (server 103-189) -/
inductive Step
  /-- `listener.accept` gives a connection. (server 135-147) -/
  | incoming (s : Nat)
  /-- Whether the server is active. (server 149-150) -/
  | check
  /-- The connection is remembered, its thread is started. (server 152-155, 287-289) -/
  | add
  /-- Authentication, with its outcome; without an authenticator it succeeds. (server 166-177) -/
  | auth (s : Nat) (ok : Bool)
  /-- The client is served no longer, with or without an exception. (server 178-182) -/
  | stop (s : Nat)
  /-- The connection is closed and forgotten. (server 183-189) -/
  | finish (s : Nat)
  /-- `close`. (server 103-127) -/
  | close
deriving DecidableEq, Repr

/-- `close`. (server 103-127) -/
def State.close (st : State) : State :=
  if st.closed then st
  else { st with
    closed := true, active := false,
    isOpen := fun s => if s ∈ st.clients then false else st.isOpen s,
    clients := [] }

/-- A step; `none` if it cannot be taken. (server 103-189) -/
def step (st : State) : Step → Option State
  | .incoming s =>
    if st.main = .idle ∧ st.active = true ∧ st.phase s = .none ∧ st.isOpen s = false then
      some { st with main := .got s, isOpen := set st.isOpen s true }
    else none
  | .check =>
    match st.main with
    | .got s => some { st with main := if st.active then .checked s else .idle }
    | _ => none
  | .add =>
    match st.main with
    | .checked s => some { st with main := .idle, clients := s :: st.clients, phase := set st.phase s .auth }
    | _ => none
  | .auth s ok =>
    if st.phase s = .auth then some { st with phase := set st.phase s (if ok then .serving else .ending) } else none
  | .stop s => if st.phase s = .serving then some { st with phase := set st.phase s .ending } else none
  | .finish s =>
    if st.phase s = .ending then
      some { st with phase := set st.phase s .gone, isOpen := set st.isOpen s false, clients := st.clients.filter (· ≠ s) }
    else none
  | .close => some st.close

/-- Some steps, one after the other; `none` if one cannot be taken. -/
def steps (st : State) : List Step → Option State
  | [] => some st
  | e :: es => (step st e).bind fun st => steps st es

end Verif.Serve
