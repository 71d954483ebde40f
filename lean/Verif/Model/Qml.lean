import Verif.Model.Stream

/-!
# Tests in QML and their pipes

Models `QmlJobExecutionController.execute_job_with_result` (`plainbox/impl/ctrl.py`, "ctrl") and the program that it starts
(`plainbox/data/qml-shell/plainbox_qml_shell.qml`, "shell", and `pipe_handler.py` beside it, "handler") as processes that take turns
in any order. A pipe holds a number of bytes; who writes to a full pipe waits, and so does who reads from an empty one that
somebody can write to.

Simplified: bytes are written and read one by one; the output of the program and what the controller does before and after are in
other models; how JSON is read is a parameter.
-/

namespace Verif.Qml

open Verif.Checksum (Str)

/-- What happens: the bytes of the job that plainbox sends (ctrl 943-946), how much a pipe holds, what the test reports if it does
(shell 111-114), the exit status of the program (ctrl 954), and if the test leaves a process behind that has the descriptor, does
that one end? (ctrl 954-957) -/
structure Setup where
  data : List Nat
  capacity : Nat
  report : Option (List Nat)
  status : Int
  helper : Option Bool

/-- Plainbox: it writes, starts the program, waits for it, and reads. (ctrl 947-960) -/
inductive Box
  | writing (rest : List Nat)
  | starting
  | waiting
  | reading (status : Int) (got : List Nat)
  | done (status : Int) (got : List Nat)
deriving DecidableEq

/-- The program: it reads, shows the test, and writes. (shell 47-57, 111-114) -/
inductive Shell
  | absent
  | reading (got : List Nat)
  | testing
  | writing (rest : List Nat)
  | exited (status : Int)
deriving DecidableEq

/-- Both processes, both pipes, and who can write to them; with what the test was given, what it reported, and whether all of it was
written. (ctrl 912-915, 933-960) -/
structure State where
  box : Box
  shell : Shell
  /-- in the pipe to the program -/
  inward : List Nat
  /-- plainbox has not closed its end of it -/
  open' : Bool
  /-- in the pipe to plainbox -/
  outward : List Nat
  /-- plainbox has not closed its copy of the other end -/
  copy : Bool
  /-- a process that was left behind has it -/
  helper : Bool
  seen : Option (List Nat)
  reported : Option (List Nat)
  whole : Bool
deriving DecidableEq

/-- The pipes were made. (ctrl 912-915, 933-934) -/
def init (c : Setup) : State := ⟨.writing c.data, .absent, [], true, [], true, false, none, none, false⟩

/-- Who does something next, or is the program killed? (ctrl 954) -/
inductive Turn
  | box | shell | helper | kill (status : Int)
deriving DecidableEq

/-- Plainbox does something, ctrl 947-960. -/
def boxStep (c : Setup) (s : State) : Option State :=
  match s.box with
  | .writing [] => some { s with box := .starting, open' := false }
  | .writing (b :: bs) =>
    if s.inward.length < c.capacity then some { s with box := .writing bs, inward := s.inward ++ [b] } else none
  | .starting => some { s with box := .waiting, shell := .reading [] }
  | .waiting =>
    match s.shell with
    | .exited r => some { s with box := .reading r [], copy := false }
    | _ => none
  | .reading r got =>
    match s.outward with
    | b :: bs => some { s with box := .reading r (got ++ [b]), outward := bs }
    | [] => if s.copy || s.helper then none else some { s with box := .done r got }
  | .done _ _ => none

/-- The program does something: handler 33-42, shell 47-57, 111-114, handler 22-30. -/
def shellStep (c : Setup) (s : State) : Option State :=
  match s.shell with
  | .absent => none
  | .reading got =>
    match s.inward with
    | b :: bs => some { s with shell := .reading (got ++ [b]), inward := bs }
    | [] => if s.open' then none else some { s with shell := .testing, seen := some got }
  | .testing =>
    match c.report with
    | none => some { s with shell := .exited c.status, helper := c.helper.isSome }
    | some r => some { s with shell := .writing r, helper := c.helper.isSome, reported := some r }
  | .writing [] => some { s with shell := .exited c.status, whole := true }
  | .writing (b :: bs) =>
    if s.outward.length < c.capacity then some { s with shell := .writing bs, outward := s.outward ++ [b] } else none
  | .exited _ => none

/-- The program is killed, by a signal or a crash. (ctrl 954) -/
def kill (r : Int) (s : State) : Option State :=
  match s.shell with
  | .absent | .exited _ => none
  | _ => some { s with shell := .exited r }

/-- A process that was left behind ends, if it does. (ctrl 954-957) -/
def helperStep (c : Setup) (s : State) : Option State :=
  if s.helper && (c.helper == some true) then some { s with helper := false } else none

/-- One turn; `none` if that process waits. (ctrl 947-960, shell 47-57, 111-114) -/
def step (c : Setup) (s : State) : Turn → Option State
  | .box => boxStep c s
  | .shell => shellStep c s
  | .helper => helperStep c s
  | .kill r => kill r s

/-- Many turns. (ctrl 947-960, shell 47-57, 111-114) -/
def exec (c : Setup) : List Turn → State → Option State
  | [], s => some s
  | t :: ts, s => (step c s t).bind (exec c ts)

/-- The encoding that plainbox reads with: that of the locale. (ctrl 958-959) -/
inductive Enc
  | utf8 | ascii
deriving DecidableEq

/-- `read` of a pipe that was opened as text; `none` is `UnicodeDecodeError`. (ctrl 958-959) -/
def Enc.decode : Enc → List Nat → Option Str
  | .utf8, bs => Stream.decode bs
  | .ascii, bs => if bs.all fun b => b < 128 then some (bs.map Char.ofNat) else none

/-- What the controller gives: the status, and what was read, if it is JSON; `none` if it raises `UnicodeDecodeError`. (ctrl
958-968) -/
def answer {J : Type} (loads : Str → Option J) (enc : Enc) (status : Int) (bytes : List Nat) : Option (Int × Option J) :=
  (enc.decode bytes).map fun t => (status, loads t)

end Verif.Qml
