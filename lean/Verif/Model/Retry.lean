import Verif.Model.RunLoop

/-! # Running jobs more than once

Models what an application can see when it considers jobs with `run_job` and `use_job_result`, any of them any number of
times (`plainbox/impl/session/assistant.py`, "assistant"), and the loop over `get_dynamic_todo_list`. One consideration is
`Session.considerJob`. -/

namespace Verif.Retry

open Verif.Session

variable {J I E R : Type} [DecidableEq J] [DecidableEq I] [DecidableEq E] [DecidableEq R]

/-- `job_state.can_start()` in `run_job`: is the command of the job run? (assistant 1292-1301) -/
def started (sem : Sem J I E R) (s : Session J I E R) (j : J) : Bool :=
  match s.states.lookup (sem.id j) with
  | none => false
  | some q => q.canStart

/-- The result that `run_job` makes: of the command, or of a job that cannot start. (assistant 1301-1369) -/
def outcomeOf (sem : Sem J I E R) (out : Session J I E R → J → Result R) (s : Session J I E R) (j : J) :
    Option (Result R) :=
  match s.states.lookup (sem.id j) with
  | none => none
  | some q =>
    if q.canStart then some (out s j)
    else
      match cannotStartOutcome sem (look s.states) j q.inhib with
      | .error _ => none
      | .ok o => some ⟨o, [], 1⟩

/-- What `run_job` and `use_job_result` did for each job until the first exception: was it started, and its result.
(assistant 1242-1422) -/
def trace (sem : Sem J I E R) (autoRetry : Bool) (out : Session J I E R → J → Result R) :
    Session J I E R → List J → List (J × Bool × Option (Result R))
  | _, [] => []
  | s, j :: js =>
    (j, started sem s j, outcomeOf sem out s j) ::
      match considerJob sem autoRetry out s j with
      | (_, some _) => []
      | (s', none) => trace sem autoRetry out s' js

/-- `get_dynamic_todo_list`, assistant 1201-1239. Every job of the run list has a state, C09. -/
def todo (sem : Sem J I E R) (s : Session J I E R) : List J :=
  s.runList.filter fun j => match look s.states (sem.id j) with
    | some (_, .none) => true
    | _ => false

/-- An application that considers the first job of `get_dynamic_todo_list` until the list is empty, at most `n` times.
(assistant 1201-1239) -/
def drain (sem : Sem J I E R) (autoRetry : Bool) (out : Session J I E R → J → Result R) :
    Nat → Session J I E R → Session J I E R × Option (Err J I)
  | 0, s => (s, none)
  | n + 1, s =>
    match todo sem s with
    | [] => (s, none)
    | j :: _ =>
      match considerJob sem autoRetry out s j with
      | (s', some x) => (s', some x)
      | (s', none) => drain sem autoRetry out n s'

end Verif.Retry
