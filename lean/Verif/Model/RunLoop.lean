import Verif.Model.Session

/-!
# Model of an application that runs the to-do list in order

`SessionAssistant.run_job` and `use_job_result`, session/assistant.py:1242-1422, reduced to what
they do to the session state.  The execution of a command is an arbitrary function of the session
and the job; checkpoints, restart strategies and the user interface are not modelled.
-/

namespace Verif.Session

variable {J I E R : Type} [DecidableEq J] [DecidableEq I] [DecidableEq E] [DecidableEq R]

/-- `update_job_result` and the auto-retry accounting of `use_job_result`,
session/assistant.py:1402-1411. -/
def useJobResult (sem : Sem J I E R) (autoRetry : Bool) (s : Session J I E R) (j : J)
    (r : Result R) : Session J I E R × Option (Err J I) :=
  match updateResult sem s j r with
  | (s', some x) => (s', some x)
  | (s', none) => if autoRetry then (useAttempt s' (sem.id j), none) else (s', none)

/-- `run_job` followed by `use_job_result` on its result, session/assistant.py:1286-1422.  The
comments of a result made for a job that cannot start are the token `1`. -/
def considerJob (sem : Sem J I E R) (autoRetry : Bool)
    (out : Session J I E R → J → Result R) (s : Session J I E R) (j : J) :
    Session J I E R × Option (Err J I) :=
  match s.states.lookup (sem.id j) with
  | none => (s, some (.keyError (sem.id j)))
  | some q =>
    if q.canStart then useJobResult sem autoRetry s j (out s j)
    else
      match cannotStartOutcome sem (look s.states) j q.inhib with
      | .error x => (s, some x)
      | .ok o => useJobResult sem autoRetry s j ⟨o, [], 1⟩

/-- An application loop over a list of jobs obtained from `get_static_todo_list`,
session/assistant.py:1176-1199. -/
def runJobs (sem : Sem J I E R) (autoRetry : Bool) (out : Session J I E R → J → Result R) :
    Session J I E R → List J → Session J I E R × Option (Err J I)
  | s, [] => (s, none)
  | s, j :: js =>
    match considerJob sem autoRetry out s j with
    | (s', some x) => (s', some x)
    | (s', none) => runJobs sem autoRetry out s' js

end Verif.Session
