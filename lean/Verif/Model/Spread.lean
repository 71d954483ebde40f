import Verif.Model.RunLoop

/-!
# Model of `run_job_if_possible`

The older way of running one job, applogic.py:51-80.  The runner is an arbitrary function of the session and the
job, as in `RunLoop`.
-/

namespace Verif.Session

variable {J I E R : Type} [DecidableEq J] [DecidableEq I] [DecidableEq E] [DecidableEq R]

/-- The loop over the inhibitors of a job that cannot start, applogic.py:65-72; `acc` is `outcome`. -/
def mirrorLoop (sem : Sem J I E R) (lk : I → Option (J × Outcome)) :
    List (Inhibitor J E) → Outcome → Except (Err J I) Outcome
  | [], acc => .ok acc
  | h :: hs, acc =>
    if h.cause ≠ .failedDep then mirrorLoop sem lk hs acc
    else
      match h.job with
      | none => .error .valueError
      | some rj =>
        match lk (sem.id rj) with
        | none => .error (.keyError (sem.id rj))
        | some (_, o) => mirrorLoop sem lk hs (if o = .skip then .skip else acc)

/-- `run_job_if_possible`, applogic.py:51-80: the session afterwards, the exception if there is one, and the
result that is returned.  The comments of a result made for a job that cannot start are the token `1`. -/
def ifPossible (sem : Sem J I E R) (update : Bool) (out : Session J I E R → J → Result R) (s : Session J I E R)
    (j : J) : (Session J I E R × Option (Err J I)) × Option (Result R) :=
  match s.states.lookup (sem.id j) with
  | none => ((s, some (.keyError (sem.id j))), none)
  | some q =>
    match (if q.canStart then .ok (out s j)
      else (mirrorLoop sem (look s.states) q.inhib .notSupported).map fun o => (⟨o, [], 1⟩ : Result R)) with
    | .error x => ((s, some x), none)
    | .ok r =>
      if update then
        match updateResult sem s j r with
        | (s', some x) => ((s', some x), none)
        | (s', none) => ((s', none), some r)
      else ((s, none), some r)

end Verif.Session
