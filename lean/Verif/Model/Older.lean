import Verif.Model.Suspend

/-!
# Model of the older formats of saved sessions

`plainbox/impl/session/suspend.py` has one writer and `plainbox/impl/session/resume.py` one reader
per format, 1 to 6.  Format 6 is modelled in `Verif/Model/Suspend.lean`; the formats differ from it
in what the writer puts into the document and in what the reader takes from it.  Left out here as
there: the text around the document, metadata, file names of logs and `early_cb`.
-/

namespace Verif.Older

open Verif.Session
open Verif.Suspend (Fmt Doc)

variable {J I E R C W : Type} [DecidableEq J] [DecidableEq I] [DecidableEq E] [DecidableEq R]
  [DecidableEq C]

/-- `SessionSuspendHelper1._repr_SessionState`, suspend.py:166-215; formats 2 and 3 inherit it. -/
def suspendEarly (f : Fmt J R C W) (sem : Sem J I E R) (s : Session J I E R) : Doc I C W where
  jobs := s.states.map fun p => (sem.id p.2.job, f.cks p.2.job)
  results := s.states.map fun p => (sem.id p.2.job, [f.write p.2.result])
  desired := s.desired.map sem.id
  mandatory := s.mandatory.map sem.id

/-- `SessionSuspendHelper4._repr_SessionState`, suspend.py:476-535; format 5 inherits it. -/
def suspendMiddle (f : Fmt J R C W) (sem : Sem J I E R) (s : Session J I E R) : Doc I C W where
  jobs := (s.states.filter fun p =>
      !p.2.result.isHollow || decide (sem.id p.2.job ∈ s.runList.map sem.id)).map
    fun p => (sem.id p.2.job, f.cks p.2.job)
  results := (s.states.filter fun p => decide (0 < p.2.history.length)).map
    fun p => (sem.id p.2.job, p.2.history.map f.write)
  desired := s.desired.map sem.id
  mandatory := s.mandatory.map sem.id

/-- The writer of a format: `VERSION` and `_repr_SessionState` of `SessionSuspendHelper1` to
`SessionSuspendHelper6`, suspend.py:100-648; `none` where there is no such class. -/
def suspendAs (f : Fmt J R C W) (sem : Sem J I E R) (version : Nat) (s : Session J I E R) :
    Option (Nat × Doc I C W) :=
  if version = 1 ∨ version = 2 ∨ version = 3 then some (version, suspendEarly f sem s)
  else if version = 4 ∨ version = 5 then some (version, suspendMiddle f sem s)
  else if version = 6 then some (version, Suspend.suspend f sem s)
  else none

/-- `SessionResumeHelper1._build_SessionState`, resume.py:639-673; formats 2 to 5 inherit it. -/
def resumeEarly (f : Fmt J R C W) (sem : Sem J I E R) (sortIds : List I → List I) (base : List J)
    (d : Doc I C W) : Except (Suspend.Err J I) (Session J I E R) :=
  match construct sem base with
  | .error e => .error (.session e)
  | .ok s0 =>
    match Suspend.restoreResults f sem sortIds base d s0 with
    | .error e => .error e
    | .ok s1 =>
      match Suspend.restoreDesired sem d s1 with
      | .error e => .error e
      | .ok s2 => Suspend.restoreJobList sem d s2

/-- What resuming a file ends with: `IncompatibleSessionError` for an unknown version
(resume.py:331-333), another error, or a session. -/
inductive Outcome (J I E R : Type) where
  | unsupported (version : Nat)
  | failed (e : Suspend.Err J I)
  | session (s : Session J I E R)

/-- `_resume_json`, resume.py:301-334: the reader goes by the version in the file.  (The argument
`choice` given to `_validate` there is not one it knows and has no effect.) -/
def resumeAny (f : Fmt J R C W) (sem : Sem J I E R) (sortIds : List I → List I) (base : List J)
    (file : Nat × Doc I C W) : Outcome J I E R :=
  let done : Except (Suspend.Err J I) (Session J I E R) → Outcome J I E R
    | .error e => .failed e
    | .ok s => .session s
  if file.1 = 1 then done (resumeEarly f sem sortIds base file.2)
  else if file.1 = 2 then done (resumeEarly f sem sortIds base file.2)
  else if file.1 = 3 then done (resumeEarly f sem sortIds base file.2)
  else if file.1 = 4 then done (resumeEarly f sem sortIds base file.2)
  else if file.1 = 5 then done (resumeEarly f sem sortIds base file.2)
  else if file.1 = 6 then done (Suspend.resume f sem sortIds base file.2)
  else .unsupported file.1

end Verif.Older
