import Verif.Model.Suspend
import Verif.Model.Peek

/-! # A session saved as a JSON value and resumed from it

Puts together what is written for one result (`Verif/Model/ResumeJson.lean`) and for the meta-data
(`Verif/Model/Peek.lean`) into the whole document that `plainbox/impl/session/suspend.py` ("suspend") writes in
format 6, and resumes from that value (`plainbox/impl/session/resume.py`, "resume").

Simplified: the session model keeps of a result its outcome, its records and a token for everything else; which result
object it stands for is a parameter (`real`). The keys of an object stand in the order in which they are written, not
sorted (`sort_keys=True`, suspend 134). JSON text, UTF-8 and gzip are not modelled: the value that is read is the value
that was written. The session directory is always given. -/

namespace Verif.SuspendJson

open Verif.Session
open Verif.ResumeJson (Str Json JRes Cfg Exc writeRes)

attribute [-instance] List.instBEq

variable {J E R : Type}

/-- `SessionSuspendHelper6._repr_SessionState` within `_json_repr`, suspend 142-164 and 589-648. -/
def document (cks : J → Str) (real : Result R → JRes) (sorted : List Str → List Str) (dir : Str)
    (sem : Sem J Str E R) (m : Peek.Meta) (s : Session J Str E R) : Json :=
  let runIds := s.runList.map sem.id
  Peek.writeDoc sorted 6
    (.obj ((s.states.filter fun p => !p.2.result.isHollow || decide (sem.id p.2.job ∈ runIds)).map
      fun p => (sem.id p.2.job, .str (cks p.2.job))))
    (.obj ((s.states.filter fun p => decide (0 < p.2.history.length)).map
      fun p => (sem.id p.2.job, .arr (p.2.history.map fun r => writeRes dir (real r)))))
    (.arr (s.desired.map fun j => .str (sem.id j)))
    (.arr (s.mandatory.map fun j => .str (sem.id j))) m

variable [DecidableEq J] [DecidableEq E] [DecidableEq R]

/-- Suspending and resuming against the same jobs once for each element of the list, which says what the meta-data is
at that time. (suspend 114-164, resume 266-334) -/
def cycles (c : Cfg J R) (real : Result R → JRes) (sorted sortIds : List Str → List Str) (dir : Str)
    (sem : Sem J Str E R) (base : List J) :
    List Peek.Meta → Session J Str E R → Except (Exc J) (Session J Str E R)
  | [], s => .ok s
  | m :: ms, s =>
    match ResumeJson.resume c sem sortIds base (.json (document c.cks real sorted dir sem m s)) with
    | .error e => .error e
    | .ok s' => cycles c real sorted sortIds dir sem base ms s'

end Verif.SuspendJson
