import Verif.Model.Session

/-!
# Model of `plainbox/impl/session/suspend.py` (format 6) and `plainbox/impl/session/resume.py`

The document is modelled as the tree of values that `_repr_SessionState` returns; JSON text, UTF-8
and gzip around it (suspend.py:131-141, resume.py:134-156) are not modelled here.  The conversion
of one result to its representation and back is a parameter (`Fmt.write`, `Fmt.read`) of this file;
it is modelled in `Verif/Model/ResumeJson.lean`.  Metadata (suspend.py:213-243,
resume.py:361-441) does not influence jobs, results and selection and is left out.
`early_cb` (resume.py:656-662) is `None`.
-/

namespace Verif.Suspend

open Verif.Session

/-- What the format needs from jobs and results: `job.checksum` (unit.py:793-847),
`_repr_JobResult` (suspend.py:245-253) and `_build_JobResult` (resume.py:884-939), where `none`
stands for `CorruptedSessionError` or `BrokenReferenceToExternalFile`. -/
structure Fmt (J R C W : Type) where
  cks : J → C
  write : Result R → W
  read : W → Option (Result R)

/-- The value of key `session` of the document, suspend.py:628-648. -/
structure Doc (I C W : Type) where
  jobs : List (I × C)
  results : List (I × List W)
  desired : List I
  mandatory : List I
deriving DecidableEq, Repr

/-- Exceptions of resume: the documented ones (resume.py:80-121) and whatever the session raises. -/
inductive Err (J I : Type) where
  | corrupted
  | incompatibleJob (i : I)
  | session (e : Session.Err J I)
  | diverges
deriving DecidableEq, Repr

variable {J I E R C W : Type} [DecidableEq J] [DecidableEq I] [DecidableEq E] [DecidableEq R]
  [DecidableEq C]

/-- `SessionSuspendHelper6._repr_SessionState`, suspend.py:589-648. -/
def suspend (f : Fmt J R C W) (sem : Sem J I E R) (s : Session J I E R) : Doc I C W where
  jobs := (s.states.filter fun p =>
      !p.2.result.isHollow || decide (sem.id p.2.job ∈ s.runList.map sem.id)).map
    fun p => (sem.id p.2.job, f.cks p.2.job)
  results := (s.states.filter fun p => decide (0 < p.2.history.length)).map
    fun p => (sem.id p.2.job, p.2.history.map f.write)
  desired := s.desired.map sem.id
  mandatory := s.mandatory.map sem.id

/-- What processing one job ends with: normal return, `KeyError`, another exception. (resume.py:734-786) -/
inductive Step (J I E R : Type) where
  | done (s : Session J I E R)
  | keyError (s : Session J I E R)
  | raised (e : Err J I)

/-- Replay loop of `_process_job`, resume.py:783-786. -/
def replay (sem : Sem J I E R) (j : J) : List (Result R) → Session J I E R → Step J I E R
  | [], s => .done s
  | r :: rs, s =>
    match updateResult sem s j r with
    | (s', none) => replay sem j rs s'
    | (s', some (.keyError _)) => .keyError s'
    | (_, some e) => .raised (.session e)

/-- Rebuilding the result objects, resume.py:774-781. -/
def readAll (f : Fmt J R C W) : List W → Option (List (Result R))
  | [] => some []
  | w :: ws =>
    match f.read w with
    | none => none
    | some r =>
      match readAll f ws with
      | none => none
      | some rs => some (r :: rs)

/-- `_process_job`, resume.py:734-786, without `FLAG_IGNORE_JOB_CHECKSUMS_F`. -/
def processJob (f : Fmt J R C W) (sem : Sem J I E R) (d : Doc I C W) (s : Session J I E R) (i : I) :
    Step J I E R :=
  match d.jobs.lookup i with
  | none => .raised .corrupted
  | some c =>
    match s.states.lookup i with
    | none => .keyError s
    | some q =>
      if f.cks q.job ≠ c then .raised (.incompatibleJob i)
      else
        match d.results.lookup (sem.id q.job) with
        | none => .done s
        | some ws =>
          match readAll f ws with
          | none => .raised .corrupted
          | some rs => replay sem q.job rs s

/-- One pass over a list of job ids: the first pass (resume.py:700-704) and one round of the
leftover loop (resume.py:714-726); the last component lists the ids that raised `KeyError`. -/
def pass (f : Fmt J R C W) (sem : Sem J I E R) (d : Doc I C W) :
    List I → Session J I E R → Except (Err J I) (Session J I E R × List I)
  | [], s => .ok (s, [])
  | i :: is, s =>
    match processJob f sem d s i with
    | .raised e => .error e
    | .done s' => pass f sem d is s'
    | .keyError s' =>
      match pass f sem d is s' with
      | .error e => .error e
      | .ok (s'', left) => .ok (s'', i :: left)

/-- The leftover loop, resume.py:705-732: rounds until nothing is left; a round in which the list
does not shrink means that the session is corrupted. -/
def rounds (f : Fmt J R C W) (sem : Sem J I E R) (d : Doc I C W) :
    Nat → List I → Session J I E R → Except (Err J I) (Session J I E R)
  | _, [], s => .ok s
  | 0, _ :: _, _ => .error .diverges
  | n + 1, left, s =>
    match pass f sem d left s with
    | .error e => .error e
    | .ok (s', left') =>
      if left'.length < left.length then rounds f sem d n left' s' else .error .corrupted

/-- `[session.add_unit(u) for u in self.job_list if u.Meta.name == 'job']`, resume.py:693. -/
def addBase (sem : Sem J I E R) : List J → Session J I E R → Except (Err J I) (Session J I E R)
  | [], s => .ok s
  | j :: js, s =>
    match addUnit sem s j with
    | (s', none) => addBase sem js s'
    | (_, some e) => .error (.session e)

/-- `_restore_SessionState_jobs_and_results`, resume.py:675-732.  `sortIds` is
`sorted(set(a) | set(b))` given the two lists of keys. -/
def restoreResults (f : Fmt J R C W) (sem : Sem J I E R) (sortIds : List I → List I)
    (base : List J) (d : Doc I C W) (s : Session J I E R) : Except (Err J I) (Session J I E R) :=
  match addBase sem base s with
  | .error e => .error e
  | .ok s1 =>
    match pass f sem d (sortIds (d.jobs.map Prod.fst ++ d.results.map Prod.fst)) s1 with
    | .error e => .error e
    | .ok (s2, left) => rounds f sem d left.length left s2

/-- `[session.job_state_map[job_id].job for job_id in ...]`, resume.py:812-813, 841-842. -/
def lookupJobs (s : Session J I E R) : List I → Option (List J)
  | [] => some []
  | i :: is =>
    match s.states.lookup i with
    | none => none
    | some q =>
      match lookupJobs s is with
      | none => none
      | some l => some (q.job :: l)

/-- `_restore_SessionState_mandatory_job_list`, resume.py:820-846. -/
def restoreMandatory (d : Doc I C W) (s : Session J I E R) :
    Except (Err J I) (Session J I E R) :=
  match lookupJobs s d.mandatory with
  | none => .error .corrupted
  | some l => .ok (updateMandatory s l)

/-- `_restore_SessionState_desired_job_list`, resume.py:789-817: a `KeyError` from
`update_desired_job_list` itself is also turned into `CorruptedSessionError`. -/
def restoreDesired (sem : Sem J I E R) (d : Doc I C W) (s : Session J I E R) :
    Except (Err J I) (Session J I E R) :=
  match lookupJobs s d.desired with
  | none => .error .corrupted
  | some l =>
    let r := updateDesired sem s l true
    match r.2.2 with
    | none => .ok r.1
    | some (.keyError _) => .error .corrupted
    | some e => .error (.session e)

/-- `_restore_SessionState_job_list`, resume.py:849-881 with `ResumeDiscardQualifier`,
resume.py:337-358. -/
def restoreJobList (sem : Sem J I E R) (d : Doc I C W) (s : Session J I E R) :
    Except (Err J I) (Session J I E R) :=
  let retain := s.runList.map sem.id ++ d.jobs.map Prod.fst
  match trim sem s (fun j => decide (sem.id j ∉ retain)) with
  | (s', none) => .ok s'
  | (_, some e) => .error (.session e)

/-- `SessionResumeHelper6._build_SessionState`, resume.py:1085-1121. -/
def resume (f : Fmt J R C W) (sem : Sem J I E R) (sortIds : List I → List I) (base : List J)
    (d : Doc I C W) : Except (Err J I) (Session J I E R) :=
  match construct sem base with
  | .error e => .error (.session e)
  | .ok s0 =>
    match restoreResults f sem sortIds base d s0 with
    | .error e => .error e
    | .ok s1 =>
      match restoreMandatory d s1 with
      | .error e => .error e
      | .ok s2 =>
        match restoreDesired sem d s2 with
        | .error e => .error e
        | .ok s3 => restoreJobList sem d s3

/-- `n` times suspend and resume against the same jobs. (suspend.py:114-164, resume.py:266-334) -/
def cycles (f : Fmt J R C W) (sem : Sem J I E R) (sortIds : List I → List I) (base : List J) :
    Nat → Session J I E R → Except (Err J I) (Session J I E R)
  | 0, s => .ok s
  | n + 1, s =>
    match resume f sem sortIds base (suspend f sem s) with
    | .error e => .error e
    | .ok s' => cycles f sem sortIds base n s'

end Verif.Suspend
