import Verif.Model.Session
import Verif.Model.IOLog

/-!
# Resuming from an arbitrary document

Models `plainbox/impl/session/resume.py` down to the JSON value (all six formats) and the part of
`plainbox/impl/session/suspend.py` that writes one result.

Simplifications: gzip, UTF-8 and the JSON parser are represented by their possible outcomes
(`Envelope`); a float is a token with its sign and, if it is whole, its value; `early_cb` is `None`;
base64 text that is not made of complete groups is refused (CPython skips foreign characters);
paths are absolute and normalised when `os.path.relpath` sees them; the pattern replacement of
`_rewrite_pathname` is a parameter.
-/

namespace Verif.ResumeJson

open Verif.Session

/-- Strings of the document (resume.py:301-334). -/
abbrev Str := List Char

-- Strings are compared with their decidable equality, as in the session model.
attribute [-instance] List.instBEq

/-! ## JSON values and `_validate` -/

/-- A Python float, see above. (resume.py:884-939, 951-975) -/
structure Fl where
  neg : Bool
  tok : Str
  whole : Option Int
deriving DecidableEq, Repr

/-- What `json.loads` returns. (resume.py:301-334) -/
inductive Json where
  | null
  | bool (b : Bool)
  | int (n : Int)
  | float (x : Fl)
  | str (s : Str)
  | arr (l : List Json)
  | obj (l : List (Str × Json))

/-- The types used with `value_type`. (resume.py:1124-1165) -/
inductive PyType where
  | str | int | float | list | dict
deriving DecidableEq, Repr

/-- `isinstance(value, value_type)`, resume.py:1149; a Boolean is an `int`. -/
def isInstance : Json → PyType → Bool
  | .str _, .str => true
  | .int _, .int => true
  | .bool _, .int => true
  | .float _, .float => true
  | .arr _, .list => true
  | .obj _, .dict => true
  | _, _ => false

/-- Exceptions: the documented ones (resume.py:70-121) and the ones of the operations used. -/
inductive Exc (J : Type) where
  | corrupted
  | incompatibleSession
  | incompatibleJob
  | brokenReference
  | typeError
  | valueError
  | eofError
  | zlibError
  | logError
  | session (e : Session.Err J Str)
  | diverges
deriving DecidableEq, Repr

variable {J E R : Type}

/-- `_validate` without `key` and without `value_choice`, resume.py:1124-1165. -/
def validate (v : Json) (ty : PyType) (none : Bool) : Except (Exc J) Json :=
  match v with
  | .null => if none then .ok .null else .error .corrupted
  | v => if isInstance v ty then .ok v else .error .corrupted

/-- `obj[key]` in `_validate`, resume.py:1129-1136: a missing key or an object that cannot be
subscripted with a string is a corrupted session. -/
def item (o : Json) (key : Str) : Except (Exc J) Json :=
  match o with
  | .obj l =>
    match l.lookup key with
    | some v => .ok v
    | none => .error .corrupted
  | _ => .error .corrupted

/-- `_validate(obj, key=key, value_type=ty, value_none=none)`. (resume.py:1124-1165) -/
def validateKey (o : Json) (key : Str) (ty : PyType) (none : Bool) : Except (Exc J) Json :=
  match item o key with
  | .error e => .error e
  | .ok v => validate v ty none

/-- `_validate(lst, key=i, value_type=ty)` for a list, resume.py:1129-1136. -/
def validateIdx (l : List Json) (i : Nat) (ty : PyType) : Except (Exc J) Json :=
  match l[i]? with
  | none => .error .corrupted
  | some v => validate v ty false

/-- Content of a value that was validated as a string. (resume.py:884-939) -/
def strOf : Json → Option Str
  | .str s => some s
  | _ => none

/-- Content of a value that was validated as an integer (`True` is 1). (validation: resume.py 1124-1165) -/
def intOf : Json → Option Int
  | .int n => some n
  | .bool b => some (if b then 1 else 0)
  | _ => none

/-- Content of a value that was validated as a list. (resume.py:789-817, 884-939) -/
def listOf : Json → List Json
  | .arr l => l
  | _ => []

/-- Content of a value that was validated as a dictionary. (resume.py:675-732) -/
def objOf : Json → List (Str × Json)
  | .obj l => l
  | _ => []

/-! ## Results -/

/-- A number as Python keeps it. (resume.py:951-975, suspend.py:336-354) -/
inductive Num where
  | int (n : Int)
  | fl (x : Fl)
deriving DecidableEq, Repr

/-- One record of a log in memory: delay, stream name, data. (resume.py:951-975) -/
structure LogRec where
  delay : Num
  stream : Str
  data : List (Fin 256)
deriving DecidableEq, Repr

/-- Where a result keeps its log: `MemoryJobResult` or `DiskJobResult`, result.py:442-506. -/
inductive Log where
  | mem (l : List LogRec)
  | disk (name : Str)
deriving DecidableEq, Repr

/-- The attributes of a result that are saved, result.py:264-365. -/
structure JRes where
  outcome : Outcome
  comments : Option Str
  returnCode : Option Int
  duration : Option Num
  log : Log
deriving DecidableEq, Repr

/-- `OUTCOME_METADATA_MAP` keys other than `None`, result.py:113-186 and abc.py:195-219. -/
def outcomeNames : List (Str × Outcome) :=
  [("pass".toList, .pass), ("fail".toList, .fail), ("skip".toList, .skip),
   ("not-supported".toList, .notSupported), ("not-implemented".toList, .notImplemented),
   ("undecided".toList, .undecided), ("crash".toList, .crash)]

/-- The string of an outcome, `None` for `OUTCOME_NONE`. (suspend.py:257-289) -/
def outcomeJson (o : Outcome) : Json :=
  match outcomeNames.find? (fun p => p.2 == o) with
  | some p => .str p.1
  | none => .null

/-- One match of `ANSI_ESCAPE_SEQ_RE_STR` (result.py:65) at the start of a text: the text after
it. -/
def ansiMatch (s : Str) : Option Str :=
  let body : Option Str := match s with
    | c :: r => if c.toNat = 0x9b then some r else
        match r with
        | d :: r' => if c.toNat = 0x1b ∧ d = '[' then some r' else none
        | [] => none
    | [] => none
  match body with
  | none => none
  | some b =>
    let b1 := b.dropWhile fun c => 0x30 ≤ c.toNat && c.toNat ≤ 0x3f
    let b2 := b1.dropWhile fun c => 0x20 ≤ c.toNat && c.toNat ≤ 0x2f
    match b2 with
    | c :: r => if 0x40 ≤ c.toNat ∧ c.toNat ≤ 0x7e then some r else none
    | [] => none

/-- `ANSI_ESCAPE_SEQ_RE_STR.sub('', text)`, result.py:356. -/
def sanitizeF : Nat → Str → Str
  | 0, _ => []
  | _, [] => []
  | n + 1, c :: r =>
    match ansiMatch (c :: r) with
    | some rest => sanitizeF n rest
    | none => c :: sanitizeF n r

/-- The `comments` property, result.py:345-357. -/
def sanitize (s : Str) : Str := sanitizeF s.length s

/-- Components of a path. Standard library; used in suspend.py:552-572. -/
def splitPath : Str → List Str
  | [] => [[]]
  | c :: r =>
    if c = '/' then [] :: splitPath r
    else
      match splitPath r with
      | [] => [[c]]
      | w :: ws => (c :: w) :: ws

/-- Components as `os.path.relpath` uses them (`if x`). Standard library; used in suspend.py:552-572. -/
def comps (s : Str) : List Str := (splitPath s).filter fun w => !w.isEmpty

/-- `'/'.join(...)`. (suspend.py:552-572) -/
def joinSlash : List Str → Str
  | [] => []
  | [w] => w
  | w :: ws => w ++ '/' :: joinSlash ws

/-- Length of `os.path.commonprefix` of two lists of components. Standard library; used in suspend.py:552-572. -/
def commonLen : List Str → List Str → Nat
  | a :: as, b :: bs => if a = b then commonLen as bs + 1 else 0
  | _, _ => 0

/-- `os.path.relpath(name, dir)`, used at suspend.py:568-569. -/
def relpath (name dir : Str) : Str :=
  let a := comps dir
  let b := comps name
  let i := commonLen a b
  let parts := List.replicate (a.length - i) ['.', '.'] ++ b.drop i
  if parts = [] then ['.'] else joinSlash parts

/-- `os.path.join(a, b)`, used at resume.py:1064. -/
def pathJoin (a b : Str) : Str :=
  if b.head? = some '/' then b
  else if a = [] ∨ a.getLast? = some '/' then a ++ b
  else a ++ '/' :: b

/-- A number in JSON. (suspend.py:257-289, 336-354) -/
def numJson : Num → Json
  | .int n => .int n
  | .fl x => .float x

/-- `_repr_IOLogRecord`, suspend.py:336-357. -/
def writeRec (r : LogRec) : Json :=
  .arr [numJson r.delay, .str r.stream, .str (IOLog.b64enc r.data)]

/-- `None` or a value. (suspend.py:257-289) -/
def optJson {α : Type} (f : α → Json) : Option α → Json
  | none => .null
  | some a => f a

/-- The log of a result, suspend.py:300-334 and 556-570 (format 5 and later, with a session
directory). -/
def logFields (dir : Str) : Log → List (Str × Json)
  | .mem l => [("io_log".toList, .arr (l.map writeRec))]
  | .disk name => [("io_log_filename".toList, .str (relpath name dir))]

/-- `_repr_JobResult`, suspend.py:245-334. -/
def writeRes (dir : Str) (r : JRes) : Json :=
  .obj ([("outcome".toList, outcomeJson r.outcome),
         ("execution_duration".toList, optJson numJson r.duration),
         ("comments".toList, optJson (fun c => .str (sanitize c)) r.comments),
         ("return_code".toList, optJson .int r.returnCode)] ++ logFields dir r.log)

/-- What resuming is called with: `job.checksum`, reading the records out of a log (`none`: the
log file cannot be read), the token for everything else in a result, the file system, flags,
`_rewrite_pathname` (resume.py:945-948) and the location. -/
structure Cfg (J R : Type) where
  cks : J → Str
  records : JRes → Option (List R)
  extra : JRes → Nat
  isfile : Str → Bool
  checkFiles : Bool
  rewritePaths : Bool
  ignoreChecksums : Bool
  rewrite : Str → Str → Str
  location : Option Str

/-- `_load_io_log_filename`, resume.py:941-943 and 1057-1064 (format 5 and later). -/
def loadFilename (c : Cfg J R) (version : Nat) (o : Json) : Except (Exc J) Str :=
  match validateKey o "io_log_filename".toList .str false with
  | .error e => .error e
  | .ok v =>
    let name := (strOf v).getD []
    if version < 5 then .ok name
    else if name.head? = some '/' then .ok name
    else
      match c.location with
      | none => .error .valueError
      | some loc => .ok (pathJoin loc name)

/-- The checks of the log file, resume.py:908-922. -/
def checkFilename (c : Cfg J R) (name : Str) : Except (Exc J) Str :=
  let step1 : Except (Exc J) Str :=
    if c.checkFiles && !c.isfile name && c.rewritePaths then
      match c.location with
      | none => .error .typeError
      | some loc => .ok (c.rewrite name loc)
    else .ok name
  match step1 with
  | .error e => .error e
  | .ok name =>
    if c.checkFiles && !c.isfile name then .error .brokenReference else .ok name

/-- `_build_IOLogRecord`, resume.py:950-975. -/
def buildRec (v : Json) : Except (Exc J) LogRec :=
  match validate v .list false with
  | .error e => .error e
  | .ok v =>
    match validateIdx (listOf v) 0 .float with
    | .error e => .error e
    | .ok d =>
      match d with
      | .float x =>
        if x.neg then .error .corrupted
        else
          match validateIdx (listOf v) 1 .str with
          | .error e => .error e
          | .ok st =>
            let st := (strOf st).getD []
            if st ≠ "stdout".toList ∧ st ≠ "stderr".toList then .error .corrupted
            else
              match validateIdx (listOf v) 2 .str with
              | .error e => .error e
              | .ok data =>
                match IOLog.b64dec ((strOf data).getD []) with
                | none => .error .corrupted
                | some bs => .ok ⟨.fl x, st, bs⟩
      | _ => .error .corrupted

/-- List comprehension of records, resume.py:931-934. -/
def buildRecs : List Json → Except (Exc J) (List LogRec)
  | [] => .ok []
  | v :: vs =>
    match buildRec v with
    | .error e => .error e
    | .ok r =>
      match buildRecs vs with
      | .error e => .error e
      | .ok rs => .ok (r :: rs)

/-- The outcome of a result, resume.py:892-897. -/
def buildOutcome (o : Json) : Except (Exc J) Outcome :=
  match validateKey o "outcome".toList .str true with
  | .error e => .error e
  | .ok v =>
    match strOf v with
    | none => .ok .none
    | some s =>
      match outcomeNames.lookup s with
      | some oc => .ok oc
      | none => .error .corrupted

/-- Content of a value that was validated as a float. (resume.py:884-939) -/
def durationOf : Json → Option Num
  | .float x => some (.fl x)
  | _ => none

/-- `_build_JobResult`, resume.py:884-939, after `_validate(result_repr, value_type=dict)` of
resume.py:777. -/
def buildRes (c : Cfg J R) (version : Nat) (o : Json) : Except (Exc J) JRes :=
  match buildOutcome o with
  | .error e => .error e
  | .ok oc =>
    match validateKey o "comments".toList .str true with
    | .error e => .error e
    | .ok cm =>
      match validateKey o "return_code".toList .int true with
      | .error e => .error e
      | .ok rc =>
        match validateKey o "execution_duration".toList .float true with
        | .error e => .error e
        | .ok du =>
          let dur := durationOf du
          if ((objOf o).lookup "io_log_filename".toList).isSome then
            match loadFilename c version o with
            | .error e => .error e
            | .ok name =>
              match checkFilename c name with
              | .error e => .error e
              | .ok name => .ok ⟨oc, strOf cm, intOf rc, dur, .disk name⟩
          else
            match validateKey o "io_log".toList .list false with
            | .error e => .error e
            | .ok l =>
              match buildRecs (listOf l) with
              | .error e => .error e
              | .ok rs => .ok ⟨oc, strOf cm, intOf rc, dur, .mem rs⟩

/-! ## The session -/

variable [DecidableEq J] [DecidableEq E] [DecidableEq R]

/-- Rebuilding the results of one job, resume.py:776-781. -/
def buildAll (c : Cfg J R) (version : Nat) : List Json → Except (Exc J) (List JRes)
  | [] => .ok []
  | v :: vs =>
    match validate v .dict false with
    | .error e => .error e
    | .ok o =>
      match buildRes c version o with
      | .error e => .error e
      | .ok r =>
        match buildAll c version vs with
        | .error e => .error e
        | .ok rs => .ok (r :: rs)

/-- A result as the session sees it. (resume.py:884-939) -/
def toResult (c : Cfg J R) (r : JRes) : Result R := ⟨r.outcome, (c.records r).getD [], c.extra r⟩

/-- What processing one job ends with. (resume.py:734-786) -/
inductive Step (J E R : Type) where
  | done (s : Session J Str E R)
  | keyError (s : Session J Str E R)
  | raised (e : Exc J)

/-- The replay loop, resume.py:783-786; the log of a resource job is read while it is replayed
(ctrl.py:269-282). -/
def replay (c : Cfg J R) (sem : Sem J Str E R) (j : J) :
    List JRes → Session J Str E R → Step J E R
  | [], s => .done s
  | r :: rs, s =>
    if sem.isResource j && decide (r.outcome ≠ .none) && (c.records r).isNone then .raised .logError
    else
      match updateResult sem s j (toResult c r) with
      | (s', none) => replay c sem j rs s'
      | (s', some (.keyError _)) => .keyError s'
      | (_, some e) => .raised (.session e)

/-- `_process_job`, resume.py:734-786. -/
def processJob (c : Cfg J R) (sem : Sem J Str E R) (version : Nat) (jobs results : Json)
    (s : Session J Str E R) (i : Str) : Step J E R :=
  match validateKey jobs i .str false with
  | .error e => .raised e
  | .ok ck =>
    match s.states.lookup i with
    | none => .keyError s
    | some q =>
      if decide (some (c.cks q.job) ≠ strOf ck) && !c.ignoreChecksums then .raised .incompatibleJob
      else if ((objOf results).lookup (sem.id q.job)).isNone then .done s
      else
        match validateKey results i .list true with
        | .error e => .raised e
        | .ok v =>
          match v with
          | .null => .raised .typeError
          | v =>
            match buildAll c version (listOf v) with
            | .error e => .raised e
            | .ok rs => replay c sem q.job rs s

/-- One pass over a list of job ids, resume.py:700-704 and 714-726. -/
def pass (c : Cfg J R) (sem : Sem J Str E R) (version : Nat) (jobs results : Json) :
    List Str → Session J Str E R → Except (Exc J) (Session J Str E R × List Str)
  | [], s => .ok (s, [])
  | i :: is, s =>
    match processJob c sem version jobs results s i with
    | .raised e => .error e
    | .done s' => pass c sem version jobs results is s'
    | .keyError s' =>
      match pass c sem version jobs results is s' with
      | .error e => .error e
      | .ok (s'', left) => .ok (s'', i :: left)

/-- The leftover loop, resume.py:705-732. -/
def rounds (c : Cfg J R) (sem : Sem J Str E R) (version : Nat) (jobs results : Json) :
    Nat → List Str → Session J Str E R → Except (Exc J) (Session J Str E R)
  | _, [], s => .ok s
  | 0, _ :: _, _ => .error .diverges
  | n + 1, left, s =>
    match pass c sem version jobs results left s with
    | .error e => .error e
    | .ok (s', left') =>
      if left'.length < left.length then rounds c sem version jobs results n left' s'
      else .error .corrupted

/-- `[session.add_unit(u) for u in self.job_list ...]`, resume.py:693. -/
def addBase (sem : Sem J Str E R) :
    List J → Session J Str E R → Except (Exc J) (Session J Str E R)
  | [], s => .ok s
  | j :: js, s =>
    match addUnit sem s j with
    | (s', none) => addBase sem js s'
    | (_, some e) => .error (.session e)

/-- `_restore_SessionState_jobs_and_results`, resume.py:675-732. -/
def restoreResults (c : Cfg J R) (sem : Sem J Str E R) (sortIds : List Str → List Str)
    (version : Nat) (base : List J) (sr : Json) (s : Session J Str E R) :
    Except (Exc J) (Session J Str E R) :=
  match validateKey sr "jobs".toList .dict false with
  | .error e => .error e
  | .ok jobs =>
    match validateKey sr "results".toList .dict false with
    | .error e => .error e
    | .ok results =>
      match addBase sem base s with
      | .error e => .error e
      | .ok s1 =>
        match pass c sem version jobs results
            (sortIds ((objOf jobs).map Prod.fst ++ (objOf results).map Prod.fst)) s1 with
        | .error e => .error e
        | .ok (s2, left) => rounds c sem version jobs results left.length left s2

/-- `[_validate(x, value_type=str) for x in ...]`, resume.py:378-382, 801-806, 830-835. -/
def strings : List Json → Except (Exc J) (List Str)
  | [] => .ok []
  | v :: vs =>
    match validate v .str false with
    | .error e => .error e
    | .ok w =>
      match strings vs with
      | .error e => .error e
      | .ok l => .ok ((strOf w).getD [] :: l)

/-- `_restore_SessionState_metadata`, resume.py:361-441: only its exceptions matter here. -/
def metadata (version : Nat) (sr : Json) : Except (Exc J) Unit :=
  match validateKey sr "metadata".toList .dict false with
  | .error e => .error e
  | .ok m =>
    match validateKey m "title".toList .str true with
    | .error e => .error e
    | .ok _ =>
      match validateKey m "flags".toList .list false with
      | .error e => .error e
      | .ok fl =>
        match strings (listOf fl) with
        | .error e => .error e
        | .ok _ =>
          match validateKey m "running_job_name".toList .str true with
          | .error e => .error e
          | .ok _ =>
            if version < 2 then .ok ()
            else
              match validateKey m "app_blob".toList .str true with
              | .error e => .error e
              | .ok b =>
                let ok : Bool := match strOf b with
                  | none => true
                  | some t => (IOLog.b64dec t).isSome
                if ok then
                  if version < 3 then .ok ()
                  else
                    match validateKey m "app_id".toList .str true with
                    | .error e => .error e
                    | .ok _ => .ok ()
                else .error .corrupted

/-- `[session.job_state_map[job_id].job for job_id in ...]`, resume.py:812-813, 841-842. -/
def lookupJobs (s : Session J Str E R) : List Str → Option (List J)
  | [] => some []
  | i :: is =>
    match s.states.lookup i with
    | none => none
    | some q =>
      match lookupJobs s is with
      | none => none
      | some l => some (q.job :: l)

/-- A list of job ids in the document turned into jobs, resume.py:801-813, 830-842. -/
def jobList (sr : Json) (key : Str) (s : Session J Str E R) : Except (Exc J) (List J) :=
  match validateKey sr key .list false with
  | .error e => .error e
  | .ok v =>
    match strings (listOf v) with
    | .error e => .error e
    | .ok ids =>
      match lookupJobs s ids with
      | none => .error .corrupted
      | some l => .ok l

/-- `_restore_SessionState_mandatory_job_list`, resume.py:819-846, in format 6 only. -/
def restoreMandatory (version : Nat) (sr : Json) (s : Session J Str E R) :
    Except (Exc J) (Session J Str E R) :=
  if version < 6 then .ok s
  else
    match jobList sr "mandatory_job_list".toList s with
    | .error e => .error e
    | .ok l => .ok (updateMandatory s l)

/-- `_restore_SessionState_desired_job_list`, resume.py:788-817. -/
def restoreDesired (sem : Sem J Str E R) (sr : Json) (s : Session J Str E R) :
    Except (Exc J) (Session J Str E R) :=
  match jobList sr "desired_job_list".toList s with
  | .error e => .error e
  | .ok l =>
    let r := updateDesired sem s l true
    match r.2.2 with
    | none => .ok r.1
    | some (.keyError _) => .error .corrupted
    | some e => .error (.session e)

/-- `_restore_SessionState_job_list`, resume.py:848-881. -/
def restoreJobList (sem : Sem J Str E R) (sr : Json) (s : Session J Str E R) :
    Except (Exc J) (Session J Str E R) :=
  match validateKey sr "jobs".toList .dict false with
  | .error e => .error e
  | .ok jobs =>
    let retain := s.runList.map sem.id ++ (objOf jobs).map Prod.fst
    match trim sem s (fun j => decide (sem.id j ∉ retain)) with
    | (s', none) => .ok s'
    | (_, some e) => .error (.session e)

/-- `_build_SessionState`, resume.py:639-673 and 1085-1121. -/
def build (c : Cfg J R) (sem : Sem J Str E R) (sortIds : List Str → List Str) (version : Nat)
    (base : List J) (sr : Json) : Except (Exc J) (Session J Str E R) :=
  match construct sem base with
  | .error e => .error (.session e)
  | .ok s0 =>
    match restoreResults c sem sortIds version base sr s0 with
    | .error e => .error e
    | .ok s1 =>
      match metadata version sr with
      | .error e => .error e
      | .ok () =>
        match restoreMandatory version sr s1 with
        | .error e => .error e
        | .ok s2 =>
          match restoreDesired sem sr s2 with
          | .error e => .error e
          | .ok s3 => restoreJobList sem sr s3

/-- `version == n` for the numbers that are supported, resume.py:313-333: `True` and `1.0` are 1. -/
def versionOf : Json → Option Nat
  | .int n => if 1 ≤ n ∧ n ≤ 6 then some n.toNat else none
  | .bool true => some 1
  | .float x =>
    match x.whole with
    | some n => if 1 ≤ n ∧ n ≤ 6 then some n.toNat else none
    | none => none
  | _ => none

/-- `_resume_json`, resume.py:301-334, and `resume_json`, resume.py:627-637.  The choice given to
`_validate` for the version is ignored by it (the keyword is misspelt). -/
def resumeJson (c : Cfg J R) (sem : Sem J Str E R) (sortIds : List Str → List Str) (base : List J)
    (v : Json) : Except (Exc J) (Session J Str E R) :=
  match validate v .dict false with
  | .error e => .error e
  | .ok o =>
    match item o "version".toList with
    | .error e => .error e
    | .ok .null => .error .corrupted
    | .ok ver =>
      match versionOf ver with
      | none => .error .incompatibleSession
      | some n =>
        match validateKey o "session".toList .dict false with
        | .error e => .error e
        | .ok sr => build c sem sortIds n base sr

/-- What decompressing, decoding and parsing the data ends with, resume.py:134-156: `IOError`,
`UnicodeDecodeError` and `ValueError` are translated, `EOFError` (truncated data) and `zlib.error`
(damaged data) are not subclasses of them. -/
inductive Envelope where
  | badGzip
  | truncated
  | damaged
  | badUtf8
  | badJson
  | json (v : Json)

/-- `SessionResumeHelper.resume`, resume.py:271-299. -/
def resume (c : Cfg J R) (sem : Sem J Str E R) (sortIds : List Str → List Str) (base : List J) :
    Envelope → Except (Exc J) (Session J Str E R)
  | .badGzip => .error .corrupted
  | .truncated => .error .eofError
  | .damaged => .error .zlibError
  | .badUtf8 => .error .corrupted
  | .badJson => .error .corrupted
  | .json v => resumeJson c sem sortIds base v

end Verif.ResumeJson
