import Verif.Model.ResumeJson

/-! # Details of stored sessions

Models how the meta-data of a session is written (`plainbox/impl/session/suspend.py`, "suspend") and read
(`plainbox/impl/session/resume.py`, "resume"), also without resuming the session (`SessionPeekHelper`), and the loops
over the stored sessions in `plainbox/impl/session/assistant.py` ("assistant"), `plainbox/impl/commands/inv_run.py`
("inv_run") and `plainbox/impl/commands/inv_session.py` ("inv_session").

Simplified: compressed data is what it decompresses to (`ResumeJson.Envelope`). A set of flags is a list. Titles and
identifiers are text or `None`. -/

namespace Verif.Peek

open Verif.ResumeJson (Str Json Exc Envelope validate item validateKey strings strOf listOf versionOf)

attribute [-instance] List.instBEq

/-- `SessionMetaData`, plainbox/impl/session/state.py 47-188. -/
structure Meta where
  title : Option Str
  flags : List Str
  running : Option Str
  blob : Option (List (Fin 256))
  appId : Option Str
deriving DecidableEq

/-- `SessionMetaData()`, plainbox/impl/session/state.py 78-88. -/
def fresh : Meta := ⟨none, [], none, none, none⟩

/-- `None` or a text. (suspend 240-244, 416) -/
def textJson : Option Str → Json
  | none => .null
  | some t => .str t

/-- `_repr_SessionMetaData`, suspend 218-244, 371-406 (formats 2 and later), 424-460 (formats 3 and later). -/
def writeMeta (sorted : List Str → List Str) (version : Nat) (m : Meta) : Json :=
  .obj ([("title".toList, textJson m.title), ("flags".toList, .arr ((sorted m.flags).map .str)),
      ("running_job_name".toList, textJson m.running)] ++
    (if version < 2 then [] else [("app_blob".toList, match m.blob with
      | none => .null
      | some b => .str (IOLog.b64enc b))]) ++
    (if version < 3 then [] else [("app_id".toList, textJson m.appId)]))

/-- `_json_repr` and `_repr_SessionState`: the whole document, of which the other parts are given.
(suspend 142-217) -/
def writeDoc (sorted : List Str → List Str) (version : Nat) (jobs results desired mandatory : Json) (m : Meta) : Json :=
  .obj [("version".toList, .int version), ("session".toList, .obj [("jobs".toList, jobs),
    ("results".toList, results), ("desired_job_list".toList, desired), ("mandatory_job_list".toList, mandatory),
    ("metadata".toList, writeMeta sorted version m)])]

/-- `MetaDataHelper1MixIn._restore_SessionState_metadata`, resume 366-387. -/
def restore1 {J : Type} (m : Meta) (sr : Json) : Except (Exc J) Meta :=
  match validateKey sr "metadata".toList .dict false with
  | .error e => .error e
  | .ok d =>
    match validateKey d "title".toList .str true with
    | .error e => .error e
    | .ok t =>
      match validateKey d "flags".toList .list false with
      | .error e => .error e
      | .ok fl =>
        match strings (listOf fl) with
        | .error e => .error e
        | .ok flags =>
          match validateKey d "running_job_name".toList .str true with
          | .error e => .error e
          | .ok r => .ok { m with title := strOf t, flags := flags, running := strOf r }

/-- `MetaDataHelper2MixIn._restore_SessionState_metadata`, resume 395-420. -/
def restore2 {J : Type} (m : Meta) (sr : Json) : Except (Exc J) Meta :=
  match restore1 m sr with
  | .error e => .error e
  | .ok m =>
    match validateKey sr "metadata".toList .dict false with
    | .error e => .error e
    | .ok d =>
      match validateKey d "app_blob".toList .str true with
      | .error e => .error e
      | .ok b =>
        match strOf b with
        | none => .ok { m with blob := none }
        | some t =>
          match IOLog.b64dec t with
          | none => .error .corrupted
          | some bytes => .ok { m with blob := some bytes }

/-- `MetaDataHelper3MixIn._restore_SessionState_metadata`, resume 428-441. -/
def restore3 {J : Type} (m : Meta) (sr : Json) : Except (Exc J) Meta :=
  match restore2 m sr with
  | .error e => .error e
  | .ok m =>
    match validateKey sr "metadata".toList .dict false with
    | .error e => .error e
    | .ok d =>
      match validateKey d "app_id".toList .str true with
      | .error e => .error e
      | .ok a => .ok { m with appId := strOf a }

/-- The mix-in of each format, for the peek helpers (resume 444-550) and the resume helpers (resume 553-1121). -/
def restore {J : Type} (version : Nat) (sr : Json) : Except (Exc J) Meta :=
  if version < 2 then restore1 fresh sr else if version < 3 then restore2 fresh sr else restore3 fresh sr

/-- `_peek_json`, resume 179-205, and `peek_json`, resume 457-469. -/
def peekJson {J : Type} (v : Json) : Except (Exc J) Meta :=
  match validate v .dict false with
  | .error e => .error e
  | .ok o =>
    match item o "version".toList with
    | .error e => .error e
    | .ok .null => .error .corrupted
    | .ok ver =>
      match versionOf ver with
      | none => .error .incompatibleSession
      | some n =>
        match validateKey o "session".toList .dict false with
        | .error e => .error e
        | .ok sr => restore n sr

/-- `SessionPeekHelper.peek`, resume 163-177, and `unpack_envelope`, resume 134-156. -/
def peek {J : Type} : Envelope → Except (Exc J) Meta
  | .badGzip => .error .corrupted
  | .truncated => .error .eofError
  | .damaged => .error .zlibError
  | .badUtf8 => .error .corrupted
  | .badJson => .error .corrupted
  | .json v => peekJson v

/-! ## Loops over the stored sessions -/

/-- What `load_checkpoint` ends with: no data, data, or `OSError`. (plainbox/impl/session/storage.py 265-298) -/
inductive Loaded
  | empty
  | data (e : Envelope)
  | oserror

/-- A stored session, in the list of `get_storage_list`. (plainbox/impl/session/storage.py 76-105) -/
structure Stored where
  id : Str
  loaded : Loaded

/-- Exceptions that end a loop: `OSError` from the storage or one from `peek`. (inv_run 501-514; inv_session 68-84) -/
inductive End (J : Type)
  | oserror
  | peek (e : Exc J)
deriving DecidableEq

/-- `except SessionResumeError`: the exceptions of `peek` that are subclasses. (resume 70-121) -/
def isResumeError {J : Type} : Exc J → Bool
  | .corrupted | .incompatibleSession | .incompatibleJob | .brokenReference => true
  | _ => false

/-- The loops of `get_resume_candidates` (inv_run 501-514), `get_old_sessions` (assistant 507-519) and
`get_resumable_sessions` (assistant 672-689): the sessions found, and the exception that ended the loop. -/
def scan {J : Type} (keep : Meta → Bool) : List Stored → List (Str × Meta) × Option (End J)
  | [] => ([], none)
  | s :: l =>
    match s.loaded with
    | .oserror => ([], some .oserror)
    | .empty => scan keep l
    | .data d =>
      match peek (J := J) d with
      | .error e => if isResumeError e then scan keep l else ([], some (.peek e))
      | .ok m =>
        if keep m then ((s.id, m) :: (scan (J := J) keep l).1, (scan keep l).2) else scan keep l

/-- `get_resume_candidates`: a list, or the exception. (inv_run 496-514) -/
def resumeCandidates {J : Type} (appId title : Str) (l : List Stored) : Except (End J) (List Str) :=
  match scan (J := J) (fun m => decide (m.appId = some appId) && (decide (m.title = some title) &&
    m.flags.contains "incomplete".toList)) l with
  | (_, some e) => .error e
  | (found, none) => .ok (found.map Prod.fst)

/-- What `get_old_sessions` yields (assistant 507-519). -/
def oldSessions {J : Type} (appId : Option Str) (fs : List Str) (allowNone : Bool) (l : List Stored) :
    List (Str × Meta) × Option (End J) :=
  scan (fun m => decide (m.appId = appId) && ((allowNone && m.flags.isEmpty) || m.flags.any fun f => fs.contains f)) l

/-- What `get_resumable_sessions` yields (assistant 672-689). -/
def resumable {J : Type} (appId : Option Str) (l : List Stored) : List (Str × Meta) × Option (End J) :=
  scan (fun m => decide (m.appId = appId) && m.flags.contains "incomplete".toList) l

/-- `list_sessions`, inv_session 68-84: what is printed for each session (`none`: not saved yet), and the exception
that ended it. -/
def listSessions {J : Type} : List Stored → List (Str × Option Meta) × Option (End J)
  | [] => ([], none)
  | s :: l =>
    match s.loaded with
    | .oserror => ([], some .oserror)
    | .empty => ((s.id, none) :: (listSessions (J := J) l).1, (listSessions l).2)
    | .data d =>
      match peek (J := J) d with
      | .error e => ([], some (.peek e))
      | .ok m => ((s.id, some m) :: (listSessions (J := J) l).1, (listSessions l).2)

/-- `remove_session`, inv_session 86-93, and `_lookup_storage`, 197-201: the sessions that are left and what is printed
(`true`: removed). The command returns `None`, so the exit code is 0. -/
def removeSessions : List Str → List Stored → List Stored × List (Str × Bool)
  | [], l => (l, [])
  | i :: ids, l =>
    match l.find? fun s => decide (s.id = i) with
    | none => ((removeSessions ids l).1, (i, false) :: (removeSessions ids l).2)
    | some _ =>
      let l' := l.eraseP fun s => decide (s.id = i)
      ((removeSessions ids l').1, (i, true) :: (removeSessions ids l').2)

end Verif.Peek
