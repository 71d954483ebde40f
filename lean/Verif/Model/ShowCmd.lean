import Verif.Model.Peek
import Verif.Model.Path

/-! # Showing and archiving stored sessions

Models `plainbox session show` and `plainbox session archive`: `show_session`, `resume_session`, `archive_session` and
`_lookup_storage` of `SessionInvocation` (`plainbox/impl/commands/inv_session.py`, "session"). Peeking at a session is as
in `Verif/Model/Peek.lean`.

Simplified: what resuming a session ends with is given; a line is what is put into it (the blob before it is encoded);
sessions do not change while they are shown; of `make_archive` (standard library) only what it is given is modelled, and
that the name of the archive is the name it is given with `.tar.gz` behind it. -/

namespace Verif.ShowCmd

open Verif.Path (Str)
open Verif.Peek (Meta Loaded Stored End peek isResumeError)
open Verif.ResumeJson (Exc)

/-- A stored session with its location and the length of its data. (session 102-104, 115) -/
structure Entry extends Stored where
  location : Str
  size : Nat

/-- A line that is printed. (session 99, 101-102, 107-117, 121-123) -/
inductive Line where
  | unknown (id : Str)
  | header (id : Str)
  | location (l : Str)
  | app (id : Option Str)
  | blob (b : Option (List (Fin 256)))
  | title (t : Option Str)
  | flags (l : List Str)
  | running (j : Option Str)
  | size (n : Nat)
  | resuming (id : Str)
  | failed
  | resumed
deriving DecidableEq

/-- What resuming ends with: the session, a `SessionResumeError`, or another exception. (session 118-127) -/
inductive Resumed (J : Type) where
  | done
  | refused
  | raises (e : Exc J)

/-- How the command ends: it goes on, or with an exception: of the storage or of peeking, or of resuming.
(session 95-123) -/
inductive Stop (J : Type) where
  | peek (e : End J)
  | resume (e : Exc J)

/-- `_lookup_storage`. (session 197-201) -/
def lookup (id : Str) : List Entry → Option Entry
  | [] => none
  | s :: l => if s.id = id then some s else lookup id l

/-- The part with `--resume`. (session 116-123) -/
def resumeLines {J : Type} (load : Entry → Resumed J) (s : Entry) : List Line × Option (Stop J) :=
  match load s with
  | .done => ([.resuming s.id, .resumed], none)
  | .refused => ([.resuming s.id, .failed], none)
  | .raises e => ([.resuming s.id], some (.resume e))

/-- The lines about the meta-data. (session 107-115) -/
def metaLines (sorted : List Str → List Str) (m : Meta) (size : Nat) : List Line :=
  [.app m.appId, .blob m.blob, .title m.title, .flags (sorted m.flags), .running m.running, .size size]

/-- One pass of the loop. (session 96-123) -/
def showOne {J : Type} (sorted : List Str → List Str) (resume : Bool) (load : Entry → Resumed J) (l : List Entry) (id : Str) :
    List Line × Option (Stop J) :=
  match lookup id l with
  | none => ([.unknown id], none)
  | some s =>
    match s.loaded with
    | .oserror => ([.header id, .location s.location], some (.peek .oserror))
    | .empty => ([.header id, .location s.location], none)
    | .data d =>
      match peek (J := J) d with
      | .error e => ([.header id, .location s.location], some (.peek (.peek e)))
      | .ok m =>
        if resume then
          ([.header id, .location s.location] ++ metaLines sorted m s.size ++ (resumeLines load s).1, (resumeLines load s).2)
        else ([.header id, .location s.location] ++ metaLines sorted m s.size, none)

/-- `show_session`: what is printed, and the exception that ends it. (session 95-123) -/
def showAll {J : Type} (sorted : List Str → List Str) (resume : Bool) (load : Entry → Resumed J) (l : List Entry) :
    List Str → List Line × Option (Stop J)
  | [] => ([], none)
  | id :: ids =>
    match showOne sorted resume load l id with
    | (ls, some e) => (ls, some e)
    | (ls, none) => (ls ++ (showAll sorted resume load l ids).1, (showAll sorted resume load l ids).2)

/-- What `make_archive` is given: the name, the directory to start from, and what to take of it. (session 136-139) -/
structure Archive where
  name : Str
  rootDir : Str
  baseDir : Str
deriving DecidableEq

/-- `archive_session`: `none` if there is no such session. (session 129-140) -/
def archive (l : List Entry) (id name : Str) : Option Archive :=
  match lookup id l with
  | none => none
  | some s => some ⟨name, Path.dirname s.location, Path.basename s.location⟩

/-- The file that `make_archive` writes. (session 136, 140, standard library) -/
def Archive.file (a : Archive) : Str := a.name ++ ".tar.gz".toList

end Verif.ShowCmd
