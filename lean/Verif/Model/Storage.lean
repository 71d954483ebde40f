import Verif.Basic

/-!
# Checkpoints on disk

Models `SessionStorage.load_checkpoint`, `save_checkpoint` and `break_lock`
(`plainbox/impl/session/storage.py`) and `SessionManager.checkpoint`
(`plainbox/impl/session/manager.py`) at the level of system calls.  Every system call may fail; the
file system is observed after each of them and in the middle of a write.

Simplifications: only the two names `session` and `session.next` of the session directory exist and
both are regular files; nobody else changes the directory meanwhile; descriptors are not counted;
`close` does not fail; `KeyboardInterrupt` does not arrive between system calls (it would be a
crash point or an exception there).
-/

namespace Verif.Storage

/-- The data given to `save_checkpoint` (storage.py:302-320). -/
abbrev Bytes := List (Fin 256)

/-- A regular file: its content and whether that content has reached the disk. (storage.py:327-436) -/
structure File where
  data : Bytes
  stable : Bool
deriving DecidableEq, Repr

/-- The session directory: the file called `session`, the file called `session.next`, and the
files that `session` was bound to before changes of the directory that may not have reached the
disk yet. (storage.py:265-300, 327-436) -/
structure FS where
  cur : Option File
  nxt : Option File
  past : List (Option File)
deriving DecidableEq, Repr

/-- Exceptions. (storage.py:265-453) -/
inductive Err where
  | locked          -- LockedStorageError, storage.py:54-63
  | noEntry         -- FileNotFoundError
  | os              -- any other OSError
  | partialWrite    -- IOError("partial write?")
  | partialRead     -- IOError("partial read?")
deriving DecidableEq, Repr

/-- Computations that call the system: the states seen on the way, the last state, the outcome.
(storage.py:265-453) -/
def M (α : Type) := FS → List FS × FS × Except Err α

/-- No system call. (storage.py:265-453) -/
def M.pure {α : Type} (a : α) : M α := fun s => ([], s, .ok a)

/-- `raise`. (storage.py:265-453) -/
def M.throw {α : Type} (e : Err) : M α := fun s => ([], s, .error e)

/-- Sequence; an exception ends it. (storage.py:265-453) -/
def M.bind {α β : Type} (m : M α) (f : α → M β) : M β := fun s =>
  match m s with
  | (t, s', .error e) => (t, s', .error e)
  | (t, s', .ok a) =>
    match f a s' with
    | (t', s'', r) => (t ++ t', s'', r)

/-- `try: ... except: ... else: ...` for handlers and continuations with the same type. (storage.py:340-436) -/
def M.tryElse {α β : Type} (m : M α) (handler : Err → M β) (orelse : α → M β) : M β := fun s =>
  match m s with
  | (t, s', .error e) =>
    match handler e s' with
    | (t', s'', r) => (t ++ t', s'', r)
  | (t, s', .ok a) =>
    match orelse a s' with
    | (t', s'', r) => (t ++ t', s'', r)

/-- One system call: a new state and an outcome. (storage.py:265-453) -/
def call {α : Type} (f : FS → FS × Except Err α) : M α := fun s => ([(f s).1], (f s).1, (f s).2)

/-- What `os.write` does: returns the number of bytes written, or raises after some bytes. (storage.py:364) -/
inductive WriteFault where
  | full
  | short (n : Nat)
  | fail (n : Nat)
deriving DecidableEq, Repr

/-- Which system calls of one `save_checkpoint` fail. (storage.py:302-436) -/
structure Faults where
  openDir : Bool
  openNext : Bool
  write : WriteFault
  /-- Lengths at which the file can be seen while it is written. -/
  seen : List Nat
  unlinkAfterWrite : Bool
  fsyncFile : Bool
  rename : Bool
  unlinkAfterRename : Bool
  fsyncDir : Bool
deriving DecidableEq, Repr

/-- No failures. (storage.py:302-436) -/
def noFaults (seen : List Nat) : Faults :=
  ⟨false, false, .full, seen, false, false, false, false, false⟩

/-- `os.open(self._location, os.O_DIRECTORY)`, storage.py:327. -/
def openDir (bad : Bool) : M Unit := call fun s => (s, if bad then .error .os else .ok ())

/-- `os.open(..., O_WRONLY | O_CREAT | O_EXCL)`, storage.py:347-353. -/
def openNext (bad : Bool) : M Unit := call fun s =>
  if bad then (s, .error .os)
  else
    match s.nxt with
    | some _ => (s, .error .locked)
    | none => ({ s with nxt := some ⟨[], false⟩ }, .ok ())

/-- The file after `n` bytes of the data. (storage.py:364) -/
def putNext (data : Bytes) (n : Nat) (s : FS) : FS :=
  { s with nxt := some ⟨data.take n, false⟩ }

/-- `os.write(next_session_fd, data)`, storage.py:364. -/
def write (data : Bytes) (w : WriteFault) (seen : List Nat) : M Nat := fun s =>
  match w with
  | .full =>
    (seen.map (fun n => putNext data n s) ++ [putNext data data.length s],
      putNext data data.length s, .ok data.length)
  | .short n =>
    (seen.map (fun k => putNext data (min k n) s) ++ [putNext data n s], putNext data n s,
      .ok (min n data.length))
  | .fail n =>
    (seen.map (fun k => putNext data (min k n) s) ++ [putNext data n s], putNext data n s,
      .error .os)

/-- Write and the check of the count, storage.py:364-370. -/
def writeChecked (data : Bytes) (w : WriteFault) (seen : List Nat) : M Unit :=
  (write data w seen).bind fun n => if n ≠ data.length then M.throw .partialWrite else M.pure ()

/-- `os.unlink(self._SESSION_FILE_NEXT)`, storage.py:378, 420 and 453. -/
def unlink (bad : Bool) : M Unit := call fun s =>
  if bad then (s, .error .os)
  else
    match s.nxt with
    | none => (s, .error .noEntry)
    | some _ => ({ s with nxt := none }, .ok ())

/-- `os.fsync(next_session_fd)`, storage.py:386-391; a failure is only logged. -/
def fsyncFile (bad : Bool) : M Unit := call fun s =>
  if bad then (s, .error .os)
  else ({ s with nxt := s.nxt.map fun f => { f with stable := true } }, .ok ())

/-- `os.rename(session.next, session)`, storage.py:405-407. -/
def rename (bad : Bool) : M Unit := call fun s =>
  if bad then (s, .error .os)
  else
    match s.nxt with
    | none => (s, .error .noEntry)
    | some f => (⟨some f, none, s.cur :: s.past⟩, .ok ())

/-- `os.fsync(location_fd)`, storage.py:428-432; a failure is only logged. -/
def fsyncDir (bad : Bool) : M Unit := call fun s =>
  if bad then (s, .error .os) else ({ s with past := [] }, .ok ())

/-- The write with its `except`, `else` and `finally` clauses, storage.py:357-395: a failure is
logged and the file is unlinked, then the method goes on. -/
def writePart (φ : Faults) (data : Bytes) : M Unit :=
  (writeChecked data φ.write φ.seen).tryElse (fun _ => unlink φ.unlinkAfterWrite)
    (fun _ => (fsyncFile φ.fsyncFile).tryElse (fun _ => M.pure ()) (fun _ => M.pure ()))

/-- The rename with its `except` clause, storage.py:404-420. -/
def renamePart (φ : Faults) : M Unit :=
  (rename φ.rename).tryElse (fun _ => unlink φ.unlinkAfterRename) (fun _ => M.pure ())

/-- `save_checkpoint`, storage.py:302-436. -/
def save (φ : Faults) (data : Bytes) : M Unit :=
  (openDir φ.openDir).bind fun _ =>
    (openNext φ.openNext).bind fun _ =>
      (writePart φ data).bind fun _ =>
        (renamePart φ).bind fun _ =>
          (fsyncDir φ.fsyncDir).tryElse (fun _ => M.pure ()) (fun _ => M.pure ())

/-- `break_lock`, storage.py:438-453. -/
def breakLock (bad : Bool) : M Unit := unlink bad

/-- `SessionManager.checkpoint`, manager.py:335-354, after the snapshot is made: a lock is broken
once and saving is tried again. -/
def checkpoint (φ ψ : Faults) (breakFails : Bool) (data : Bytes) : M Unit := fun s =>
  match save φ data s with
  | (t, s', .error .locked) =>
    match (breakLock breakFails).bind (fun _ => save ψ data) s' with
    | (t', s'', r) => (t ++ t', s'', r)
  | x => x

/-- How reading ends: `os.read` may return less than asked for. (storage.py:265-300) -/
structure ReadFaults where
  openDir : Bool
  openFile : Bool
  short : Option Nat
deriving DecidableEq, Repr

/-- `os.read(session_fd, session_stat.st_size)`, storage.py:285. -/
def readData (b : Bytes) : Option Nat → Bytes
  | none => b
  | some n => b.take n

/-- `load_checkpoint`, storage.py:265-300: a missing file reads as no data. -/
def load (φ : ReadFaults) (s : FS) : Except Err Bytes :=
  if φ.openDir then .error .os
  else if φ.openFile then .error .os
  else
    match s.cur with
    | none => .ok []
    | some f =>
      let got := readData f.data φ.short
      if got.length ≠ f.data.length then .error .partialRead else .ok got

end Verif.Storage
