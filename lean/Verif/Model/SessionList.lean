import Verif.Basic

/-!
# Model of `SessionStorageRepository.get_storage_list` (`plainbox/impl/session/storage.py`)

The directory does not change during the call.
-/

namespace Verif.SessionList

/-- `errno` of an `OSError`: `ENOENT` or another one. (storage.py:87-113) -/
inductive Errno where
  | enoent | other
deriving DecidableEq, Repr

/-- A directory entry: name, the modification time `os.stat` finds (it follows symbolic links, and
fails with `ENOENT` on a dangling one), and whether `os.lstat` says it is a directory. (storage.py:87-113) -/
structure Entry where
  name : List Char
  mtime : Except Errno Nat
  isDir : Bool

/-- Evaluation of the sort keys, storage.py:90-92: the first error is raised. -/
def keys : List Entry → Except Errno (List (Nat × Entry))
  | [] => .ok []
  | e :: es =>
    match e.mtime with
    | .error x => .error x
    | .ok t =>
      match keys es with
      | .error x => .error x
      | .ok ks => .ok ((t, e) :: ks)

/-- The test of storage.py:107-108. -/
def isSession (e : Entry) : Bool :=
  !(['.'].isPrefixOf e.name) && (".session".toList).isSuffixOf e.name && e.isDir

/-- `get_storage_list`, storage.py:76-113; `listdir` is the outcome of `os.listdir`.  `sorted` is
stable, also with `reverse=True`. -/
def getStorageList (listdir : Except Errno (List Entry)) : Except Errno (List (Nat × Entry)) :=
  match listdir.bind keys with
  | .error .enoent => .ok []
  | .error x => .error x
  | .ok ks => .ok ((ks.mergeSort fun a b => decide (b.1 ≤ a.1)).filter fun k => isSession k.2)

end Verif.SessionList
