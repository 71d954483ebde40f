import Verif.Model.Content
import Verif.Model.Leftover

/-!
# Enumerating the files of a provider

Models `ProviderContentEnumerator` of `plainbox/impl/secure/providers/v1.py` ("v1" below) and the recursive way of
`FsPlugInCollection._get_plugin_files` in `plainbox/impl/secure/plugins.py` ("plugins").

Simplifications: the file system does not change while it is looked at; entries are named as `os.walk` names them, so that
`os.path.relpath` takes away the directory and the slash behind it, which is right for directories that do not end with a slash.
-/

namespace Verif.Enumerate

open Verif.Path
open Verif.Leftover (Tree filenames walk relpath)
open Verif.Classify (Dirs)

/-- What is asked of the file system: what is in a directory, links being followed; `none` if there is no such directory or if it
cannot be read (plugins 597); and whether a path is that of a regular file (plugins 623). -/
structure Disk where
  tree : Str → Option Tree
  isfile : Str → Bool

/-- `if some_dir: dir_list.append(some_dir)`: neither `None` nor empty. (v1 268-288) -/
def given (dir : Option Str) : List Str :=
  match dir with
  | none => []
  | some d => if d = [] then [] else [d]

/-- `dir_list` of `ProviderContentEnumerator.__init__`, v1 266-288; `locale` is `locale_dir`. -/
def dirList (d : Dirs) (locale : Option Str) : List Str :=
  if given d.base ≠ [] then given d.base ++ given d.src ++ given d.buildBin ++ given d.buildMo
  else given d.units ++ given d.jobs ++ given d.data ++ given d.bin ++ given locale

/-- What the loop over `os.walk` collects, plugins 596-601. -/
def entries (top : Str) (l : List (Str × List Str)) : List Str :=
  l.flatMap fun x => x.2.map fun n => relpath top (join x.1 n)

/-- The entries of one directory, plugins 594-601: `os.walk` gives nothing for what it cannot read. -/
def listed (k : Disk) (top : Str) : List Str :=
  match k.tree top with
  | none => []
  | some t => entries top ((top, filenames t) :: walk top t)

/-- What `_get_plugin_files` generates with `recursive=True` and `ext=None`, plugins 588-625 and v1 290-291. -/
def found (k : Disk) (dirs : List Str) : List Str :=
  Plugins.pluginFiles join k.isfile .all (dirs.map fun x => (x, some (listed k x)))

/-- The names in `content_collection`, v1 252-302 and plugins 560-582. -/
def files (k : Disk) (d : Dirs) (locale : Option Str) : List Str := Content.content (found k (dirList d locale))

end Verif.Enumerate
