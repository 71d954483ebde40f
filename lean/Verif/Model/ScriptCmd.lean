import Verif.Model.Leftover
import Verif.Model.Stream
import Verif.Model.IniText

/-! # Running the script of one job

Models `plainbox dev script`: `ScriptInvocation` (`plainbox/impl/commands/inv_script.py`, "script"), with the parts of
`JobRunner._run_command` (`plainbox/impl/runner.py`, "runner") and of `temporary_cwd` and `execute_job`
(`plainbox/impl/ctrl.py`, "ctrl") that matter here. What a command leaves behind is found as in
`Verif/Model/Leftover.lean`.

Simplified: the list of jobs is given, and a controller that runs the job exists; what running a command does is given; of a
file that is not UTF-8 no line is printed (in fact, the lines of the blocks before the faulty one are); texts are not
translated; nothing is said of what the command itself prints. -/

namespace Verif.ScriptCmd

open Verif.Path (Str)
open Verif.Leftover (Tree leftovers relpath)

/-- A job, as far as it is used here: `id` and `command`. (script 62, 102-103) -/
structure Job where
  id : Str
  command : Option Str
deriving DecidableEq

/-- What `os.path.isfile`, `os.path.isdir` and opening tell of a path: a file with bytes, a file that must not be read, a
directory, or something else. (script 78-83, 88) -/
inductive Look
  | file (bytes : List Nat)
  | forbidden
  | dir
  | other
deriving DecidableEq

/-- What running the command of a job leaves: the return code (`none` if `call` returned `None`), and what is in the
temporary directory. (ctrl 449-462, 519-521) -/
structure Ran where
  code : Option Int
  cwd : Str
  tree : Tree
  look : Str → Look

/-- Exceptions that matter here: `PermissionError` and `UnicodeDecodeError`. (script 88-89) -/
inductive Exc
  | permission
  | unicode
deriving DecidableEq

/-- `str` of a number. (standard library; used in script 91, 102) -/
def number (n : Int) : Str := (toString n).toList

/-- `line.rstrip('\n')`. (standard library; used in script 90) -/
def chomp (l : Str) : Str := (l.reverse.dropWhile (· = '\n')).reverse

/-- The loop over the lines of a file, script 89-91. -/
def numbered (name : Str) : Nat → List Str → List Str
  | _, [] => []
  | n, l :: ls => ("  ".toList ++ name ++ ":".toList ++ number n ++ ": ".toList ++ chomp l) :: numbered name (n + 1) ls

/-- `_display_file`, script 85-91, with what opening the file gives; `ascii` is what `!a` does with a text. -/
def displayFile (ascii : Str → Str) (name : Str) (bytes : Option (List Nat)) : List Str × Option Exc :=
  let head := "Leftover file detected: ".toList ++ ascii name ++ ":".toList
  match bytes with
  | none => ([head], some .permission)
  | some bs =>
    match Stream.decode bs with
    | none => ([head], some .unicode)
    | some t => (head :: numbered name 1 (Text.linesKeep (IniText.universal t)), none)

/-- One thing that was left, script 78-83, with `_display_dir`, script 93-95, and `_display_other`, script 97-99. -/
def display (ascii : Str → Str) (cwd item : Str) : Look → List Str × Option Exc
  | .file bs => displayFile ascii (relpath cwd item) (some bs)
  | .forbidden => displayFile ascii (relpath cwd item) none
  | .dir => (["Leftover directory detected: ".toList ++ ascii (relpath cwd item)], none)
  | .other => (["Leftover thing detected: ".toList ++ ascii (relpath cwd item)], none)

/-- `_on_leftover_files`, script 76-83. -/
def onLeftovers (ascii : Str → Str) (cwd : Str) (look : Str → Look) : List Str → List Str × Option Exc
  | [] => ([], none)
  | item :: items =>
    match display ascii cwd item (look item) with
    | (out, some e) => (out, some e)
    | (out, none) => let r := onLeftovers ascii cwd look items; (out ++ r.1, r.2)

/-- `_run_command` after the command has ended, runner 893-902, with `temporary_cwd`, ctrl 516-525: what was left is
displayed; `PermissionError` is only logged; the return code `None` is -1. -/
def finish (ascii : Str → Str) (r : Ran) : List Str × Option Int :=
  let shown := if (leftovers r.cwd r.tree).isEmpty then ([], none)
    else onLeftovers ascii r.cwd r.look (leftovers r.cwd r.tree)
  match shown.2 with
  | some .unicode => (shown.1, none)
  | _ => (shown.1, some (r.code.getD (-1)))

/-- `_get_job`, script 105-112; the qualifier compares ids (`plainbox/impl/secure/qualifiers.py` 199-206). -/
def getJob (jobs : List Job) (id : Str) : Option Job := (jobs.filter fun j => id = j.id).head?

/-- What the command line sees: the lines that are printed, the jobs whose command was run, and the exit code, `none` for an
exception. (script 55-74) -/
structure Outcome where
  lines : List Str
  ran : List Job
  code : Option Int

/-- `ScriptInvocation.run`, script 55-74, with `_display_script_outcome`, script 101-103. -/
def run (ascii : Str → Str) (exec : Job → Ran) (jobs : List Job) (id : Str) : Outcome :=
  match getJob jobs id with
  | none => ⟨["There is no job called ".toList ++ ascii id,
      "See `plainbox special --list-jobs` for a list of choices".toList], [], some 126⟩
  | some j =>
    match j.command with
    | none => ⟨["Selected job does not have a command".toList], [], some 125⟩
    | some c =>
      match finish ascii (exec j) with
      | (out, none) => ⟨out, [j], none⟩
      | (out, some code) => ⟨out ++ ["job ".toList ++ j.id ++ " returned ".toList ++ number code,
          "command: ".toList ++ c], [j], some code⟩

end Verif.ScriptCmd
