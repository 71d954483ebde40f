import Verif.Model.Text
import Verif.Model.Where
import Verif.Model.Export

/-!
# Names and help texts of commands (C125)

`CommandBase` (plainbox/impl/clitools.py 103-240) takes the name of a command from the name of its class
and the texts shown by `--help` from its docstring; `InstallCommand.get_command_epilog`
(plainbox/provider_manager.py 235-247) and `manage_py_extension` (1501-1523).

Simplified: class names are ASCII; the translation is any function on texts; what argparse does with
the texts is not modelled.
-/

namespace Verif.Help

open Verif.Text (isSpace lstrip strip splitOn joinWith)
open Verif.Where (splitLines)
open Verif.Export (replaceAll)

/-- Texts. (clitools.py 103-201) -/
abbrev Str := List Char

/-- A class of commands, as far as it is looked at: the name of the class, the docstring, and the
attributes that override what is computed. (clitools.py 103-201) -/
structure Command where
  className : Str
  doc : Option Str
  name : Option Str := none
  help : Option Str := none
  description : Option Str := none
  epilog : Option Str := none
deriving DecidableEq

/-- `name.lower()`, for ASCII names. (clitools.py 115) -/
def lower (s : Str) : Str := s.map Char.toLower

/-- `get_command_name`, clitools.py 103-118. -/
def commandName (c : Command) : Str :=
  match c.name with
  | some n => n
  | none =>
    let name := lower c.className
    if "command".toList.isSuffixOf name then replaceAll "command".toList [] name.length name else name

/-- `str.expandtabs()`, from a column on. (standard library `inspect.cleandoc`, used at clitools.py
124-126) -/
def expandTabs (col : Nat) : Str → Str
  | [] => []
  | c :: s =>
    if c = '\t' then List.replicate (8 - col % 8) ' ' ++ expandTabs (col + (8 - col % 8)) s
    else if c = '\n' ∨ c = '\r' then c :: expandTabs 0 s
    else c :: expandTabs (col + 1) s

/-- One line in the loop of `inspect.cleandoc` that finds the margin; `none` stands for `sys.maxsize`.
(standard library, used at clitools.py 124-126) -/
def narrow (margin : Option Nat) (line : Str) : Option Nat :=
  let content := (lstrip line).length
  if content = 0 then margin
  else some (match margin with
    | none => line.length - content
    | some m => min m (line.length - content))

/-- Removing empty lines at the beginning and at the end, in `inspect.cleandoc`. (standard library, used
at clitools.py 124-126) -/
def trim (lines : List Str) : List Str :=
  ((lines.reverse.dropWhile List.isEmpty).reverse).dropWhile List.isEmpty

/-- `inspect.cleandoc`. (standard library, used at clitools.py 124-126) -/
def cleandoc (doc : Str) : Str :=
  match splitOn '\n' (expandTabs 0 doc) with
  | [] => []
  | first :: rest =>
    let rest' := match rest.foldl narrow none with
      | none => rest
      | some m => rest.map (List.drop m)
    joinWith '\n' (trim (lstrip first :: rest'))

/-- `get_localized_docstring`, clitools.py 120-126; `tr` is `dgettext` with the command's domain. -/
def docstring (tr : Str → Str) (c : Command) : Option Str := c.doc.map fun d => cleandoc (tr d)

/-- `get_command_help`, clitools.py 128-147. -/
def commandHelp (tr : Str → Str) (c : Command) : Option Str :=
  match c.help with
  | some h => some h
  | none => (docstring tr c).bind fun d => (splitLines d).head?

/-- `text.split(sep, 1)` when `sep` occurs: what is before the first occurrence and what is after it.
(clitools.py 172, 198) -/
def splitFirst (sep : Str) : Str → Option (Str × Str)
  | [] => if sep = [] then some ([], []) else none
  | c :: s =>
    if sep.isPrefixOf (c :: s) then some ([], (c :: s).drop sep.length)
    else (splitFirst sep s).map fun p => (c :: p.1, p.2)

/-- The docstring from the second line on, as at clitools.py 170-172, 196-198. -/
def body (d : Str) : Str := joinWith '\n' (splitLines d).tail

/-- `get_command_description`, clitools.py 149-175. -/
def commandDescription (tr : Str → Str) (c : Command) : Option Str :=
  match c.description with
  | some d => some d
  | none => (docstring tr c).map fun d =>
    match splitFirst "@EPILOG@".toList (body d) with
    | none => strip (body d)
    | some (a, _) => strip a

/-- `CommandBase.get_command_epilog`, clitools.py 177-201. -/
def commandEpilog (tr : Str → Str) (c : Command) : Option Str :=
  match c.epilog with
  | some e => some e
  | none => (docstring tr c).bind fun d =>
    match splitFirst "@EPILOG@".toList (body d) with
    | none => none
    | some (_, b) => some (strip b)

/-- The exceptions that are raised: `re.sub` of something that is not a text (provider_manager.py
244-247) and `list.index` (1520). -/
inductive Exc
  | typeError
  | valueError
deriving DecidableEq

/-- What `add_subcommand` gives to argparse (clitools.py 221-240). -/
structure Entry where
  name : Str
  help : Option Str
  description : Option Str
  epilog : Option Str
deriving DecidableEq

/-- `add_subcommand` (clitools.py 221-240).  For the install command and classes made from it
(`isInstall`) the epilog goes through `re.sub` (provider_manager.py 235-247); `layouts` is what that
does to a text. -/
def addSubcommand (tr layouts : Str → Str) (isInstall : Bool) (c : Command) : Except Exc Entry :=
  if isInstall then
    match commandEpilog tr c with
    | none => .error .typeError
    | some e => .ok ⟨commandName c, commandHelp tr c, commandDescription tr c, some (layouts e)⟩
  else .ok ⟨commandName c, commandHelp tr c, commandDescription tr c, commandEpilog tr c⟩

/-- `add_subcommands` of the tool behind `manage.py` (provider_manager.py 1428-1437): all commands are
registered before the arguments are looked at. -/
def register (tr layouts : Str → Str) (cmds : List (Bool × Command)) : Except Exc (List Entry) :=
  cmds.mapM fun c => addSubcommand tr layouts c.1 c.2

/-- `manage_py_extension` (provider_manager.py 1501-1523): the class `cls` whose first base is `base`. -/
def extend {C : Type} [DecidableEq C] (root : C) (cmds : List C) (base cls : C) : Except Exc (List C) :=
  if base = root then .ok (cmds ++ [cls])
  else if base ∈ cmds then .ok (cmds.replace base cls)
  else .error .valueError

end Verif.Help
