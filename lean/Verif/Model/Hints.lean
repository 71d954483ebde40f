import Verif.Model.Checksum

/-! # Loading commands lazily

Models `ToolBase.main` up to the dispatch of the command, `LazyLoadingToolMixIn` (`plainbox/impl/clitools.py`, "clitools")
and the parts of `LazyPlugInCollection` that it uses (`plainbox/impl/secure/plugins.py`, "plugins"), with the part of
argparse that finds the command.

Simplified: which options a word stands for is given (`Kind`), so that abbreviations, joined letters and `--name=value` are
covered; the word `--` is left out; an option with a restricted set of values takes any; what the parser of a command does
with the words after its name is not modelled. -/

namespace Verif.Hints

open Verif.Checksum (Str)

/-- What a word that begins with a dash is before the command. (clitools 424-461, 482-537) -/
inductive Kind
  | flag
  | arg
  | help
  | version
  | bad
deriving DecidableEq

/-- What comes of loading a command: it is there, or an exception is caught, or one is not.
(plugins 731-741) -/
inductive Load
  | ok
  | missing
  | fails
deriving DecidableEq

/-- The collection of commands. (clitools 627-635; plainbox/impl/box.py 47-61) -/
structure Table where
  names : List Str
  load : Str → Load

/-- `startswith('-')`, clitools 695. -/
def dashed (w : Str) : Bool := w.head? = some '-'

/-- Words that argparse takes for options. (standard library; clitools 290-324) -/
def isOption (w : Str) : Bool := dashed w && w != "-".toList

/-- `load()` and registering all commands, clitools 737-747; plugins 715-741: the commands whose loading was tried, and
those registered or an exception. -/
def registerAll (t : Table) : List Str → List Str × Except Unit (List Str)
  | [] => ([], .ok [])
  | n :: ns =>
    match t.load n with
    | .fails => ([n], .error ())
    | .missing => (n :: (registerAll t ns).1, (registerAll t ns).2)
    | .ok => (n :: (registerAll t ns).1, (registerAll t ns).2.map (n :: ·))

/-- `add_subcommands_with_hints`, clitools 690-716, with `get_by_name`, plugins 778-795. -/
def register (t : Table) : List Str → List Str × Except Unit (List Str)
  | [] => registerAll t t.names
  | h :: hs =>
    if dashed h then register t hs
    else if t.names.contains h then
      match t.load h with
      | .ok => ([h], .ok [h])
      | .missing => (h :: (register t hs).1, (register t hs).2)
      | .fails => ([h], .error ())
    else register t hs

/-- What is before the command: the kinds of the options, whether the last one lacks its argument, and the words from the
command on. (standard library; clitools 290-324) -/
def lead (kind : Str → Kind) : List Str → List Kind × Bool × List Str
  | [] => ([], false, [])
  | w :: ws =>
    if isOption w then
      match kind w, ws with
      | .arg, [] => ([.arg], true, [])
      | .arg, a :: ws' => if isOption a then ([.arg], true, []) else (.arg :: (lead kind ws').1, (lead kind ws').2)
      | k, ws => (k :: (lead kind ws).1, (lead kind ws).2)
    else ([], false, w :: ws)

/-- How the tool gets on to the command. (clitools 290-324) -/
inductive Result
  | usage
  | help (shown : List Str)
  | version
  | noCommand
  | badChoice (w : Str) (shown : List Str)
  | command (name : Str) (args : List Str)
  | raised
deriving DecidableEq

/-- The first option that ends the parsing. (standard library; clitools 424-461) -/
def stop (registered : List Str) : List Kind → Option Result
  | [] => none
  | .help :: _ => some (.help registered)
  | .version :: _ => some .version
  | _ :: ks => stop registered ks

/-- `parse_args` of the full parser, which has been preceded by the early one, and `dispatch_command`.
(clitools 290-324, 463-471, 539-556) -/
def full (kind : Str → Kind) (registered : List Str) (argv : List Str) : Result :=
  match stop registered (lead kind argv).1 with
  | some r => r
  | none =>
    match (lead kind argv).2.2 with
    | [] => .noCommand
    | w :: args => if registered.contains w then .command w args else .badChoice w registered

/-- The early parser, where `--help` and `--version` do nothing: the words from the command on, or an error.
(clitools 424-436) -/
def early (kind : Str → Kind) (argv : List Str) : Option (List Str) :=
  if (lead kind argv).2.1 || (lead kind argv).1.contains .bad then none else some (lead kind argv).2.2

/-- `main` with a way to register commands, clitools 290-324. -/
def run (kind : Str → Kind) (reg : List Str → List Str × Except Unit (List Str)) (argv : List Str) : List Str × Result :=
  match early kind argv with
  | none => ([], .usage)
  | some rest =>
    match reg rest with
    | (tried, .error _) => (tried, .raised)
    | (tried, .ok registered) => (tried, full kind registered argv)

/-- `plainbox`, with the mix-in: the commands whose loading was tried, and what comes of the command line.
(clitools 637-662) -/
def lazily (kind : Str → Kind) (t : Table) (argv : List Str) : List Str × Result := run kind (register t) argv

/-- The same with the fallback in every case: `early_ns` is not passed on. (clitools 637-662) -/
def eagerly (kind : Str → Kind) (t : Table) (argv : List Str) : List Str × Result :=
  run kind (fun _ => registerAll t t.names) argv

end Verif.Hints
