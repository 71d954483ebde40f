import Verif.Model.Export
import Verif.Model.Checksum
import Verif.Model.Text

/-!
# Exporters by name

Models `SessionManager.exporter_map` and `SessionManager.create_exporter` in `plainbox/impl/session/manager.py` ("mgr" below), lines
449-509, `ExporterUnit.support` and `ExporterUnitSupport` in `plainbox/impl/unit/exporter.py` ("unit"), and what `plainbox run`
(`commands/inv_run.py`, "run") and `plainbox session export` (`commands/inv_session.py`, "session") do with `-f` and `-p`. The options
of exporters are those of `Verif.Model.Export`.

Simplifications: the class of an exporter is the list of the options it supports; whether a unit has problems (`check()`) is given;
messages are not translated; the data and the template of the unit are left out.
-/

namespace Verif.ByName

open Verif.Export (Str Dict mkOptions)
open Verif.Checksum (dictSet)

/-- A unit of the session: `Meta.name`, `id`, whether `check()` finds no problems, the options its class supports, the field `options`
(or `none`), the fields `file_extension` and `summary`. (mgr 453-457; unit 60-100, 167-176) -/
structure Unit where
  kind : Str
  id : Str
  sound : Bool
  supported : List Str
  options : Option Str
  ext : Str
  summary : Str
deriving DecidableEq

/-- `ExporterUnitSupport`, unit 167-176: the options its class supports, its option list, file extension and summary. -/
structure Support where
  supported : List Str
  options : List Str
  ext : Str
  summary : Str
deriving DecidableEq

/-- The characters of the class `[;,\s]`, unit 205. -/
def isSep (c : Char) : Bool := c == ';' || c == ',' || Text.isSpace c

/-- A character in front of the first piece. (Part of `re.split`, unit 205) -/
def addHead (c : Char) : List Str → List Str
  | [] => [[c]]
  | w :: ws => (c :: w) :: ws

/-- `re.split(r'[;,\s]+', text)`, unit 205; the flag tells that the character before was a separator too. -/
def pieces : Bool → Str → List Str
  | _, [] => [[]]
  | b, c :: r =>
    if isSep c then (if b then pieces true r else [] :: pieces true r) else addHead c (pieces false r)

/-- `_get_option_list`, unit 202-207. -/
def optionList (options : Option Str) : List Str :=
  if options.getD [] = [] then [] else pieces false (options.getD [])

/-- `ExporterUnit.support`, unit 60-64 and `ExporterUnitSupport.__init__`, unit 167-176. -/
def support (u : Unit) : Option Support :=
  if u.sound then some ⟨u.supported, optionList u.options, u.ext, u.summary⟩ else none

/-- The loop over the units, mgr 452-457. -/
def unitMap : List Unit → List (Str × Support) → List (Str × Support)
  | [], m => m
  | u :: us, m =>
    if u.kind = "exporter".toList then
      match support u with
      | some s => unitMap us (dictSet u.id s m)
      | none => unitMap us m
    else unitMap us m

/-- `legacy_mapping`, mgr 459-467. -/
def legacy : List (Str × Str) :=
  [("com.canonical.plainbox::global".toList, "global".toList), ("com.canonical.plainbox::html".toList, "html".toList),
    ("com.canonical.plainbox::json".toList, "json".toList), ("com.canonical.plainbox::junit".toList, "junit".toList),
    ("com.canonical.plainbox::tar".toList, "tar".toList), ("com.canonical.plainbox::text".toList, "text".toList),
    ("com.canonical.plainbox::xlsx".toList, "xlsx".toList)]

/-- The loop over the short names, mgr 468-470; the order of a `dict` is not defined in all versions of the language, this one is that of
the source. -/
def addShort : List (Str × Str) → List (Str × Support) → List (Str × Support)
  | [], m => m
  | (new, old) :: l, m =>
    match m.lookup new with
    | some s => addShort l (dictSet old s m)
    | none => addShort l m

/-- `exporter_map`, mgr 449-471. -/
def exporterMap (us : List Unit) : List (Str × Support) := addShort legacy (unitMap us [])

/-- What is raised: `KeyError` with the name, `ValueError` with the option, or `TypeError`. (mgr 500, 505-509; exporter/__init__.py 113,
127) -/
inductive Err
  | key (name : Str)
  | value (option : Str)
  | type
deriving DecidableEq

/-- An exporter: its unit and its options. (mgr 508-509) -/
structure Exporter where
  unit : Support
  options : Dict
deriving DecidableEq

/-- The class is called with the options and the unit, mgr 508-509. -/
def construct (s : Support) (options : Option (List Str)) : Except Err Exporter :=
  match mkOptions s.supported options (some s.options) with
  | .ok d => .ok ⟨s, d⟩
  | .error o => .error (.value o)

/-- The options that are left in the mode that is not strict, mgr 501-507; `None` cannot be iterated. -/
def lenient (s : Support) : Option (List Str) → Except Err (List Str)
  | none => .error .type
  | some l => .ok (l.filter fun o => s.supported.contains o)

/-- `create_exporter`, mgr 473-509. -/
def create (us : List Unit) (name : Str) (options : Option (List Str)) (strict : Bool) : Except Err Exporter :=
  match (exporterMap us).lookup name with
  | none => .error (.key name)
  | some s =>
    if strict then construct s options
    else
      match lenient s options with
      | .error e => .error e
      | .ok l => construct s (some l)

/-- The option list made from the text after `-p`, run 567-570 and session 191-194; `none` or an empty text give `None`. -/
def commandOptions (text : Option Str) : Option (List Str) :=
  if text.getD [] = [] then none else some (Text.splitOn ',' (text.getD []))

/-- How a command goes on: it lists the options of all formats, it lists the formats, perhaps after saying that there is no such format,
or it works with an exporter. (run 381-393; session 143-157) -/
inductive Next
  | listOptions (l : List (Str × List Str))
  | listFormats (l : List (Str × Str))
  | listNames (l : List Str)
  | invalid (name : Str) (l : List (Str × Str))
  | go (e : Exporter)
deriving DecidableEq

/-- `_print_output_option_list`, run 486-490; session 183-188. -/
def optionsOf (us : List Unit) : List (Str × List Str) := (exporterMap us).map fun p => (p.1, p.2.supported)

/-- `_print_output_format_list`, run 481-484. -/
def formatsOf (us : List Unit) : List (Str × Str) := (exporterMap us).map fun p => (p.1, p.2.summary)

/-- `plainbox run`: run 381-393 and `create_exporter`, run 561-572. -/
def runCommand (us : List Unit) (format : Str) (options : Option Str) : Except Err Next :=
  if options = some ['?'] then .ok (.listOptions (optionsOf us))
  else if format = ['?'] then .ok (.listFormats (formatsOf us))
  else if ((exporterMap us).lookup format).isNone then .ok (.invalid format (formatsOf us))
  else (create us format (commandOptions options) true).map .go

/-- `plainbox session export`, session 143-148, 157 and `_create_exporter`, session 190-195; the lists are made with the units of all
providers (`all`; applogic.py 100-113, session 179-188), the exporter with those of the session. -/
def exportCommand (all us : List Unit) (format : Str) (options : Option Str) : Except Err Next :=
  if format = ['?'] then .ok (.listNames ((exporterMap all).map (·.1)))
  else if options = some ['?'] then .ok (.listOptions (optionsOf all))
  else (create us format (commandOptions options) true).map .go

end Verif.ByName
