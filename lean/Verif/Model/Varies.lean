import Verif.Model.Template

/-! # Validation of templates

Models `TemplateUnitValidator.check` (`plainbox/impl/unit/template.py`), the validators that compare fields with the
parameters of a template (`plainbox/impl/unit/validators.py`, "validators"), how they report, and how the fields of a unit
made from a template are read (`plainbox/impl/unit/unit.py`, "unit"), with the part of `string.Formatter` that this uses.

Simplified: of a class only the validators `untranslatable`, `templateVariant` and `templateInvariant` are modelled. What
formatting gives for attributes, indices, conversions and format specifications is a function that is given, and so is
what `jinja2` renders. -/

namespace Verif.Varies

open Verif.Checksum (Str PVal)
open Verif.Template

/-- A part of a format string: a character or a field with its conversion and format specification.
(standard library; used in unit 608-647) -/
inductive Piece
  | ch (c : Char)
  | fld (name : Str) (conv : Option Char) (spec : Str)
deriving DecidableEq

/-- What a format string is reading, as `Template.FState`, with the conversion. (standard library; used in unit 608-647) -/
inductive PState
  | lit
  | opened
  | closed
  | name (n : Str)
  | bracket (n : Str)
  | conv (n : Str)
  | afterConv (n : Str) (c : Char)
  | spec (n : Str) (conv : Option Char) (s : Str) (count : Nat)
deriving DecidableEq

/-- One character inside a field name. (standard library; used in unit 608-647) -/
def pname (n : Str) (c : Char) (out : List Piece) : Option (PState × List Piece) :=
  if c = '{' then none
  else if c = '[' then some (.bracket (n ++ [c]), out)
  else if c = '}' then some (.lit, out ++ [.fld n none []])
  else if c = ':' then some (.spec n none [] 1, out)
  else if c = '!' then some (.conv n, out)
  else some (.name (n ++ [c]), out)

/-- One character of a format string; `none` is a `ValueError`. (standard library; used in unit 608-647) -/
def pstep : PState × List Piece → Char → Option (PState × List Piece)
  | (.lit, out), c =>
    if c = '{' then some (.opened, out) else if c = '}' then some (.closed, out) else some (.lit, out ++ [.ch c])
  | (.opened, out), c => if c = '{' then some (.lit, out ++ [.ch c]) else pname [] c out
  | (.closed, out), c => if c = '}' then some (.lit, out ++ [.ch c]) else none
  | (.name n, out), c => pname n c out
  | (.bracket n, out), c => some (if c = ']' then .name (n ++ [c]) else .bracket (n ++ [c]), out)
  | (.conv n, out), c => some (.afterConv n c, out)
  | (.afterConv n cv, out), c =>
    if c = '}' then some (.lit, out ++ [.fld n (some cv) []])
    else if c = ':' then some (.spec n (some cv) [] 1, out) else none
  | (.spec n cv s k, out), c =>
    if c = '{' then some (.spec n cv (s ++ [c]) (k + 1), out)
    else if c = '}' then
      if k = 1 then some (.lit, out ++ [.fld n cv s]) else some (.spec n cv (s ++ [c]) (k - 1), out)
    else some (.spec n cv (s ++ [c]) k, out)

/-- All characters of a format string. (standard library; used in unit 608-647) -/
def prun (st : PState × List Piece) : Str → Option (PState × List Piece)
  | [] => some st
  | c :: l => (pstep st c).bind fun st => prun st l

/-- `string.Formatter().parse(text)`; `none` is a `ValueError`. (standard library; used in unit 608-647) -/
def pieces (text : Str) : Option (List Piece) :=
  match prun (.lit, []) text with
  | some (.lit, out) => some out
  | _ => none

/-- A letter or underscore (standard library; used in unit 608-647). -/
def isLetter (c : Char) : Bool := c.isAlpha || c == '_'

/-- Names that are looked up as they are: not attributes or items of something, and not numbers.
(standard library; used in unit 608-647) -/
def isPlain (n : Str) : Bool := n.any isLetter && n.all fun c => c != '.' && c != '['

/-- `str(value)` of a parameter. (standard library; used in unit 608-647) -/
def showVal : PVal → Str
  | .str s => s
  | .num n => Nat.toDigits 10 n

/-- What the standard library and jinja2 do that is not modelled: the value of a field that is not plain, the parameters
that a jinja2 template mentions, and what it renders; `none` is an exception.
(standard library; used in unit 608-647, unit/__init__.py 33-57) -/
structure Lib where
  other : Str → Option Char → Str → List (Str × PVal) → Option Str
  jinja : Str → Option (List Str)
  render : Str → List (Str × PVal) → Option Str

/-- `string.Formatter().vformat(text, (), parameters)`; `none` is an exception. (unit 635-639) -/
def vformat (lib : Lib) (params : List (Str × PVal)) : List Piece → Option Str
  | [] => some []
  | .ch c :: ps => (vformat lib params ps).map (c :: ·)
  | .fld n cv s :: ps =>
    (if cv = none ∧ s = [] ∧ isPlain n = true then (params.lookup n).map showVal else lib.other n cv s params).bind fun v =>
      (vformat lib params ps).map (v ++ ·)

variable {P O : Type}

/-- Insert the parameters of a unit made from a template into a text; `none` is an exception. (unit 623-639) -/
def insert (lib : Lib) (u : Inst P O) (t : Str) : Option Str :=
  if engine u.data = "jinja2".toList then lib.render t u.params
  else (pieces t).bind fun ps => vformat lib u.params ps

/-- `get_record_value(f, default)` of a unit made from a template; `none` is an exception. Parameters are inserted into
the default as well. (unit 608-647) -/
def recordValue (lib : Lib) (u : Inst P O) (f : Str) (default : Option Str := none) : Option (Option Str) :=
  match (u.data.lookup ('_' :: f)).or ((u.data.lookup f).or default) with
  | none => some none
  | some t => (insert lib u t).map some

/-- Issues of the validators that are modelled. (validators 441-499, template 70-71) -/
inductive Issue
  | marked (f : Str)
  | variable (f : Str)
  | constant (f : Str)
  | unknown (f p : Str)
  | unable
deriving DecidableEq

/-- `partial_id`: unit_with_id.py 82-86; for jobs the field `name` may be used instead (job.py 264-270). -/
def partialId (lib : Lib) (u : Inst P O) : Option (Option Str) :=
  match u.cls with
  | .job => (recordValue lib u "name".toList).bind fun d => recordValue lib u "id".toList d
  | _ => recordValue lib u "id".toList

/-- `report_issue`, unit 171-241: if the class has identifiers, the message holds it (unit_with_id.py 48-69), so that one
that cannot be read ends the validation. -/
def report (lib : Lib) (u : Inst P O) (i : Issue) : Option (List Issue) :=
  match u.cls with
  | .unit => some [i]
  | _ => (partialId lib u).map fun _ => [i]

/-- Several issues, one after the other. (unit 114-126) -/
def reports (lib : Lib) (u : Inst P O) : List Issue → Option (List Issue)
  | [] => some []
  | i :: is => (report lib u i).bind fun a => (reports lib u is).map (a ++ ·)

/-- `UntranslatableFieldValidator.check`, validators 441-444, and `is_translatable_field`, unit 767-776. -/
def checkUntranslatable (lib : Lib) (u : Inst P O) (f : Str) : Option (List Issue) :=
  (recordValue lib u f).bind fun v =>
    if v ≠ none ∧ v ≠ some [] ∧ (u.data.lookup ('_' :: f)).isSome then report lib u (.marked f) else some []

/-- `TemplateInvariantFieldValidator.check`, validators 452-466. -/
def checkInvariant (lib : Lib) (u : Inst P O) (f : Str) : Option (List Issue) :=
  match u.data.lookup f with
  | none => some []
  | some v => (accessed lib.jinja (engine u.data) v).bind fun ps =>
    if ps.isEmpty then some [] else report lib u (.variable f)

/-- `TemplateVariantFieldValidator.check`, validators 477-499. -/
def checkVariant (lib : Lib) (u : Inst P O) (f : Str) : Option (List Issue) :=
  match u.data.lookup f with
  | none => some []
  | some v => (accessed lib.jinja (engine u.data) v).bind fun ps =>
    reports lib u ((if ps.isEmpty then [.constant f] else []) ++
      (ps.eraseDups.filter fun p => (u.params.lookup p).isNone).map fun p => .unknown f p)

/-- What a field of a class must be: `untranslatable`, and then variant or not. (unit 936-944, unit_with_id.py 112-116,
job.py 735-1065, category.py 102-106) -/
structure Rule where
  field : Str
  plain : Bool
  variant : Bool

/-- The validators of a class, in the order of the names of the fields (unit 123). Templates and the classes that cannot
be instantiated are left out. (unit 936-944, unit_with_id.py 112-116, job.py 735-1065, category.py 102-106) -/
def rules : Cls → List Rule
  | .unit => [⟨"unit".toList, true, false⟩]
  | .category => [⟨"id".toList, true, true⟩, ⟨"name".toList, false, true⟩, ⟨"unit".toList, true, false⟩]
  | .job => [⟨"auto_retry".toList, true, false⟩, ⟨"category_id".toList, true, false⟩,
      ⟨"certification_status".toList, true, false⟩, ⟨"description".toList, false, true⟩,
      ⟨"environ".toList, true, false⟩, ⟨"estimated_duration".toList, true, false⟩, ⟨"flags".toList, true, false⟩,
      ⟨"id".toList, true, true⟩, ⟨"imports".toList, true, false⟩, ⟨"name".toList, true, true⟩,
      ⟨"plugin".toList, true, false⟩, ⟨"qml_file".toList, true, false⟩, ⟨"shell".toList, true, false⟩,
      ⟨"summary".toList, false, true⟩, ⟨"unit".toList, true, false⟩, ⟨"user".toList, true, false⟩]
  | _ => []

/-- The validators of a field, one after the other. (unit 123-126) -/
def checkRule (lib : Lib) (u : Inst P O) (r : Rule) : Option (List Issue) :=
  (if r.plain then checkUntranslatable lib u r.field else some []).bind fun a =>
    (if r.variant then checkVariant lib u r.field else checkInvariant lib u r.field).map (a ++ ·)

/-- `UnitValidator.check`, unit 114-126; `none` is an exception. -/
def checkRules (lib : Lib) (u : Inst P O) : List Rule → Option (List Issue)
  | [] => some []
  | r :: rs => (checkRule lib u r).bind fun a => (checkRules lib u rs).map (a ++ ·)

/-- The made up resource, template.py 62-67. -/
def fake (upper : Str → Str) (names : List Str) : Res := names.eraseDups.map fun n => (n, upper n)

/-- `TemplateUnitValidator.check` after the checks of the fields of the template itself: the issues it yields, and those
that only get into the list of the validator; `none` is an exception. (template.py 57-78) -/
def checkTemplate (lib : Lib) (upper : Str → Str) (t : Tmpl P O) : Option (List Issue × List Issue) :=
  match accessedAll lib.jinja (engine t.data) t.data with
  | none => none
  | some names =>
    match clsOf (templateUnit t.data) with
    | none => some ([], [.unable])
    | some cls =>
      match instantiateOne lib.jinja t cls (fake upper names) 0 with
      | .error _ => some ([], [.unable])
      | .ok u => (checkRules lib u (rules cls)).map fun is => (is, [])

end Verif.Varies
