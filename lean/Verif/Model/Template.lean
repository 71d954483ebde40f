import Verif.Model.Checksum

/-! # Templates

Models `TemplateUnit.instantiate_all`, `instantiate_one` and `should_instantiate`
(`plainbox/impl/unit/template.py`), `get_accessed_parameters` (`plainbox/impl/unit/__init__.py`), the
`instantiate_template` methods of the unit classes, and the parts of the standard library's
`string.Formatter` they use: `parse`, and which parameters `vformat` looks up.

Simplifications: the filter program is a function from resources to its outcome (see `Resource` for
programs); for the `jinja2` engine the set of accessed parameters is a function of the text, and the
fields of the template itself are not rendered. -/

namespace Verif.Template

open Verif.Checksum (Str PVal Unit' dictSet)

/-! ## `string.Formatter` -/

/-- What a format string is reading (CPython's `MarkupIterator_next` and `parse_field`): literal text,
just after `{`, just after `}`, a field name, an index in a field name, the character of a
conversion, what follows it, a format specification with its number of open braces.
(standard library; used in unit/__init__.py:33-62 and unit.py:608-647) -/
inductive FState
  | lit
  | opened
  | closed
  | name (n : Str)
  | bracket (n : Str)
  | conv (n : Str)
  | afterConv (n : Str)
  | spec (n s : Str) (count : Nat)
deriving DecidableEq

/-- One character inside a field name. (standard library; used in unit/__init__.py:33-62 and unit.py:608-647) -/
def nameStep (n : Str) (c : Char) (out : List (Str × Str)) : Option (FState × List (Str × Str)) :=
  if c = '{' then none
  else if c = '[' then some (.bracket (n ++ [c]), out)
  else if c = '}' then some (.lit, out ++ [(n, [])])
  else if c = ':' then some (.spec n [] 1, out)
  else if c = '!' then some (.conv n, out)
  else some (.name (n ++ [c]), out)

/-- One character of a format string; `none` is a `ValueError`.
(standard library; used in unit/__init__.py:33-62 and unit.py:608-647) -/
def fstep : FState × List (Str × Str) → Char → Option (FState × List (Str × Str))
  | (.lit, out), c =>
    if c = '{' then some (.opened, out) else if c = '}' then some (.closed, out) else some (.lit, out)
  | (.opened, out), c => if c = '{' then some (.lit, out) else nameStep [] c out
  | (.closed, out), c => if c = '}' then some (.lit, out) else none
  | (.name n, out), c => nameStep n c out
  | (.bracket n, out), c => some (if c = ']' then .name (n ++ [c]) else .bracket (n ++ [c]), out)
  | (.conv n, out), _ => some (.afterConv n, out)
  | (.afterConv n, out), c =>
    if c = '}' then some (.lit, out ++ [(n, [])])
    else if c = ':' then some (.spec n [] 1, out) else none
  | (.spec n s k, out), c =>
    if c = '{' then some (.spec n (s ++ [c]) (k + 1), out)
    else if c = '}' then
      if k = 1 then some (.lit, out ++ [(n, s)]) else some (.spec n (s ++ [c]) (k - 1), out)
    else some (.spec n (s ++ [c]) k, out)

/-- All characters of a format string (standard library; used in unit/__init__.py:33-62 and unit.py:608-647). -/
def frun (st : FState × List (Str × Str)) : Str → Option (FState × List (Str × Str))
  | [] => some st
  | c :: l => (fstep st c).bind fun st => frun st l

/-- `string.Formatter().parse(text)`: the field names and format specifications; `none` is a
`ValueError`. (standard library; used in unit/__init__.py:33-62 and unit.py:608-647) -/
def parseFormat (text : Str) : Option (List (Str × Str)) :=
  match frun (.lit, []) text with
  | some (.lit, out) => some out
  | _ => none

/-- The first part of a field name, `_string.formatter_field_name_split`.
(standard library; used in unit/__init__.py:33-62 and unit.py:608-647) -/
def firstPart : Str → Str
  | [] => []
  | c :: l => if c = '.' ∨ c = '[' then [] else c :: firstPart l

/-- The names that `string.Formatter().vformat(text, (), parameters)` looks up, at most `depth` levels
of format specifications deep (two in the library); `none` is a `ValueError`. That an empty or
numeric name is looked up among the (absent) positional arguments, and that a failed look up raises
before the rest is looked at, are left out: the names are those of a rendering that succeeds. (unit.py:608-647) -/
def lookups : Nat → Str → Option (List Str)
  | 0, text => match parseFormat text with
    | some [] => some []
    | _ => none
  | d + 1, text => (parseFormat text).bind fun fs =>
      (fs.mapM fun f => (lookups d f.2).map fun l => firstPart f.1 :: l).map List.flatten

/-! ## Templates -/

/-- The outcome of a filter program: the value of `evaluate_or_raise`, `ExpressionFailedError`, or
another exception. (template.py:390-416) -/
inductive FOut
  | value (b : Bool)
  | failed
  | raised
deriving DecidableEq

/-- The registered unit classes (setup.py 99-109). -/
inductive Cls
  | unit | job | template | category | testPlan | manifestEntry | packaging | exporter
deriving DecidableEq

/-- `all_units.get_by_name(name)`, template.py 303; `none` is a `KeyError`. -/
def clsOf (name : Str) : Option Cls :=
  if name = "unit".toList then some .unit
  else if name = "job".toList then some .job
  else if name = "template".toList then some .template
  else if name = "category".toList then some .category
  else if name = "test plan".toList then some .testPlan
  else if name = "manifest entry".toList then some .manifestEntry
  else if name = "packaging meta-data".toList then some .packaging
  else if name = "exporter".toList then some .exporter
  else none

/-- What is passed where the initialisers expect a provider, an origin or raw data. The wrong kinds
occur because one of the methods has its arguments in the wrong order. (unit.py:432-449, template.py:144-161) -/
inductive Obj (P O : Type)
  | provider (p : P)
  | origin (o : O)
  | rawData (d : List (Str × Str))
deriving DecidableEq

/-- A unit made from a template. (unit.py:383-429) -/
structure Inst (P O : Type) where
  cls : Cls
  data : List (Str × Str)
  rawData : Obj P O
  origin : Obj P O
  provider : Obj P O
  params : List (Str × PVal)
deriving DecidableEq

/-- Exceptions of instantiation (template.py:305-416). -/
inductive Exc
  | keyError
  | valueError
  | assertionError
  | filterError
deriving DecidableEq

/-- `instantiate_template` of the classes: unit.py 431-449, job.py 223-241, category.py 51-69,
template.py 143-161 (where `raw_data`, `origin`, `provider` go to the parameters `origin`, `provider`,
`raw_data` of the initialiser). The other classes inherit the method of `Unit`, whose assertion they
fail. -/
def instantiateTemplate {P O : Type} (cls : Cls) (data raw : List (Str × Str)) (origin : O)
    (provider : P) (params : List (Str × PVal)) : Except Exc (Inst P O) :=
  match cls with
  | .unit => .ok ⟨cls, data, .rawData raw, .origin origin, .provider provider, params⟩
  | .job => .ok ⟨cls, data, .rawData raw, .origin origin, .provider provider, params⟩
  | .category => .ok ⟨cls, data, .rawData raw, .origin origin, .provider provider, params⟩
  | .template => .ok ⟨cls, data, .provider provider, .rawData raw, .origin origin, params⟩
  | .testPlan => .error .assertionError
  | .manifestEntry => .error .assertionError
  | .packaging => .error .assertionError
  | .exporter => .error .assertionError

/-- A template unit: its dictionaries, its provider and origin. (template.py:105-141) -/
structure Tmpl (P O : Type) where
  data : List (Str × Str)
  rawData : List (Str × Str)
  provider : P
  origin : O

/-- The data of a resource object. (resource.py:80-98) -/
abbrev Res := List (Str × Str)

/-- `template_engine`, unit.py 522-529. -/
def engine (d : List (Str × Str)) : Str := (d.lookup "template-engine".toList).getD "default".toList

/-- `template_unit`, template.py 261-270, through `get_record_value`, unit.py 617-619. -/
def templateUnit (d : List (Str × Str)) : Str :=
  ((d.lookup "_template-unit".toList).or (d.lookup "template-unit".toList)).getD "job".toList

/-- Remove the fields of the template itself and set two others, template.py 356-367; the values
come from the data, also for the raw data. -/
def targetData (d0 d : List (Str × Str)) : List (Str × Str) :=
  dictSet "unit".toList (templateUnit d0)
    (dictSet "template-engine".toList (engine d0)
      (d.filter fun kv => !("template-".toList).isPrefixOf kv.1))

/-- `get_accessed_parameters`, unit/__init__.py 33-57; `jinja` stands for the analysis by the jinja2
library. -/
def accessed (jinja : Str → Option (List Str)) (engine text : Str) : Option (List Str) :=
  if engine = "jinja2".toList then jinja text
  else (parseFormat text).map fun fs => fs.map (·.1)

/-- The parameters accessed by any field, template.py 371-373. -/
def accessedAll (jinja : Str → Option (List Str)) (engine : Str) (d : List (Str × Str)) :
    Option (List Str) :=
  (d.mapM fun kv => accessed jinja engine kv.2).map List.flatten

/-- The parameters of the new unit, template.py 380-383. -/
def paramsFor (acc : List Str) (r : Res) (index : Nat) : List (Str × PVal) :=
  dictSet "__index__".toList (.num index)
    ((r.filter fun kv => acc.contains kv.1).map fun kv => (kv.1, .str kv.2))

/-- `instantiate_one`, template.py 328-388, with the class given. -/
def instantiateOne {P O : Type} (jinja : Str → Option (List Str)) (t : Tmpl P O) (cls : Cls) (r : Res)
    (index : Nat) : Except Exc (Inst P O) :=
  match accessedAll jinja (engine t.data) (targetData t.data t.data) with
  | none => .error .valueError
  | some acc => instantiateTemplate cls (targetData t.data t.data) (targetData t.data t.rawData)
      t.origin t.provider (paramsFor acc r index)

/-- `should_instantiate`, template.py 390-416; `none` for a template without a filter. -/
def shouldInstantiate (filter : Option (Res → FOut)) (r : Res) : Except Exc Bool :=
  match filter with
  | none => .ok true
  | some f => match f r with
    | .value b => .ok b
    | .failed => .ok false
    | .raised => .error .filterError

/-- The loop of `instantiate_all`, template.py 319-325. -/
def instLoop {P O : Type} (jinja : Str → Option (List Str)) (filter : Option (Res → FOut))
    (t : Tmpl P O) (cls : Cls) : List Res → Nat → Except Exc (List (Inst P O))
  | [], _ => .ok []
  | r :: rs, index => (shouldInstantiate filter r).bind fun b =>
    if b then (instantiateOne jinja t cls r (index + 1)).bind fun u =>
      (instLoop jinja filter t cls rs (index + 1)).map (u :: ·)
    else instLoop jinja filter t cls rs index

/-- `instantiate_all`, template.py 305-326. -/
def instantiateAll {P O : Type} (jinja : Str → Option (List Str)) (filter : Option (Res → FOut))
    (t : Tmpl P O) (rs : List Res) : Except Exc (List (Inst P O)) :=
  match clsOf (templateUnit t.data) with
  | none => .error .keyError
  | some cls => instLoop jinja filter t cls rs 0

end Verif.Template
