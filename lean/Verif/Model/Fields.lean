import Verif.Model.RFC822

/-!
# The fields of a unit

Model of how the fields of a unit are read: `Unit.from_rfc822_record`, `get_record_value`,
`get_raw_record_value`, `get_translated_record_value` (plainbox/impl/unit/unit.py, "unit"),
`ProviderDefinition.get_translated_data` (plainbox/impl/secure/providers/v1.py 1035-1049), the texts of a job
(plainbox/impl/unit/job.py, "job") and the two decorators that remember what was read
(plainbox/impl/decorators.py, "decorators").

Simplified: values are texts; what the two template engines do with a text and what `dgettext` gives are
functions; instead of `None` among the values of a dictionary the key is absent.
-/

namespace Verif.Fields

open Verif.Text
open Verif.RFC822 (Str Rec normalize)

/-- Exceptions: `KeyError`, `MissingParam`, another one. (unit 608-761, 75-94) -/
inductive Exc
  | keyError | missingParam | other
deriving DecidableEq, Repr

/-- `data`, `raw_data`, `is_parametric` and `template_engine` (unit 383-428, 521-548). -/
structure Unit' where
  data : List (Str × Str)
  raw : List (Str × Str)
  parametric : Bool
  jinja2 : Bool
deriving DecidableEq, Repr

/-- What is outside of the unit.  `format`: `string.Formatter().vformat(value, (), self.parameters)`;
`render`: `Template(value).render(…)`, with or without parameters, with the environment of the process;
`translate`: `get_translated_data` of the unit (unit 849-862), `dgettext` or nothing; `label`: `gettext` of
"PURPOSE" etc. -/
structure Env where
  format : Str → Except Exc Str
  render : Bool → Str → Except Exc Str
  translate : Str → Str
  label : Str → Str

/-- `value.rstrip('\n')`. (unit 585-605) -/
def rstripNL (v : Str) : Str := (v.reverse.dropWhile (· = '\n')).reverse

/-- `Unit.from_rfc822_record`, unit 585-605; `raw_data` of a record are its fields. -/
def fromRecord (r : Rec) : Unit' where
  data := r.data
  raw := r.fields.map fun f => (f.1, rstripNL f.2)
  parametric := false
  jinja2 := false

/-- How parameters are put into a value, unit 622-646, 670-684, 715-757. -/
def fill (env : Env) (u : Unit') (v : Str) : Except Exc Str :=
  if u.parametric then
    if u.jinja2 then env.render true v else env.format v
  else if u.jinja2 then env.render false v
  else .ok v

/-- `get_record_value`, unit 608-647. -/
def getRecordValue (env : Env) (u : Unit') (name : Str) (default : Option Str) : Except Exc (Option Str) :=
  match (u.data.lookup ('_' :: name)).or ((u.data.lookup name).or default) with
  | none => .ok none
  | some v =>
    match fill env u v with
    | .ok t => .ok (some t)
    | .error .keyError => .error (if u.parametric && !u.jinja2 then .missingParam else .keyError)
    | .error e => .error e

/-- `get_raw_record_value`, unit 650-684. -/
def getRawRecordValue (env : Env) (u : Unit') (name : Str) (default : Option Str) : Except Exc (Option Str) :=
  match (u.raw.lookup ('_' :: name)).or ((u.raw.lookup name).or default) with
  | none => .ok none
  | some v => (fill env u v).map some

/-- `get_translated_record_value`, unit 687-760. -/
def getTranslatedRecordValue (env : Env) (u : Unit') (name : Str) (default : Option Str) : Except Exc (Option Str) :=
  match u.raw.lookup ('_' :: name) with
  | some msgid => (fill env u (normalize (env.translate msgid))).map some
  | none =>
    match u.data.lookup name with
    | some v => (fill env u v).map some
    | none => .ok default

/-! ## Jobs -/

/-- The three ways to read a field. (unit 608-761) -/
inductive How
  | value | raw | translated
deriving DecidableEq, Repr

/-- One call of one of the three methods. (unit 608-761) -/
structure Field where
  how : How
  name : Str
  default : Option Str
deriving DecidableEq, Repr

/-- Reading a field, without remembering anything. (unit 608-761) -/
def Field.read (env : Env) (u : Unit') (f : Field) : Except Exc (Option Str) :=
  match f.how with
  | .value => getRecordValue env u f.name f.default
  | .raw => getRawRecordValue env u f.name f.default
  | .translated => getTranslatedRecordValue env u f.name f.default

/-- The texts of a job that are read from several fields (job 263-301, 473-503). -/
inductive Text
  | partialId | summary | description | trSummary | trDescription
deriving DecidableEq, Repr

/-- `['purpose', 'steps', 'verification']`, job 293, 494. -/
def stages : List Str := ["purpose".toList, "steps".toList, "verification".toList]

/-- `stage.upper()`, job 296. -/
def upper : Str → Str := fun s => s.map Char.toUpper

/-- The loop of `description` and `tr_description`, job 292-297, 493-498, reading with `get`. -/
def combine {σ : Type} (get : Str → σ → Except Exc (Option Str) × σ) (label : Str → Str) :
    List Str → Str → σ → Except Exc Str × σ
  | [], acc, s => (.ok acc, s)
  | n :: l, acc, s =>
    match get n s with
    | (.error e, s) => (.error e, s)
    | (.ok none, s) => combine get label l acc s
    | (.ok (some v), s) => combine get label l (acc ++ label n ++ ":\n".toList ++ v ++ "\n".toList) s

/-- The bodies of `partial_id`, `summary`, `description`, `tr_summary`, `tr_description`, job 263-301, 474-503.
They read fields with `get` and `partial_id` with `pid`, which may remember something. -/
def Text.compute {σ : Type} (env : Env) (get : Field → σ → Except Exc (Option Str) × σ)
    (pid : σ → Except Exc (Option Str) × σ) : Text → σ → Except Exc (Option Str) × σ
  | .partialId, s =>
    match get ⟨.value, "name".toList, none⟩ s with
    | (.error e, s) => (.error e, s)
    | (.ok d, s) => get ⟨.value, "id".toList, d⟩ s
  | .summary, s =>
    match pid s with
    | (.error e, s) => (.error e, s)
    | (.ok d, s) => get ⟨.value, "summary".toList, d⟩ s
  | .trSummary, s =>
    match pid s with
    | (.error e, s) => (.error e, s)
    | (.ok d, s) => get ⟨.translated, "summary".toList, d⟩ s
  | .description, s => described (fun n => get ⟨.value, n, none⟩) upper s
  | .trDescription, s => described (fun n => get ⟨.translated, n, none⟩) (fun n => env.label (upper n)) s
where
  /-- job 285-301, 484-503. -/
  described {σ : Type} (get : Str → σ → Except Exc (Option Str) × σ) (label : Str → Str) (s : σ) :
      Except Exc (Option Str) × σ :=
    match get "description".toList s with
    | (.error e, s) => (.error e, s)
    | (.ok (some v), s) => (.ok (some v), s)
    | (.ok none, s) =>
      match combine get label stages [] s with
      | (.error e, s) => (.error e, s)
      | (.ok t, s) => (.ok (if strip t = [] then none else some (strip t)), s)

/-! ## Remembering -/

/-- What a unit remembers: for each call of a method with `instance_method_lru_cache` (decorators 30-50) and for
each `cached_property` (decorators 53-67) the value it gave.  Exceptions are not remembered. -/
structure Memo where
  fields : List (Field × Option Str)
  texts : List (Text × Option Str)

/-- A call of a method with an `instance_method_lru_cache`. (decorators 30-49) -/
def askField (env : Env) (u : Unit') (f : Field) (m : Memo) : Except Exc (Option Str) × Memo :=
  match m.fields.lookup f with
  | some v => (.ok v, m)
  | none =>
    match f.read env u with
    | .error e => (.error e, m)
    | .ok v => (.ok v, { m with fields := (f, v) :: m.fields })

/-- Remember what a text was. (decorators 61-65) -/
def keep (t : Text) : Except Exc (Option Str) × Memo → Except Exc (Option Str) × Memo
  | (.error e, m) => (.error e, m)
  | (.ok v, m) => (.ok v, { m with texts := (t, v) :: m.texts })

/-- `job.partial_id`. (decorators 61-65) -/
def askPartialId (env : Env) (u : Unit') (m : Memo) : Except Exc (Option Str) × Memo :=
  match m.texts.lookup .partialId with
  | some v => (.ok v, m)
  | none => keep .partialId (Text.compute env (askField env u) (fun m => (.ok none, m)) .partialId m)

/-- Reading one of the texts of a job. (decorators 61-65) -/
def askText (env : Env) (u : Unit') (t : Text) (m : Memo) : Except Exc (Option Str) × Memo :=
  match m.texts.lookup t with
  | some v => (.ok v, m)
  | none =>
    match t with
    | .partialId => askPartialId env u m
    | t => keep t (Text.compute env (askField env u) (askPartialId env u) t m)

/-- Something that is read. (decorators 30-65) -/
inductive Query
  | field (f : Field)
  | text (t : Text)
deriving DecidableEq, Repr

/-- Reading it, with what is remembered. (decorators 30-65) -/
def ask (env : Env) (u : Unit') (m : Memo) : Query → Except Exc (Option Str) × Memo
  | .field f => askField env u f m
  | .text t => askText env u t m

/-- Reading some things one after the other; what is outside may change in between. (decorators 30-65) -/
def askAll (u : Unit') : List (Env × Query) → Memo → List (Except Exc (Option Str))
  | [], _ => []
  | (env, q) :: l, m => (ask env u m q).1 :: askAll u l (ask env u m q).2

end Verif.Fields
