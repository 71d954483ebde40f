import Verif.Model.Checksum
import Verif.Model.Export
import Verif.Model.Words

/-! # Siblings of jobs

Models `_add_job_unit` and `_add_job_siblings_unit` (`plainbox/impl/session/state.py`, "state"), by which a job brings other
jobs into the session: those described by its field `siblings`, and the job to be run again after the machine was suspended,
asked for by the flags `also-after-suspend` and `also-after-suspend-manual`. The fields of the jobs are read as in
`plainbox/impl/unit/unit.py` ("unit"), `plainbox/impl/unit/unit_with_id.py` and `plainbox/impl/unit/job.py` ("job").

Simplified: jobs have a provider. Of the parameters of a job made from a template nothing is known; inserting them into a text
is a function that is given, as are the translation of a text, the normalisation of a translated text, the reading of JSON
(values in the overrides are texts) and the comparison of checksums. Of the state of the session there are the jobs by id; the
lists of jobs and units and the signals are left out. Origin, controller and offsets of fields are handed on unchanged and left
out. How deep calls may be nested is a number that is given. -/

namespace Verif.Sibling

open Verif.Checksum (Str dictSet)

/-- A job definition: fields, fields as written in the file, namespace of the provider and the parameters. (unit 383-428) -/
structure Job (P : Type) where
  data : List (Str × Str)
  raw : List (Str × Str)
  ns : Str
  params : Option P

/-- Exceptions. (state 1103; unit 639; the rest as raised by Python) -/
inductive Exc
  | duplicate
  | text
  | json
  | key
  | recursion
deriving DecidableEq

/-- Functions of libraries: inserting parameters with the named engine (unit 622-646), translation (unit 849-862),
normalisation (unit 715), reading of JSON (state 1113), comparison of checksums (unit 450-456). -/
structure Lib (P : Type) where
  fmt : Option P → Str → Str → Option Str
  tr : Str → Str
  normalize : Str → Str
  loads : Str → Option (List (List (Str × Str)))
  same : Job P → Job P → Bool

variable {P : Type}

/-- `template_engine`, unit 521-529. -/
def engine (j : Job P) : Str := (j.data.lookup "template-engine".toList).getD "default".toList

/-- A text of a job with parameters inserted; only a text of a plain job that does not ask for Jinja2 is left alone.
(unit 622-646) -/
def insert (lib : Lib P) (j : Job P) (t : Str) : Except Exc Str :=
  if j.params.isNone = true ∧ engine j ≠ "jinja2".toList then .ok t
  else match lib.fmt j.params (engine j) t with
    | some s => .ok s
    | none => .error .text

/-- `get_record_value(name, default)`, unit 608-647. -/
def recordValue (lib : Lib P) (j : Job P) (name : Str) (default : Option Str := none) : Except Exc (Option Str) :=
  match (j.data.lookup ('_' :: name)).or ((j.data.lookup name).or default) with
  | none => .ok none
  | some t => (insert lib j t).map some

/-- `get_translated_record_value(name)`, unit 686-762. An empty text is not looked up (unit 858-861). -/
def trRecordValue (lib : Lib P) (j : Job P) (name : Str) : Except Exc (Option Str) :=
  match j.raw.lookup ('_' :: name) with
  | some msgid => (insert lib j (lib.normalize (if msgid = [] then msgid else lib.tr msgid))).map some
  | none =>
    match j.data.lookup name with
    | some t => (insert lib j t).map some
    | none => .ok none

/-- `partial_id`, job 263-270. -/
def partialId (lib : Lib P) (j : Job P) : Except Exc (Option Str) :=
  match recordValue lib j "name".toList with
  | .error e => .error e
  | .ok d => recordValue lib j "id".toList d

/-- What `"{}".format(value)` shows for a text or for `None`. (state 1136-1138) -/
def shown : Option Str → Str
  | some t => t
  | none => "None".toList

/-- `id`, unit_with_id.py 88-101. -/
def jobId (lib : Lib P) (j : Job P) : Except Exc (Option Str) :=
  match partialId lib j with
  | .error e => .error e
  | .ok p => .ok (match p with
    | some (c :: p) => some (j.ns ++ "::".toList ++ c :: p)
    | p => p)

/-- `summary`, job 279-281. -/
def summary (lib : Lib P) (j : Job P) : Except Exc (Option Str) :=
  match partialId lib j with
  | .error e => .error e
  | .ok p => recordValue lib j "summary".toList p

/-- The characters that `[\s,]` matches. (job 549) -/
def isSep (c : Char) : Bool := Text.isSpace c || c == ','

/-- `re.split('[\s,]+', text)`: the text read so far since the last separator (backwards), and whether the last character was
a separator. (job 549) -/
def split : Str → Str → Bool → List Str
  | [], acc, _ => [acc.reverse]
  | c :: t, acc, after =>
    if isSep c = true then
      if after = true then split t acc true else acc.reverse :: split t [] true
    else split t (c :: acc) false

/-- `get_flag_set`, job 543-551, as a list. -/
def flagSet (lib : Lib P) (j : Job P) : Except Exc (List Str) :=
  match recordValue lib j "flags".toList with
  | .error e => .error e
  | .ok none => .ok []
  | .ok (some t) => .ok (split t [] false)

/-- `qualify_id`, unit 775-792. -/
def qualify (j : Job P) (i : Str) : Str := if "::".toList <:+: i then i else j.ns ++ "::".toList ++ i

/-- `get_direct_dependencies`, job 616-636, as a list; what is not a word is only logged. `n` bounds the number of words read. -/
def dependencies (lib : Lib P) (n : Nat) (j : Job P) : Except Exc (List Str) :=
  match recordValue lib j "depends".toList with
  | .error e => .error e
  | .ok none => .ok []
  | .ok (some t) =>
    match Words.wordList n t with
    | .error _ => .error .text
    | .ok l => .ok (l.filterMap fun e => match e with
      | .text w => some (qualify j w)
      | _ => none)

/-- The fields of the job but for those whose name ends in `siblings`. (state 1114-1117, 1129-1132, 1156-1159) -/
def plainData (j : Job P) : List (Str × Str) := j.data.filter fun kv => !"siblings".toList.isSuffixOf kv.1

/-- `JobDefinition(data, ...)`: the data also serve as the data as written. (state 1119-1126, 1146-1153, 1173-1180; unit 415-416) -/
def derive (j : Job P) (data : List (Str × Str)) : Job P := { j with data := data, raw := data }

/-- The sibling with the given overrides. (state 1113-1127) -/
def sibling (j : Job P) (overrides : List (Str × Str)) : Job P :=
  derive j (overrides.foldl (fun d kv => dictSet kv.1 kv.2 d) (plainData j))

/-- The flag `also-after-suspend`. (state 1128) -/
def autoFlag : Str := "also-after-suspend".toList

/-- The flag `also-after-suspend-manual`. (state 1155) -/
def manualFlag : Str := "also-after-suspend-manual".toList

/-- The two ways of suspending. (state 1128, 1155) -/
inductive Kind
  | auto
  | manual
deriving DecidableEq

/-- The flag that asks for it. (state 1128, 1155) -/
def Kind.flag : Kind → Str
  | .auto => autoFlag
  | .manual => manualFlag

/-- Beginning of the id of the new job. (state 1136, 1163) -/
def Kind.prefix : Kind → Str
  | .auto => "after-suspend-".toList
  | .manual => "after-suspend-manual-".toList

/-- The job that suspends the machine. (state 1139-1140, 1166-1167) -/
def Kind.test : Kind → Str
  | .auto => "com.canonical.certification::suspend/suspend_advanced_auto".toList
  | .manual => "com.canonical.certification::suspend/suspend_advanced".toList

/-- The flags of the new job: `replace` twice. (state 1133-1135, 1160-1162) -/
def withoutFlags (t : Str) : Str :=
  let t := Export.replaceAll autoFlag [] t.length t
  Export.replaceAll manualFlag [] t.length t

/-- The job to be run after the machine was suspended. (state 1128-1154, 1155-1181) -/
def suspended (lib : Lib P) (k : Kind) (j : Job P) : Except Exc (Job P) :=
  let data := plainData j
  match data.lookup "flags".toList with
  | none => .error .key
  | some flags =>
    let data := dictSet "flags".toList (withoutFlags flags) data
    match partialId lib j with
    | .error e => .error e
    | .ok p =>
      let data := dictSet "id".toList (k.prefix ++ shown p) data
      match summary lib j with
      | .error e => .error e
      | .ok s =>
        let data := dictSet "_summary".toList (shown s ++ " after suspend (S3)".toList) data
        match recordValue lib j "depends".toList with
        | .error e => .error e
        | .ok deps =>
          match jobId lib j with
          | .error e => .error e
          | .ok i =>
            let suffix := shown i ++ ' ' :: k.test
            match deps with
            | some (_ :: _) =>
              match data.lookup "depends".toList with
              | none => .error .key
              | some old => .ok (derive j (dictSet "depends".toList (old ++ ' ' :: suffix) data))
            | _ => .ok (derive j (dictSet "depends".toList suffix data))

/-- What a part of `_add_job_siblings_unit` makes, and the exception that ends it. (state 1111-1181) -/
abbrev Made (P : Type) := List (Job P) × Option Exc

/-- The siblings. (state 1112-1127) -/
def madeSiblings (lib : Lib P) (j : Job P) : Made P :=
  match recordValue lib j "siblings".toList with
  | .error e => ([], some e)
  | .ok (some (_ :: _)) =>
    match trRecordValue lib j "siblings".toList with
    | .ok (some t) =>
      match lib.loads t with
      | none => ([], some .json)
      | some os => (os.map (sibling j), none)
    | .ok none => ([], some .json)
    | .error e => ([], some e)
  | .ok _ => ([], none)

/-- The job to run after suspending in one way. (state 1128-1154, 1155-1181) -/
def madeSuspended (lib : Lib P) (k : Kind) (j : Job P) : Made P :=
  match flagSet lib j with
  | .error e => ([], some e)
  | .ok fs =>
    if k.flag ∈ fs then
      match suspended lib k j with
      | .error e => ([], some e)
      | .ok s => ([s], none)
    else ([], none)

/-- One part after the other. (state 1111-1181) -/
def Made.andThen (a b : Made P) : Made P :=
  match a.2 with
  | some _ => a
  | none => (a.1 ++ b.1, b.2)

/-- The jobs that `_add_job_siblings_unit` makes of a job, in order. (state 1111-1181) -/
def made (lib : Lib P) (j : Job P) : Made P :=
  (madeSiblings lib j).andThen ((madeSuspended lib .auto j).andThen (madeSuspended lib .manual j))

/-- The jobs of a session by id. (state 1091) -/
abbrev Known (P : Type) := List (Option Str × Job P)

/-- The job with an id. (state 1088) -/
def find (known : Known P) (i : Option Str) : Option (Job P) := (known.find? fun e => e.1 = i).map (·.2)

/-- Add jobs one after the other until there is an exception. (state 1113-1127, 1146, 1173) -/
def addEach (add : Known P → Job P → Known P × Option Exc) : List (Job P) → Option Exc → Known P →
    Known P × Option Exc
  | [], e, known => (known, e)
  | j :: js, e, known =>
    match add known j with
    | (known, some e) => (known, some e)
    | (known, none) => addEach add js e known

/-- `_add_job_unit`, state 1085-1109. `n` is how deep calls may be nested. -/
def addJob (lib : Lib P) : Nat → Known P → Job P → Known P × Option Exc
  | 0, known, _ => (known, some .recursion)
  | n + 1, known, j =>
    match jobId lib j with
    | .error e => (known, some e)
    | .ok i =>
      match find known i with
      | none => addEach (addJob lib n) (made lib j).1 (made lib j).2 (known ++ [(i, j)])
      | some existing =>
        if lib.same j existing = true then addEach (addJob lib n) (made lib j).1 (made lib j).2 known
        else (known, some .duplicate)

end Verif.Sibling
