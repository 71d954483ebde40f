import Verif.Model.Sort
import Verif.Model.Text

/-!
# The spreadsheet report

Models the sheets "Test Results", "Summary" (its numbers) and "Log Files" of `XLSXSessionStateExporter`
(`impl/exporter/xlsx.py` 376-660).

Simplifications: formats, links, columns and the sheet with descriptions (which has the same rows) are left
out; writing a cell always succeeds; lines end with line feeds only; the data is what
`get_session_data_subset` makes (model `Export`), with the logs decoded from base64.
-/

namespace Verif.Sheet

open Verif.Sort (sortBy strLe)

/-- Text, as in xlsx.py 442-592. -/
abbrev Str := List Char

/-- The outcomes; `other` is anything that `OUTCOME_METADATA_MAP` (result.py 113-186) does not have. -/
inductive Outcome
  | pass | fail | skip | notSupported | notImplemented | undecided | crash
  | other (s : Str)
  deriving DecidableEq, Repr

/-- Whether the outcome is in `OUTCOME_METADATA_MAP` (result.py 113-186). -/
def Outcome.known : Outcome → Bool
  | .other _ => false
  | _ => true

/-- An item of `result_map`; a missing `plugin` is `none`, a log that is not UTF-8 is `none`.
(exporter/__init__.py 248-296) -/
structure Entry where
  summary : Str
  category : Str
  outcome : Outcome
  plugin : Option Str
  log : Option Str
  comments : Option Str
  certification : Option Str
  deriving DecidableEq, Repr

/-- Exceptions. (xlsx 442-592, 632-656) -/
inductive Err
  | key | unicode
  deriving DecidableEq, Repr

/-- What `_tree` makes of a category: `category_status` and the keys of `res[category]`. (xlsx 442-473) -/
structure Cat where
  status : Option Outcome
  jobs : List Str
  deriving DecidableEq, Repr

/-- The status of a category after one more job (455-470). -/
def childStatus (cur : Option Outcome) (child : Outcome) : Option Outcome :=
  if child = .fail then some .fail
  else if child = .pass ∧ cur ≠ some .fail then some .pass
  else if cur ≠ some .pass ∧ cur ≠ some .fail then some .skip
  else cur

/-- One job is added to its category (446-470); the identifiers are the keys of a dictionary. -/
def addJob (name id : Str) (child : Outcome) : List (Str × Cat) → List (Str × Cat)
  | [] => [(name, ⟨childStatus none child, [id]⟩)]
  | e :: r =>
    if e.1 = name then (name, ⟨childStatus e.2.status child, e.2.jobs ++ [id]⟩) :: r
    else e :: addJob name id child r

/-- `d[k]`. (xlsx 507-592) -/
def get {V : Type} (k : Str) : List (Str × V) → Option V
  | [] => none
  | e :: r => if e.1 = k then some e.2 else get k r

/-- `_tree` (442-472); `none` is `KeyError`. -/
def tree (categories : List (Str × Str)) : List (Str × Entry) → List (Str × Cat) → Option (List (Str × Cat))
  | [], t => some t
  | e :: es, t =>
    match get e.2.category categories with
    | none => none
    | some name => tree categories es (addJob name e.1 e.2.outcome t)

/-- A row of the sheet, with its number. The identifier of the job is not written, it tells of which job the
row is. (xlsx 475-592) -/
inductive Row
  | category (line : Nat) (name : Str) (status : Outcome)
  | job (line : Nat) (id summary : Str) (outcome : Outcome) (certification log comments : Str)
  deriving DecidableEq, Repr

/-- `total`, `total_pass`, `total_fail` and `total_skip` (105-108). -/
structure Totals where
  total : Nat
  pass : Nat
  fail : Nat
  skip : Nat
  deriving DecidableEq, Repr

/-- `_lineno`, what was written, and the totals. (xlsx 475-630) -/
structure State where
  line : Nat
  rows : List Row
  totals : Totals
  deriving DecidableEq, Repr

/-- 526, 534-542. -/
def count (o : Outcome) (t : Totals) : Totals :=
  if o = .pass then { t with total := t.total + 1, pass := t.pass + 1 }
  else if o = .fail then { t with total := t.total + 1, fail := t.fail + 1 }
  else { t with total := t.total + 1, skip := t.skip + 1 }

/-- `text.splitlines()`, for lines that end with line feeds. (xlsx 475-592, 632-656) -/
def splitLines : Str → List Str
  | [] => []
  | c :: s =>
    if c = '\n' then [] :: splitLines s
    else match splitLines s with
      | [] => [[c]]
      | l :: ls => (c :: l) :: ls

/-- `'\n'.join(lines)`. (xlsx 475-592) -/
def joinLines : List Str → Str
  | [] => []
  | [l] => l
  | l :: ls => l ++ '\n' :: joinLines ls

/-- 551-560: what is written of a log; `none` is `UnicodeDecodeError`. -/
def logCell (e : Entry) : Option Str :=
  if e.plugin = some "resource".toList ∨ e.plugin = some "attachment".toList then some " ".toList
  else
    match e.log with
    | none => none
    | some [] => some " ".toList
    | some (c :: s) =>
      let log := Text.rstrip (c :: s)
      if 2 < (splitLines log).length - 1 then
        some (joinLines ((splitLines log).take 3) ++ "\n[...]".toList)
      else some log

/-- 543-547. -/
def certCell : Option Str → Str
  | none => []
  | some s => if s = "unspecified".toList then [] else s

/-- 567-569. -/
def commentCell : Option Str → Str
  | none => " ".toList
  | some [] => " ".toList
  | some (c :: s) => Text.rstrip (c :: s)

/-- One leaf of `_write_job` (480-590): a job of `result_map` after `_tree` updated it with the categories. -/
def writeJob (entries : List (Str × Entry)) (cats : List (Str × Cat)) (id : Str) (s : State) :
    Except Err State :=
  match get id cats with
  | some c => if c.status = none then .ok s else .error .key
  | none =>
    match get id entries with
    | none => .error .key
    | some e =>
      match e.plugin with
      | none => .error .key
      | some p =>
        if p = "local".toList then .ok s
        else if e.outcome.known = false then .error .key
        else
          match logCell e with
          | none => .error .unicode
          | some log =>
            .ok ⟨s.line + 1,
              s.rows ++ [.job (s.line + 1) id e.summary e.outcome (certCell e.certification) log
                (commentCell e.comments)],
              count e.outcome s.totals⟩

/-- The jobs of a category. (xlsx 507-592) -/
def writeJobs (entries : List (Str × Entry)) (cats : List (Str × Cat)) : List Str → State → Except Err State
  | [], s => .ok s
  | id :: ids, s =>
    match writeJob entries cats id s with
    | .error e => .error e
    | .ok s' => writeJobs entries cats ids s'

/-- The order of the jobs of a category (475-478): they have no children. -/
def jobLe (a b : Str) : Bool := strLe ('a' :: a) ('a' :: b)

/-- The key of a category (475-478). -/
def catKey (e : Str × Cat) : Str := if e.2.jobs = [] then 'a' :: e.1 else 'z' :: e.1

/-- The order of the categories (xlsx 475-480). -/
def catLe (a b : Str × Cat) : Bool := strLe (catKey a) (catKey b)

/-- One category of `_write_job` (480-506). -/
def writeCat (entries : List (Str × Entry)) (cats : List (Str × Cat)) (e : Str × Cat) (s : State) :
    Except Err State :=
  match e.2.status with
  | none => .ok s
  | some st =>
    if e.2.jobs = [] then .error .key
    else if st.known = false then .error .key
    else
      writeJobs entries cats (sortBy jobLe e.2.jobs)
        ⟨s.line + 1, s.rows ++ [.category (s.line + 1) e.1 st], s.totals⟩

/-- All categories. (xlsx 475-592) -/
def writeCats (entries : List (Str × Entry)) (cats : List (Str × Cat)) :
    List (Str × Cat) → State → Except Err State
  | [], s => .ok s
  | e :: es, s =>
    match writeCat entries cats e s with
    | .error er => .error er
    | .ok s' => writeCats entries cats es s'

/-- `write_results` (592-628): the rows, and the totals, which start with those of the exporter. -/
def dump (categories : List (Str × Str)) (entries : List (Str × Entry)) (t : Totals) :
    Except Err (List Row × Totals) :=
  match tree categories entries [] with
  | none => .error .key
  | some cats =>
    match writeCats entries cats (sortBy catLe cats) ⟨5, [], t⟩ with
    | .error e => .error e
    | .ok s => .ok (s.rows, s.totals)

/-- The totals of a new exporter (105-108). -/
def fresh : Totals := ⟨0, 0, 0, 0⟩

/-- The lines of an attachment, from the row `i`. (xlsx 632-656) -/
def textRows : Nat → List Str → List (Nat × Str)
  | _, [] => []
  | i, l :: ls => (i, l) :: textRows (i + 1) ls

/-- `write_attachments` (630-653): the cells of the sheet "Log Files", row and text; a binary attachment has
no text. -/
def attachments : Nat → List (Str × Option Str) → List (Nat × Str)
  | _, [] => []
  | i, (_, none) :: as => attachments i as
  | i, (name, some text) :: as =>
    (i, name) :: textRows (i + 2) (splitLines text) ++ attachments (i + 1 + ((splitLines text).length + 1) + 1) as

end Verif.Sheet
