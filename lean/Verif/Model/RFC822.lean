import Verif.Model.Text

/-!
# Model of the RFC822 records (`plainbox/impl/secure/rfc822.py`)

Text is a list of characters; the input of the parser is the list of lines its stream yields.
Simplifications: values are strings (`dump` also accepts lists); the source part of origins and
the wording of messages are left out; records are ordered dictionaries.
-/

namespace Verif.RFC822

open Verif.Text

/-- Text, as in rfc822.py:35-60. -/
abbrev Str := List Char

/-- `re.sub('^(\s*)\.$', '\\1', ...)` on one line, rfc822.py:49: a line of white space and one dot
loses the dot. -/
def undot (line : Str) : Str :=
  match line.reverse with
  | '.' :: w => if w.all isSpace then w.reverse else line
  | _ => line

/-- `[ \t]` of `textwrap.dedent`. Used through rfc822.py:45-51. -/
def isBlankChar (c : Char) : Bool := c = ' ' || c = '\t'

/-- Longest common prefix. Part of `textwrap.dedent`, rfc822.py:45-51. -/
def lcp : Str → Str → Str
  | a :: l, b :: r => if a = b then a :: lcp l r else []
  | _, _ => []

/-- The margin computed by `textwrap.dedent` (standard library): the common prefix of the
indentations of the lines that are not blank. Called in rfc822.py:45-51. -/
def margin (lines : List Str) : Str :=
  match (lines.filter fun l => !(l.all isBlankChar)).map (·.takeWhile isBlankChar) with
  | [] => []
  | i :: is => is.foldl lcp i

/-- `textwrap.dedent` (standard library) on the lines of a text: lines of blanks are emptied, then
the margin is removed wherever it is present. Called in rfc822.py:45-51. -/
def dedent (lines : List Str) : List Str :=
  let lines := lines.map fun l => if l.all isBlankChar then [] else l
  let m := margin lines
  lines.map fun l => if m.isPrefixOf l then l.drop m.length else l

/-- `normalize_rfc822_value`, rfc822.py:44-55. -/
def normalize (value : Str) : Str :=
  if value.count '\n' > 1 then
    strip (joinWith '\n' (dedent ((splitOn '\n' value).map undot)))
  else strip value

/-- `_dump_part`, rfc822.py:160-168. -/
def dumpPart (key : Str) (values : List Str) : Str :=
  key ++ ":\n".toList ++ (values.map fun v =>
    if v = [] then " .\n".toList
    else if v = ['.'] then " ..\n".toList
    else ' ' :: v ++ ['\n']).flatten

/-- One iteration of the loop of `RFC822Record.dump`, rfc822.py:169-178. -/
def dumpField (key value : Str) : Str :=
  if '\n' ∈ value then
    let values := splitOn '\n' value
    dumpPart key (if values.getLast? = some [] then values.dropLast else values)
  else key ++ ": ".toList ++ value ++ ['\n']

/-- `RFC822Record.dump`, rfc822.py:156-179. -/
def dump (fields : List (Str × Str)) : Str :=
  (fields.map fun f => dumpField f.1 f.2).flatten ++ ['\n']

/-- A record: fields in order with raw values (the normalized value is `normalize` of the raw one,
rfc822.py:315-318), the lines it came from and the offsets of the fields. -/
structure Rec where
  fields : List (Str × Str)
  start : Option Nat
  stop : Option Nat
  offsets : List (Str × Nat)
deriving DecidableEq, Repr

/-- `record.data`, rfc822.py:318. -/
def Rec.data (r : Rec) : List (Str × Str) := r.fields.map fun f => (f.1, normalize f.2)

/-- The reasons for `RFC822SyntaxError`, rfc822.py:363, 388, 417. -/
inductive Reason where
  | multiLine | duplicate | junk
deriving DecidableEq, Repr

/-- Local state of `gen_rfc822_records`, rfc822.py:265-270. -/
structure St where
  fields : List (Str × Str)
  key : Option Str
  values : List Str
  start : Option Nat
  stop : Option Nat
  offsets : List (Str × Nat)
deriving DecidableEq, Repr

/-- `_new_record`, rfc822.py:290-305. -/
def St.new : St := ⟨[], none, [], none, none, []⟩

/-- `_commit_key_value_if_needed`, rfc822.py:307-319.  The key is known not to be in the
dictionary, so the assignment appends. -/
def St.commit (s : St) : St :=
  match s.key with
  | none => s
  | some k => { s with fields := s.fields ++ [(k, s.values.flatten)], key := none }

/-- `if record.data: yield record`, rfc822.py:351-353, 421-423. -/
def St.emit (s : St) : List Rec :=
  if s.fields.isEmpty then [] else [⟨s.fields, s.start, s.stop, s.offsets⟩]

/-- One iteration of the main loop, rfc822.py:341-418: the records yielded and the next state, or
the reason of the syntax error. -/
def step (s : St) (lineno : Nat) (line : Str) : Except Reason (List Rec × St) :=
  if ['#'].isPrefixOf line then .ok ([], s)
  else if strip line = [] then
    .ok (s.commit.emit, St.new)
  else if [' '].isPrefixOf line then
    match s.key with
    | none => .error .multiLine
    | some _ => .ok ([], { s with values := s.values ++ [line.drop 1], stop := some lineno })
  else if ':' ∈ line then
    let start := s.start.getD lineno
    let s := { s with start := some start }.commit
    let key := strip (line.takeWhile (· ≠ ':'))
    let value := lstrip ((line.dropWhile (· ≠ ':')).drop 1)
    if key ∈ s.fields.map (·.1) then .error .duplicate
    else
      .ok ([], { s with
        key := some key
        values := if strip value ≠ [] then [value] else []
        offsets := s.offsets ++ [(key, lineno - start + if strip value ≠ [] then 0 else 1)]
        stop := some lineno })
  else .error .junk

/-- The main loop from line number `n` on, and the final flush, rfc822.py:341-423: the records
yielded and the syntax error, if any. -/
def run (s : St) (n : Nat) : List Str → List Rec × Option (Nat × Reason)
  | [] => (s.commit.emit, none)
  | line :: lines =>
    match step s n line with
    | .error e => ([], some (n, e))
    | .ok (rs, s') =>
      let (rs', e) := run s' (n + 1) lines
      (rs ++ rs', e)

/-- `gen_rfc822_records`, rfc822.py:240-423. -/
def gen (lines : List Str) : List Rec × Option (Nat × Reason) := run St.new 1 lines

/-! ## Resource output -/

/-- `gen_rfc822_records_from_io_log`, ctrl.py:327-351: the error is logged and dropped. -/
def recordsFromOutput (lines : List Str) : List Rec := (gen lines).1

/-- `_parse_and_store_resource`, ctrl.py:269-290, and `set_resource_list`, state.py:1216-1222; the
resource map is a function, `hasOutcome` says the outcome of the result is not `None`. -/
def storeResource {I : Type} [DecidableEq I] (m : I → Option (List (List (Str × Str)))) (id : I)
    (hasOutcome : Bool) (lines : List Str) : I → Option (List (List (Str × Str))) :=
  if hasOutcome then
    let rs := (recordsFromOutput lines).map Rec.data
    fun i => if i = id then some (if rs.isEmpty then [[]] else rs) else m i
  else m

end Verif.RFC822
