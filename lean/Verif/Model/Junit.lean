import Verif.Model.Stats
import Verif.Model.Sort
import Verif.Model.Checksum

/-! # The JUnit report

Models the template of the exporter `junit` (`plainbox/impl/providers/exporters/data/junit.xml`, "junit.xml") as rendered by
`Jinja2SessionStateExporter` (`plainbox/impl/exporter/jinja2.py`, "jinja2").

Simplified: the state of a job is its id, outcome, the text that `str` makes of the duration, if there is one, and
`io_log_as_flat_text`; how Jinja2 makes lower case of an id is a parameter. -/

namespace Verif.Junit

open Verif.Checksum (Str)
open Verif.Session (Outcome)

/-- An item of `job_state_map`. (junit.xml 10-23) -/
structure Item where
  id : Str
  outcome : Outcome
  duration : Option Str
  log : Str
deriving DecidableEq, Repr

/-- `markupsafe.escape` of one character. (library; jinja2 127) -/
def escapeChar (c : Char) : Str :=
  if c = '&' then "&amp;".toList
  else if c = '>' then "&gt;".toList
  else if c = '<' then "&lt;".toList
  else if c = '\'' then "&#39;".toList
  else if c = '"' then "&#34;".toList
  else [c]

/-- `markupsafe.escape`: what `autoescape` does with every value that is inserted. (library; jinja2 127) -/
def escape (s : Str) : Str := s.flatMap escapeChar

/-- A value of `get_outcome_stats()`, a `defaultdict(int)`. (junit.xml 3-7, state.py 1282-1298) -/
def stat (items : List Item) (o : Outcome) : Nat :=
  ((Stats.outcomeStats (items.map fun i => (⟨i.outcome, (), .other⟩ : Stats.Entry Unit))).lookup o).getD 0

/-- A number that is inserted. (junit.xml 9) -/
def number (n : Nat) : Str := Nat.toDigits 10 n

/-- `None` or a number that is inserted. (junit.xml 13) -/
def durationText (d : Option Str) : Str := d.getD "None".toList

/-- What is inside of a test case, without the white space that the template takes away. (junit.xml 14-24) -/
def body (i : Item) : Str :=
  if i.outcome = .skip ∨ i.outcome = .notSupported then "<skipped />".toList
  else if i.outcome = .fail then "<failure type=\"\">\n      ".toList ++ escape i.log ++ "\n      </failure>".toList
  else if i.outcome = .crash then "<error type=\"\">\n      ".toList ++ escape i.log ++ "\n      </error>".toList
  else []

/-- One round of the loop. (junit.xml 11-26) -/
def one (i : Item) : Str :=
  if i.outcome = .none then []
  else "\n    <testcase classname=\"".toList ++ escape i.id ++ "\" name=\"".toList ++ escape i.id ++ "\" time=\"".toList
    ++ escape (durationText i.duration) ++ "\">".toList ++ body i ++ "\n    </testcase>".toList

/-- `job_state_map|sort`: by the ids, in lower case. (junit.xml 10) -/
def sorted (lower : Str → Str) (items : List Item) : List Item :=
  Sort.sortBy (fun a b => Sort.strLe (lower a.id) (lower b.id)) items

/-- The report. (junit.xml 1-28) -/
def render (lower : Str → Str) (items : List Item) : Str :=
  "<?xml version=\"1.0\" encoding=\"UTF-8\"?>\n  <testsuites failures=\"".toList ++ number (stat items .fail)
    ++ "\" name=\"\" tests=\"".toList ++ number (stat items .pass)
    ++ "\" skipped=\"".toList ++ number (stat items .skip + stat items .notSupported)
    ++ "\" errors=\"".toList ++ number (stat items .crash) ++ "\">".toList
    ++ (sorted lower items).flatMap one ++ "\n  </testsuites>".toList

end Verif.Junit
