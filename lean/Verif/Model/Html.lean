import Verif.Model.Junit
import Verif.Model.Flat

/-! # The HTML report

Models the template of the exporter `html` (`plainbox/impl/providers/exporters/data/checkbox.html`, "checkbox.html") as
rendered by `Jinja2SessionStateExporter` (`plainbox/impl/exporter/jinja2.py`, "jinja2"), with what it asks of the state of the
session (`plainbox/impl/session/state.py`, "state").

Simplified: of the document there are the tables with their headings, the pages that links lead to, the ids of all elements in
the order of the document, and the numbers of the chart; the text between values, the colours, the scripts and the style
sheets are left out, as are the name of the distribution and of the test plan. Labels are not translated. Dictionaries keep the
order of insertion. How Jinja2 makes lower case of a text is a parameter. -/

namespace Verif.Html

attribute [-instance] List.instBEq

open Verif.Checksum (Str dictSet)
open Verif.Session (Outcome)
open Verif.Junit (escape number)

/-- A value of `job_state_map`, with its key. (checkbox.html 112-128) -/
structure Item where
  id : Str
  partialId : Str
  summary : Str
  plugin : Stats.Plugin
  category : Str
  outcome : Outcome
  certification : Str
  comments : Option Str
  log : List IOLog.Rec
deriving DecidableEq, Repr

/-- What the template asks of the state: the jobs, the categories among the units with their names, and the resources, of which
a name and a version are kept. (checkbox.html 1-8) -/
structure State where
  items : List Item
  units : List (Str × Str)
  resources : List (Str × List (Str × Str))
deriving DecidableEq, Repr

/-- `tr_label` of `OUTCOME_METADATA_MAP`, result.py 113-186. -/
def label : Outcome → Str
  | .none => "not started".toList
  | .pass => "passed".toList
  | .fail => "failed".toList
  | .skip => "skipped".toList
  | .notSupported => "not supported".toList
  | .notImplemented => "not implemented".toList
  | .undecided => "undecided".toList
  | .crash => "crashed".toList

/-- The values of the constants for outcomes, the keys of the statistics. (plainbox/abc.py 195-219; checkbox.html 58) -/
def value : Outcome → Str
  | .none => []
  | .pass => "pass".toList
  | .fail => "fail".toList
  | .skip => "skip".toList
  | .notSupported => "not-supported".toList
  | .notImplemented => "not-implemented".toList
  | .undecided => "undecided".toList
  | .crash => "crash".toList

/-- `job_state.result.outcome != None and job_state.job.plugin not in ("resource", "attachment")`. (state 1305-1306,
checkbox.html 112, 249) -/
def isTest (i : Item) : Bool := decide (i.outcome ≠ .none ∧ i.plugin ≠ .resource ∧ i.plugin ≠ .attachment)

/-- `category_map`, state 1301-1314. -/
def categoryMap (s : State) : List (Str × Str) :=
  (s.units.filter fun u => (s.items.filter isTest).any fun i => i.category == u.1).foldl (fun m u => dictSet u.1 u.2 m) []

/-- The jobs as the aggregates see them. (state 1290-1402) -/
def entries (s : State) : List (Stats.Entry Str) := s.items.map fun i => ⟨i.outcome, i.category, i.plugin⟩

/-- `category_map|dictsort(false, 'value')`. (checkbox.html 102, 247) -/
def categories (lower : Str → Str) (s : State) : List (Str × Str) :=
  Sort.sortBy (fun a b => Sort.strLe (lower a.2) (lower b.2)) (categoryMap s)

/-- `job_state_map|dictsort`. (checkbox.html 112, 142, 181, 249, 262, 274) -/
def sorted (lower : Str → Str) (s : State) : List Item :=
  Sort.sortBy (fun a b => Sort.strLe (lower a.id) (lower b.id)) s.items

/-- The jobs of the table of a category. (checkbox.html 112, 249) -/
def testsIn (lower : Str → Str) (s : State) (c : Str) : List Item :=
  (sorted lower s).filter fun i => decide (i.outcome ≠ .none ∧ i.category = c ∧ i.plugin ≠ .resource ∧ i.plugin ≠ .attachment)

/-- The jobs of the table of resources or of attachments. (checkbox.html 142, 181, 262, 274) -/
def jobsOf (lower : Str → Str) (s : State) (p : Stats.Plugin) : List Item :=
  (sorted lower s).filter fun i => decide (i.outcome ≠ .none ∧ i.plugin = p)

/-- A row of a table. (checkbox.html 113-127, 144-158, 160-174, 192-206) -/
structure Row where
  name : Str
  label : Str
  certification : Str
  link : Option Str
  comments : Str
deriving DecidableEq, Repr

/-- The row of a job, given the link to its log. (checkbox.html 113-127, 144-158, 160-174, 192-206) -/
def row (i : Item) (link : Option Str) : Row where
  name := escape i.partialId
  label := escape (label i.outcome)
  certification := if i.certification ≠ "unspecified".toList then escape i.certification else []
  link := link
  comments := match i.comments with | none => [] | some t => escape t

/-- A heading and its table. (checkbox.html 104-131, 134-179, 183-210) -/
structure Section where
  heading : Str
  label : Str
  rows : List Row
deriving DecidableEq, Repr

/-- `1-2-log`. (checkbox.html 122, 251) -/
def testPage (m n : Nat) : Str := number m ++ "-".toList ++ number n ++ "-log".toList

/-- `resource-1-log`. (checkbox.html 169, 264) -/
def resourcePage (n : Nat) : Str := "resource-".toList ++ number n ++ "-log".toList

/-- `attachment-1-log`. (checkbox.html 201, 276) -/
def attachmentPage (n : Nat) : Str := "attachment-".toList ++ number n ++ "-log".toList

/-- The key of the resources about packages, `ns ~ "package"`. (checkbox.html 1, 219) -/
def packageKey : Str := "com.canonical.certification::package".toList

/-- `OUTCOME_METADATA_MAP[category_outcome_map[cat_id]].tr_label`. (checkbox.html 105) -/
def categoryLabel (s : State) (c : Str) : Str :=
  match (Stats.categoryOutcomeMap (entries s)).lookup c with
  | none => []
  | some o => escape (label o)

/-- The table of a category, the one with this number. (checkbox.html 102-132) -/
def categorySection (lower : Str → Str) (s : State) (c : Str × Str) (m : Nat) : Section where
  heading := escape c.2
  label := categoryLabel s c.1
  rows := (testsIn lower s c.1).zipIdx 1 |>.map fun p =>
    row p.1 (if Flat.flat p.1.log ≠ [] then some ('#' :: testPage m p.2) else none)

/-- The row of a resource job. (checkbox.html 143-175) -/
def resourceRow (i : Item) (n : Nat) : Row :=
  if i.partialId = "package".toList then
    row i (if Flat.flat i.log ≠ [] then some "#package-log".toList else none)
  else
    row i (if Flat.flat i.log ≠ [] then some ('#' :: resourcePage n) else none)

/-- The table of resource jobs. (checkbox.html 133-180) -/
def resourceSection (lower : Str → Str) (s : State) : List Section :=
  if s.resources ≠ [] then
    [{ heading := "Resources".toList
       label := escape (label (Stats.globalOutcome .resource (entries s)))
       rows := (jobsOf lower s .resource).zipIdx 1 |>.map fun p => resourceRow p.1 p.2 }]
  else []

/-- The table of attachments. (checkbox.html 181-212) -/
def attachmentSection (lower : Str → Str) (s : State) : List Section :=
  let rows := (jobsOf lower s .attachment).zipIdx 1 |>.map fun p =>
    row p.1 (if Flat.attachment p.1.log ≠ [] then some ('#' :: attachmentPage p.2) else none)
  if rows ≠ [] then
    [{ heading := "Attachments".toList
       label := escape (label (Stats.globalOutcome .attachment (entries s)))
       rows := rows }]
  else []

/-- The headings and tables of the first page. (checkbox.html 102-212) -/
def sections (lower : Str → Str) (s : State) : List Section :=
  ((categories lower s).zipIdx 1 |>.map fun p => categorySection lower s p.1 p.2)
    ++ resourceSection lower s ++ attachmentSection lower s

/-- What an element with an id is: a page with a title and a text, the page with the packages, or something else.
(checkbox.html 31-285) -/
inductive Element
  | page (title : Str) (text : Str)
  | packages (rows : List (Str × Str))
  | other
deriving DecidableEq, Repr

/-- The pages with the logs of the tests. (checkbox.html 247-261) -/
def testPages (lower : Str → Str) (s : State) : List (Str × Element) :=
  (categories lower s).zipIdx 1 |>.flatMap fun c =>
    (testsIn lower s c.1.1).zipIdx 1 |>.flatMap fun p =>
      if Flat.flat p.1.log ≠ [] then [(testPage c.2 p.2, .page (escape p.1.summary) (escape (Flat.flat p.1.log)))] else []

/-- The pages with the logs of resource jobs. (checkbox.html 262-273) -/
def resourcePages (lower : Str → Str) (s : State) : List (Str × Element) :=
  (jobsOf lower s .resource).zipIdx 1 |>.flatMap fun p =>
    if Flat.flat p.1.log ≠ [] ∧ p.1.partialId ≠ "package".toList then
      [(resourcePage p.2, .page (escape p.1.summary) (escape (Flat.flat p.1.log)))]
    else []

/-- The pages with attachments. (checkbox.html 274-285) -/
def attachmentPages (lower : Str → Str) (s : State) : List (Str × Element) :=
  (jobsOf lower s .attachment).zipIdx 1 |>.flatMap fun p =>
    if Flat.attachment p.1.log ≠ [] then
      [(attachmentPage p.2, .page (escape p.1.summary) (escape (Flat.attachment p.1.log)))]
    else []

/-- The page with the packages. (checkbox.html 219-246) -/
def packagePages (s : State) : List (Str × Element) :=
  match s.resources.lookup packageKey with
  | none => []
  | some rs => [("package-log".toList, .packages (rs.map fun r => (escape r.1, escape r.2))),
      ("filterTable-input2".toList, .other), ("table2".toList, .other)]

/-- The elements in front of the tables. (checkbox.html 31-101) -/
def fixed : List (Str × Element) :=
  ["popup-outside-page-script", "chart-area", "legendDiv", "expanseAll", "collapseAll", "filterTable-input1"].map
    fun t => (t.toList, Element.other)

/-- All elements with an id. (checkbox.html 31-285) -/
def elements (lower : Str → Str) (s : State) : List (Str × Element) :=
  fixed ++ ((categories lower s).map fun c => (escape c.1, Element.other))
    ++ ((resourceSection lower s ++ attachmentSection lower s).map fun _ => ("resource".toList, Element.other))
    ++ packagePages s ++ testPages lower s ++ resourcePages lower s ++ attachmentPages lower s

/-- The numbers of the chart: `state.get_outcome_stats()|dictsort`. (checkbox.html 57-65) -/
def chart (s : State) : List (Str × Str) :=
  (Sort.sortBy (fun a b => Sort.strLe (value a.1) (value b.1)) (Stats.outcomeStats (entries s))).map fun p =>
    (number p.2, escape (label p.1))

end Verif.Html
