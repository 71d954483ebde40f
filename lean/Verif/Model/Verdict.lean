import Verif.Model.Session
import Verif.Model.Checksum

/-! # The report of one word

Models `SessionState.get_certification_status_map` (`plainbox/impl/session/state.py`, "state"), `SessionManager.state`
(`plainbox/impl/session/manager.py`, "manager") and the template of the exporter `global`
(`plainbox/impl/providers/exporters/data/global.txt`, "global.txt") as rendered by `Jinja2SessionStateExporter`
(`plainbox/impl/exporter/jinja2.py`, "jinja2").

Simplified: a job state is its outcome and its effective certification status; the state map is the list of its items. -/

namespace Verif.Verdict

open Verif.Checksum (Str)
open Verif.Session (Outcome)

/-- An item of `job_state_map`: the id of a job, the outcome of its result and `effective_certification_status`, which is
any text: the field of the job or what a test plan puts in its place. (state 1422-1426, session/jobs.py 324-326,
unit/job.py 410-422) -/
structure Item where
  id : Str
  outcome : Outcome
  status : Str
deriving DecidableEq, Repr

/-- `get_certification_status_map`. (state 1403-1427) -/
def statusMap (outcomes : List Outcome) (statuses : List Str) (m : List Item) : List Item :=
  m.filter fun i => outcomes.contains i.outcome && statuses.contains i.status

/-- The default of `outcome_filter`. (state 1404) -/
def defaultOutcomes : List Outcome := [.fail]

/-- The default of `certification_status_filter`. (state 1405) -/
def defaultStatuses : List Str := ["blocker".toList]

/-- The statuses that the template gives, the last one as it is spelled there. (global.txt 1) -/
def templateStatuses : List Str :=
  ["unspecified".toList, "not-part-of-certification".toList, "blocker".toList, "non-bloker".toList]

/-- `SessionManager.state`: the state of the first device context, if there is one. (manager 163-187) -/
def managerState (devices : List (List Item)) : Option (List Item) := devices.head?

/-- The text that the exporter writes; `none` is an exception, when the session has no device. The whitespace control of
the template and the newline that Jinja2 takes from the end leave the bare word. (global.txt 1-5, jinja2 132-166) -/
def report (devices : List (List Item)) : Option Str :=
  (managerState devices).map fun m =>
    if (statusMap defaultOutcomes templateStatuses m).isEmpty then "PASS".toList else "FAIL".toList

end Verif.Verdict
