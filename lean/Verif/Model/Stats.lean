import Verif.Model.Session

/-!
# Model of the aggregate figures of a session

`plainbox/impl/session/state.py`: `get_outcome_stats`, `category_outcome_map`,
`resource_global_outcome`, `attachment_global_outcome`, `get_estimated_duration`;
`plainbox/impl/unit/job.py`: `JobDefinition.estimated_duration`.

Simplification: a job state is reduced to its outcome, effective category and plugin; the state map
is the list of its values in iteration order.
-/

namespace Verif.Stats

open Verif.Session (Outcome)

/-- `job.plugin` as far as the aggregates look at it, state.py:1354, 1381. -/
inductive Plugin where
  | resource | attachment | other
deriving DecidableEq, Repr

/-- A value of `job_state_map`. (state.py:1282-1402) -/
structure Entry (C : Type) where
  outcome : Outcome
  category : C
  plugin : Plugin
deriving DecidableEq, Repr

variable {C : Type} [DecidableEq C]

/-- `stats[k] += 1` on a `defaultdict(int)`, state.py:1297. -/
def bump (m : List (Outcome × Nat)) (k : Outcome) : List (Outcome × Nat) :=
  Session.setKey m k ((m.lookup k).getD 0 + 1)

/-- `get_outcome_stats`, state.py:1282-1298. -/
def outcomeStats (es : List (Entry C)) : List (Outcome × Nat) :=
  es.foldl (fun m e => if e.outcome = .none then m else bump m e.outcome) []

/-- The chain of tests that merges one outcome into the outcome so far, state.py:1334-1346,
1361-1373, 1388-1400. -/
def merge (acc o : Outcome) : Outcome :=
  if o = .fail ∨ o = .crash then .fail
  else if o = .pass ∧ acc ≠ .fail then .pass
  else if acc ≠ .pass ∧ acc ≠ .fail then .skip
  else acc

/-- `wanted_category_ids`, state.py:1320-1324. -/
def wanted (es : List (Entry C)) (c : C) : Bool :=
  es.any fun e => decide (e.category = c ∧ e.outcome ≠ .none)

/-- One iteration of the loop of `category_outcome_map`, state.py:1326-1346. -/
def categoryStep (all : List (Entry C)) (m : List (C × Outcome)) (e : Entry C) :
    List (C × Outcome) :=
  if wanted all e.category then
    Session.setKey m e.category (merge ((m.lookup e.category).getD .skip) e.outcome)
  else m

/-- `category_outcome_map`, state.py:1317-1347. -/
def categoryOutcomeMap (es : List (Entry C)) : List (C × Outcome) :=
  es.foldl (categoryStep es) []

/-- `resource_global_outcome` and `attachment_global_outcome`, state.py:1350-1401. -/
def globalOutcome (p : Plugin) (es : List (Entry C)) : Outcome :=
  es.foldl (fun acc e => if e.plugin ≠ p ∨ e.outcome = .none then acc else merge acc e.outcome)
    .skip

/-! ## Durations -/

/-- What `get_estimated_duration` asks of a job; `A` stands for the numbers (floats). (state.py:945-980) -/
structure DurJob (A : Type) where
  automated : Bool
  estimate : Option A
  hasCommand : Bool

/-- `get_estimated_duration`, state.py:945-980, for any numbers with an addition. -/
def estimatedDuration {A : Type} [Add A] (zero overhead : A) (run : List (DurJob A)) :
    Option A × Option A :=
  run.foldl (fun acc j =>
    if j.automated then
      match acc.1 with
      | none => acc
      | some a =>
        match j.estimate with
        | some d => (some (a + d), acc.2)
        | none => (none, acc.2)
    else
      match acc.2 with
      | none => acc
      | some m =>
        match j.estimate with
        | some d => (acc.1, some (m + overhead + d))
        | none => if j.hasCommand then (acc.1, none) else (acc.1, some (m + overhead)))
    (some zero, some zero)

/-- `(\d+c)?` of the regular expression of job.py:440: a maximal run of digits followed by `c`.
No other match of the group can lead to an overall match.  Simplified: ASCII digits. -/
def group (c : Char) (l : List Char) : Option (List Char) × List Char :=
  match l.takeWhile Char.isDigit, l.dropWhile Char.isDigit with
  | d :: ds, x :: rest => if x = c then (some (d :: ds), rest) else (none, l)
  | _, _ => (none, l)

/-- `[ :]*`. (job.py:439) -/
def isSep (c : Char) : Bool := c = ' ' || c = ':'

/-- `int(text)` on digits. (job.py:442-458) -/
def digitsVal (l : List Char) : Nat := l.foldl (fun a c => 10 * a + (c.toNat - 48)) 0

/-- Value of an optional group, job.py:442-458. -/
def groupVal : Option (List Char) → Nat
  | none => 0
  | some l => digitsVal l

/-- The textual branch of `estimated_duration`, job.py:440-459; `none` means the regular
expression does not match and `float()` is tried, job.py:460-464. -/
def parseDuration (l : List Char) : Option Nat :=
  let (h, l1) := group 'h' l
  let (m, l2) := group 'm' (l1.dropWhile isSep)
  let (s, l3) := group 's' (l2.dropWhile isSep)
  if l3 = [] ∨ l3 = ['\n'] then some (groupVal s + groupVal m * 60 + groupVal h * 3600) else none

end Verif.Stats
