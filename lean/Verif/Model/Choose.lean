import Verif.Model.Nest
import Verif.Model.Overrides

/-! # Choosing jobs on the command line

Models `CheckBoxInvocationMixIn._get_matching_job_list` (`plainbox/impl/commands/inv_checkbox.py`, "inv_checkbox"),
what `plainbox dev special` makes of it (`plainbox/impl/commands/inv_special.py`, "inv_special") and how
`plainbox run` looks up the test plan (`plainbox/impl/commands/inv_run.py`, "inv_run").

Simplified: the regular expressions are those of `Overrides.Rx`; what is logged and printed is left out. Origins of
qualifiers are left out. A set of providers is a list in some order. -/

namespace Verif.Choose

open Verif.Pattern (Str)
open Verif.Overrides (Rx)
open Verif.Qualifiers (Kind Prim Qual selectJobs)
open Verif.Nest (Plan Unit' Err each qualifier)

variable {P : Type}

/-- A job: its identifier and its provider. (inv_checkbox 76; plainbox/impl/secure/qualifiers.py 164-171) -/
structure Job (P : Type) where
  id : Str
  provider : P
deriving DecidableEq

/-- `ns.test_plan`, `ns.include_pattern_list` and `ns.exclude_pattern_list`.
(inv_checkbox 72, 84, 95; plainbox/impl/commands/cmd_checkbox.py 45-64) -/
structure Args where
  plan : Option Str
  incl : List Str
  excl : List Str

/-- `'^{}$'.format(pattern)`, inv_checkbox 88 and 99. -/
def around (p : Str) : Str := '^' :: (p ++ ['$'])

/-- The qualifier of one pattern; `none` is the exception that is only logged. (inv_checkbox 85-93, 96-104;
plainbox/impl/secure/qualifiers.py 144-171) -/
def patternQualifier (rx : Rx) (inclusive : Bool) (p : Str) : Option (Qual (Job P) Str) :=
  if rx.valid (around p) then some (.prim ⟨inclusive, .other fun j => rx.mt (around p) j.id⟩) else none

/-- The first unit whose `Meta.name` is `'test plan'`. (inv_checkbox 77-80, inv_run 675-677) -/
def firstPlan : List (Unit' (Job P) Str) → Option (Plan (Job P) Str)
  | [] => none
  | .plan p :: _ => some p
  | .other :: l => firstPlan l

/-- The qualifiers of the test plan: one for each provider, of those in the set, that has the plan.
(inv_checkbox 72-82) -/
def planQualifiers (units : List (Str × Unit' (Job P) Str)) (n : Nat) (idMap : P → Str → List (Unit' (Job P) Str))
    (providers : List P) : Option Str → Except Err (List (Qual (Job P) Str))
  | none => .ok []
  | some i => each (qualifier units n) (providers.filterMap fun p => firstPlan (idMap p i))

/-- `_get_matching_job_list`, inv_checkbox 68-106; `order` gives the elements of a set in some order, `units` are
those in which nested parts are looked up, `n` is the recursion limit. -/
def matching (rx : Rx) (order : List P → List P) (units : List (Str × Unit' (Job P) Str)) (n : Nat)
    (idMap : P → Str → List (Unit' (Job P) Str)) (a : Args) (jobs : List (Job P)) : Except Err (List (Job P)) :=
  match planQualifiers units n idMap (order (jobs.map Job.provider)) a.plan with
  | .error e => .error e
  | .ok plan =>
    .ok (selectJobs Job.id jobs
      (plan ++ a.incl.filterMap (patternQualifier rx true) ++ a.excl.filterMap (patternQualifier rx false)))

/-- `SpecialInvocation._get_matching_job_list` with `ns.special` set, inv_special 52-66. -/
def listing (rx : Rx) (order : List P → List P) (units : List (Str × Unit' (Job P) Str)) (n : Nat)
    (idMap : P → Str → List (Unit' (Job P) Str)) (a : Args) (jobs : List (Job P)) : Except Err (List (Job P)) :=
  match matching rx order units n idMap a jobs with
  | .error e => .error e
  | .ok l => if a.incl = [] ∧ (a.plan = none ∨ a.plan = some []) then .ok jobs else .ok l

/-- `find_test_plan`, inv_run 668-677: the plan that gives the categories. -/
def findTestPlan (idMap : P → Str → List (Unit' (Job P) Str)) : List P → Option Str → Option (Plan (Job P) Str)
  | _, none => none
  | [], some _ => none
  | p :: l, some i =>
    match firstPlan (idMap p i) with
    | some t => some t
    | none => findTestPlan idMap l (some i)

/-- The loop at the end of `do_initial_job_selection`, inv_run 698-704: the plan that the session remembers; `now` is
what was there before. -/
def recorded (idMap : P → Str → List (Unit' (Job P) Str)) (i : Str) :
    List P → Option (Plan (Job P) Str) → Option (Plan (Job P) Str)
  | [], now => now
  | p :: l, now =>
    match firstPlan (idMap p i) with
    | some t => recorded idMap i l (some t)
    | none => recorded idMap i l now

end Verif.Choose
