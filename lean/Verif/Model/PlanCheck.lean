import Verif.Basic

/-! # Validation of test plans

Models `NonEmptyPatternIntersectionValidator`, `NoBaseIncludeValidator` and the validators of `bootstrap_include`
(`plainbox/impl/unit/testplan.py`, "testplan"; `plainbox/impl/unit/validators.py`, "validators"), as used by
`UnitValidator.check_in_context` (`plainbox/impl/unit/unit.py`, "unit") for a test plan among other units.

Simplified: the lines of the fields are given as read by `parse_matchers` (C30): a matcher of identifiers, or an error.
Validators that do not look at other units are left out, as are messages and origins (the number of the line is kept).
All matchers are for the field `id` (testplan 485). -/

namespace Verif.PlanCheck

/-- The field `unit` of a unit, as far as it matters. (testplan 644-652) -/
inductive Kind
  | job | plan | other
deriving DecidableEq, Repr

/-- A unit: its attribute `id` if there is one, its kind, and whether its plugin is `resource`.
(validators 537-561, testplan 641-653) -/
structure Unit' (I : Type) where
  id : Option (Option I)
  kind : Kind
  resource : Bool

/-- `OperatorMatcher(operator.eq, id)` or `PatternMatcher`. (testplan 467-494) -/
inductive Matcher (I : Type)
  | eq (i : I)
  | pat (f : I → Bool)

/-- A line of a field; `none` for a line with an error (testplan 422-423). -/
abbrev Line (I : Type) := Option (Matcher I)

/-- The fields of a plan. Those that are not there have no lines (testplan 417). `boot` are the lines of
`bootstrap_include` as `_gen_qualifiers` reads them, `bootIds` is what `get_bootstrap_job_ids` returns, `none` if it
raises. (testplan 224-242, 318-337, 416-425) -/
structure Plan (I : Type) where
  incl : List (Line I)
  mand : List (Line I)
  boot : List (Line I)
  excl : List (Line I)
  nested : List (Line I)
  bootIds : Option (List I)

/-- The fields with validators that look at other units. (testplan 612-680) -/
inductive Field
  | boot | excl | incl | mand | nested
deriving DecidableEq, Repr

/-- `Severity`. (plainbox/impl/validation.py 56) -/
inductive Severity
  | error | warning | advice
deriving DecidableEq, Repr

/-- What iterating over the issues brings. The line is that of the origin of the issue. (unit 128-143) -/
inductive Event
  | issue (f : Field) (line : Option Nat) (s : Severity)
  | raise
deriving DecidableEq, Repr

variable {I : Type} [DecidableEq I]

/-- `matcher.match`. (plainbox/impl/secure/qualifiers.py 221-294) -/
def Matcher.fits : Matcher I → I → Bool
  | .eq i, j => decide (j = i)
  | .pat f, j => f j

/-- The keys of `compute_value_map(context, 'id')` that are not `None`. (validators 537-561) -/
def ids (ctx : List (Unit' I)) : List I := ctx.filterMap fun u => u.id.join

/-- `NonEmptyPatternIntersectionValidator._check_test_plan_in_context`, testplan 78-116. -/
def nonEmpty (f : Field) (known : List I) : Nat → List (Line I) → List Event
  | _, [] => []
  | _, none :: _ => [.raise]
  | n, some m :: l => (if known.any m.fits then [] else [.issue f (some n) .advice]) ++ nonEmpty f known (n + 1) l

/-- The first loop of `NoBaseIncludeValidator`: `included_job_id`, `none` if it raises. (testplan 136-156) -/
def included (known : List I) : List (Line I) → Option (List I)
  | [] => some []
  | none :: _ => none
  | some m :: l => (included known l).map (known.filter m.fits ++ ·)

/-- Its second loop. (testplan 157-182) -/
def overlap (f : Field) (inc : List I) : Nat → List (Line I) → List Event
  | _, [] => []
  | _, none :: _ => [.raise]
  | n, some m :: l => (if inc.any m.fits then [.issue f (some n) .warning] else []) ++ overlap f inc (n + 1) l

/-- `NoBaseIncludeValidator._check_test_plan_in_context`, testplan 130-182. -/
def noBase (f : Field) (known : List I) (p : Plan I) (l : List (Line I)) : List Event :=
  match included known p.incl with
  | none => [.raise]
  | some inc => overlap f inc 0 l

/-- One identifier in `UnitReferenceValidator.check_in_context` with the two constraints of `bootstrap_include`; other
kinds of units have no `plugin` of a job, which is an exception. (validators 669-700, testplan 641-653) -/
def ref (ctx : List (Unit' I)) (i : I) : List Event :=
  match ctx.filter fun u => decide (u.id = some (some i)) with
  | [] => [.issue .boot none .error]
  | [u] =>
    (if u.kind = .job then [] else [.issue .boot none .error]) ++
      (if u.kind = .job then (if u.resource then [] else [.issue .boot none .error]) else [.raise])
  | _ => [.issue .boot none .error]

/-- `UnitReferenceValidator.check_in_context`, validators 657-700. -/
def refs (ctx : List (Unit' I)) : Option (List I) → List Event
  | none => [.issue .boot none .error]
  | some l => l.flatMap (ref ctx)

/-- An exception ends the iteration. (unit 128-143) -/
def cut : List Event → List Event
  | [] => []
  | .raise :: _ => [.raise]
  | e :: l => e :: cut l

/-- `UnitValidator.check_in_context` for a test plan: fields in the order of their names. (unit 128-143; testplan
612-680) -/
def check (ctx : List (Unit' I)) (p : Plan I) : List Event :=
  let known := ids ctx
  cut (noBase .boot known p p.boot ++ refs ctx p.bootIds ++ nonEmpty .excl known 0 p.excl ++
    nonEmpty .incl known 0 p.incl ++ nonEmpty .mand known 0 p.mand ++ noBase .mand known p p.mand ++
    nonEmpty .nested known 0 p.nested)

end Verif.PlanCheck
