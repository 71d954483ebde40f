import Verif.Model.DepMgr

/-!
# Validation of a provider

Model of `ValidateCommand.invoked_new` (`plainbox/provider_manager.py` 1051-1111), of the validators that look at
other units, `UniqueValueValidator` and `UnitReferenceValidator` (`plainbox/impl/unit/validators.py` 537-695), as
used by units with identifiers (`plainbox/impl/unit/unit_with_id.py` 96-109) and jobs
(`plainbox/impl/unit/job.py` 876-950), and of `get_dependency_set` (`plainbox/impl/ctrl.py` 110-137).

Simplified: the validators that do not look at other units, and those of test plans, give arbitrary issues; fields
are not visited in the order of their names (issues are only looked at for their severity); messages, origins and
what is printed are left out.
-/

namespace Verif.Validate

/-- `Severity` (validation.py). (validation.py 56) -/
inductive Severity where
  | error | warning | advice
deriving DecidableEq, Repr

/-- The field `unit` of a unit, as far as it matters (job.py 251-257, unit.py 464-472). -/
inductive Kind where
  | job | category | other
deriving DecidableEq, Repr

/-- What the validators read of a unit. (validators.py 537-695) -/
structure Unit (I : Type) where
  kind : Kind
  /-- the attribute `id`, if there is one (validators.py 553-556), and its value -/
  idAttr : Option (Option I)
  /-- whether it is a `UnitWithId` (unit_with_id.py 71) -/
  withId : Bool
  /-- `plugin == 'resource'` -/
  resource : Bool
  /-- `get_direct_dependencies()` (job.py 616-636) -/
  depends : List I
  /-- `get_after_dependencies()` (job.py 638-666) -/
  after : List I
  /-- `get_resource_dependencies()` (job.py 668-676), `none` for an exception -/
  requires : Option (List I)
  /-- the identifiers of `get_imported_jobs()` (job.py 553-567), `none` for an exception -/
  imports : Option (List I)
  /-- `get_category_id()` if there is a `category_id` (job.py 939-940) -/
  category : Option I
  /-- the issues of all other validators -/
  others : List Severity
deriving DecidableEq

/-- What iterating over issues brings: an issue, or an exception that ends it.
(provider_manager.py 1051-1111, unit.py 881-909) -/
inductive Event where
  | issue (s : Severity)
  | raise
deriving DecidableEq, Repr

variable {I : Type} [DecidableEq I]

/-- `value_map[value]` for the field `id`; empty for `KeyError` (validators.py 537-561). -/
def withValue (ctx : List (Unit I)) (v : Option I) : List (Unit I) :=
  ctx.filter fun u => u.idAttr = some v

/-- `PresentFieldValidator.check` for the identifier (unit_with_id.py 99). -/
def presentEvents : Option I → List Event
  | none => [.issue .error]
  | some _ => []

/-- `UniqueValueValidator.check_in_context` for the identifier (validators.py 578-602). -/
def uniqueEvents (ctx : List (Unit I)) (v : Option I) : List Event :=
  match withValue ctx v with
  | [] => [.raise]
  | [_] => []
  | _ => [.issue .error]

/-- The validators of the identifier (unit_with_id.py 97-108); a `UnitWithId` always has the attribute. -/
def idEvents (ctx : List (Unit I)) (u : Unit I) : List Event :=
  if u.withId then presentEvents u.idAttr.join ++ uniqueEvents ctx u.idAttr.join else []

/-- One identifier in `UnitReferenceValidator.check_in_context` (validators.py 657-695); `constraints` tells for
a unit whether each of the constraints holds (those whose `onlyif` does not hold left out). -/
def refEvents (ctx : List (Unit I)) (constraints : Unit I → List Bool) (i : I) : List Event :=
  match withValue ctx (some i) with
  | [] => [.issue .error]
  | [r] => ((constraints r).filter (! ·)).map fun _ => .issue .error
  | _ => [.issue .error]

/-- `UnitReferenceValidator.check_in_context` (validators.py 645-695). -/
def refsEvents (ctx : List (Unit I)) (constraints : Unit I → List Bool) : Option (List I) → List Event
  | none => [.issue .error]
  | some is => is.flatMap (refEvents ctx constraints)

/-- The constraint of `depends`, `after` and `imports` (job.py 884-886, 897-899, 930-932). -/
def isJob (r : Unit I) : List Bool := [r.kind = .job]

/-- The constraints of `requires` (job.py 909-918). -/
def isResourceJob (r : Unit I) : List Bool :=
  if r.kind = .job then [decide (r.kind = .job), r.resource] else [decide (r.kind = .job)]

/-- The constraint of `category_id` (job.py 942-946). -/
def isCategory (r : Unit I) : List Bool := [r.kind = .category]

/-- The validators of jobs that look at other units (job.py 876-946). -/
def jobEvents (ctx : List (Unit I)) (u : Unit I) : List Event :=
  if u.kind = .job then
    refsEvents ctx isJob (some u.after) ++ refsEvents ctx isCategory (some u.category.toList) ++
      refsEvents ctx isJob (some u.depends) ++ refsEvents ctx isJob u.imports ++
      refsEvents ctx isResourceJob u.requires
  else []

/-- `Unit.check` with a context (unit.py 903-909). -/
def unitEvents (ctx : List (Unit I)) (u : Unit I) : List Event :=
  u.others.map .issue ++ idEvents ctx u ++ jobEvents ctx u

/-- A provider: name, base directory, units and the number of problems its files have.
(provider_manager.py 1051-1111) -/
structure Provider (I : Type) where
  name : Nat
  baseDir : Nat
  unitList : List (Unit I)
  problems : Nat

/-- The providers of the context (provider_manager.py 1055-1071). -/
def contextProviders (installed : List (Provider I)) (categories manifest p : Provider I) : List (Provider I) :=
  let l := if installed.all fun q => q.name ≠ p.name then installed ++ [p] else installed
  let l := if p.baseDir ≠ categories.baseDir then l ++ [categories] else l
  if p.baseDir ≠ manifest.baseDir then l ++ [manifest] else l

/-- The units of the context (validators.py 550-551). -/
def unitsOf (ps : List (Provider I)) : List (Unit I) := ps.flatMap (·.unitList)

/-- `get_early_issues` (provider_manager.py 1117-1121): both loops go over the problems. -/
def earlyEvents (problems : Nat) : List Event :=
  (List.range problems).flatMap fun _ => (List.range problems).map fun _ => .issue .error

/-- What the command comes to. (provider_manager.py 1051-1111) -/
inductive Outcome where
  | valid | failed | raised
deriving DecidableEq, Repr

/-- Whether an issue makes validation fail (provider_manager.py 1083-1092). -/
def fails (strict : Bool) : Severity → Bool
  | .error => true
  | .warning => strict
  | .advice => false

/-- The loop over the issues (provider_manager.py 1080-1111). -/
def loop (strict : Bool) : List Event → Bool → Outcome
  | [], failed => if failed then .failed else .valid
  | .issue s :: es, failed => loop strict es (failed || fails strict s)
  | .raise :: _, _ => .raised

/-- Validation of the units of a provider in a context (provider_manager.py 1073-1111, 1127-1131). -/
def checkUnits (strict : Bool) (ctx : List (Unit I)) (p : Provider I) : Outcome :=
  loop strict (earlyEvents p.problems ++ p.unitList.flatMap (unitEvents ctx)) false

/-- `ValidateCommand.invoked_new` (provider_manager.py 1051-1111). -/
def validate (strict : Bool) (installed : List (Provider I)) (categories manifest p : Provider I) : Outcome :=
  checkUnits strict (unitsOf (contextProviders installed categories manifest p)) p

/-- `get_dependency_set` (ctrl.py 110-137). -/
def dependencySet (u : Unit I) : List (DepMgr.DepType × Option I) :=
  u.depends.map (fun i => (.direct, some i)) ++ (u.requires.getD []).map (fun i => (.resource, some i)) ++
    u.after.map (fun i => (.ordering, some i))

/-- What the dependency solver sees (depmgr.py 358, 370). -/
def graph : DepMgr.Graph (Unit I) (Option I) := ⟨fun u => u.idAttr.join, dependencySet⟩

/-- The jobs among units. (ctrl.py 110-137; for stating properties) -/
def jobs (ctx : List (Unit I)) : List (Unit I) := ctx.filter fun u => u.kind = .job

end Verif.Validate
