import Verif.Model.Qualifiers

/-! # Nested test plans

Models `TestPlanUnit.get_nested_part`, `get_bootstrap_job_ids`, `get_qualifier`, `get_mandatory_qualifier` and
`get_bootstrap_qualifier` (`plainbox/impl/unit/testplan.py`, "testplan"), and where nested parts are looked up
(`SessionManager.get_throwaway_manager`, `SessionDeviceContext.get_unit`).

Simplified: the fields are given as read (C28, C30): a matcher or an error for each line, qualified identifiers for
each word. The recursion is limited by a number (Python's recursion limit). Results that are remembered
(`instance_method_lru_cache`) are computed again. The order of a set of identifiers is that of the words. -/

namespace Verif.Nest

open Verif.Qualifiers (Kind Prim Qual selectJobs)

variable {J I : Type} [DecidableEq I]

/-- A test plan: `include`, `exclude`, `mandatory_include` (lines, `none` for a line with an error), the qualified
words of `bootstrap_include` and `nested_part`; `none` for a field that is not there. (testplan 224-242, 331, 358,
427-502) -/
structure Plan (J I : Type) where
  incl : Option (List (Option (Kind J I)))
  excl : Option (List (Option (Kind J I)))
  mand : Option (List (Option (Kind J I)))
  boot : Option (List I)
  nested : Option (List I)

/-- A unit with an identifier: a test plan, or not. (plainbox/impl/session/state.py 450-468) -/
inductive Unit' (J I : Type)
  | plan (p : Plan J I)
  | other

/-- `RecursionError`, and the error of a line (testplan 422-423). -/
inductive Err
  | recursion
  | line
deriving DecidableEq, Repr

/-- `get_unit(tp_id, 'test plan')`; `none` is `KeyError`. Units in the order in which they were added: the last one
with an identifier is in `_unit_id_map`. (plainbox/impl/session/state.py 450-468, 518) -/
def find (units : List (I × Unit' J I)) (i : I) : Option (Plan J I) :=
  match units.reverse.find? fun x => decide (x.1 = i) with
  | some (_, .plan p) => some p
  | _ => none

/-- `get_nested_part`, testplan 340-366; `units` are those of the throwaway manager. -/
def nestedPart (units : List (I × Unit' J I)) (p : Plan J I) : List (Plan J I) :=
  match p.nested with
  | none => []
  | some ids => ids.filterMap (find units)

/-- A loop over nested parts that ends with the first exception. (testplan 335-336, 381-382, 397-398, 412-413) -/
def each {α β : Type} (f : α → Except Err β) : List α → Except Err (List β)
  | [] => .ok []
  | a :: l =>
    match f a with
    | .error e => .error e
    | .ok b =>
      match each f l with
      | .error e => .error e
      | .ok bs => .ok (b :: bs)

/-- One line of `_gen_qualifiers`, testplan 421-425. -/
def line (inclusive : Bool) : Option (Kind J I) → Except Err (Qual J I)
  | none => .error .line
  | some k => .ok (.prim ⟨inclusive, k⟩)

/-- `_gen_qualifiers`, testplan 416-425. -/
def lines (inclusive : Bool) : Option (List (Option (Kind J I))) → Except Err (List (Qual J I))
  | none => .ok []
  | some l => each (line inclusive) l

/-- `get_bootstrap_job_ids`, testplan 318-337. -/
def bootIds (units : List (I × Unit' J I)) : Nat → Plan J I → Except Err (List I)
  | 0, _ => .error .recursion
  | n + 1, p =>
    match each (fun q => bootIds units n q) (nestedPart units p) with
    | .error e => .error e
    | .ok parts => .ok (p.boot.getD [] ++ parts.flatten)

/-- The list comprehension of `get_bootstrap_qualifier`, testplan 406-411. -/
def bootOwn (units : List (I × Unit' J I)) (excluding : Bool) (n : Nat) (p : Plan J I) : Except Err (List (Qual J I)) :=
  match p.boot with
  | none => .ok []
  | some _ =>
    match bootIds units n p with
    | .error e => .error e
    | .ok ids => .ok (ids.map fun i => .prim ⟨!excluding, .idEq i⟩)

/-- `get_bootstrap_qualifier`, testplan 400-414. -/
def bootQualifier (units : List (I × Unit' J I)) (excluding : Bool) : Nat → Plan J I → Except Err (Qual J I)
  | 0, _ => .error .recursion
  | n + 1, p =>
    match bootOwn units excluding n p with
    | .error e => .error e
    | .ok own =>
      match each (fun q => bootQualifier units excluding n q) (nestedPart units p) with
      | .error e => .error e
      | .ok parts => .ok (.comp (own ++ parts))

/-- `get_qualifier`, testplan 367-382. -/
def qualifier (units : List (I × Unit' J I)) : Nat → Plan J I → Except Err (Qual J I)
  | 0, _ => .error .recursion
  | n + 1, p =>
    match lines true p.incl with
    | .error e => .error e
    | .ok incl =>
      match lines false p.excl with
      | .error e => .error e
      | .ok excl =>
        match bootQualifier units true n p with
        | .error e => .error e
        | .ok boot =>
          match each (fun q => qualifier units n q) (nestedPart units p) with
          | .error e => .error e
          | .ok parts => .ok (.comp (incl ++ excl ++ [boot] ++ parts))

/-- `get_mandatory_qualifier`, testplan 384-398. -/
def mandatoryQualifier (units : List (I × Unit' J I)) : Nat → Plan J I → Except Err (Qual J I)
  | 0, _ => .error .recursion
  | n + 1, p =>
    match lines true p.mand with
    | .error e => .error e
    | .ok mand =>
      match each (fun q => mandatoryQualifier units n q) (nestedPart units p) with
      | .error e => .error e
      | .ok parts => .ok (.comp (mand ++ parts))

/-- The jobs that a test plan of a session selects: the plan is a unit of the session, nested parts come from
`get_providers()` whatever the providers of the session are. `none`: there is no such plan.
(`select_test_plan` and `finish_bootstrap`, plainbox/impl/session/assistant.py 794-823, 876-906; testplan 257-264, 345;
plainbox/impl/session/manager.py 513-541) -/
def select (idOf : J → I) (session installed : List (I × Unit' J I)) (jobs : List J) (n : Nat) (i : I) :
    Option (Except Err (List J)) :=
  match find session i with
  | none => none
  | some p =>
    match qualifier installed n p with
    | .error e => some (.error e)
    | .ok q => some (.ok (selectJobs idOf jobs [q]))

end Verif.Nest
