import Verif.Model.Pattern
import Verif.Model.Sort

/-! # Field overrides of test plans

Models the override part of `TestPlanUnitSupport` and the category functions of `TestPlanUnit`
(`plainbox/impl/unit/testplan.py`), `JobState.apply_overrides` (`plainbox/impl/session/jobs.py`) and
the override functions of `SessionDeviceContext` (`plainbox/impl/session/state.py`).

The override statements are given as parsed (see `Words` for the parsers). Statements with errors
leave no node that the visitors of `TestPlanUnitSupport` look at, so they do not appear. The regular
expression engine is a parameter. Nested parts are given as a finite tree: the code looks them up by
identifier (`get_nested_part`, testplan.py 339-366) and does not terminate on cycles. -/

namespace Verif.Overrides

open Verif.Pattern

/-- Python's `re`: whether a pattern compiles, and whether `re.match(pattern, text)` is a match.
(Standard library, used in testplan.py 546-583 and state.py 601-616.) -/
structure Rx where
  valid : Str → Bool
  mt : Str → Str → Bool

/-- A test plan: its provider's namespace, the include statements as (pattern, overrides), the
category and certification status overrides as (value, pattern), `none` for an absent field, and the
nested parts. (testplan.py 185-382, 684-928) -/
inductive Plan
  | mk (ns : Option Str) (incl : Option (List (Str × List (Str × Str))))
      (cat cert : Option (List (Str × Str))) (nested : List Plan)

/-- The namespace of the provider (testplan.py 585-594). -/
def Plan.ns : Plan → Option Str | .mk n _ _ _ _ => n
/-- The `include` field (testplan.py 225-226). -/
def Plan.incl : Plan → Option (List (Str × List (Str × Str))) | .mk _ i _ _ _ => i
/-- The `category-overrides` field (testplan.py 249-250). -/
def Plan.cat : Plan → Option (List (Str × Str)) | .mk _ _ c _ _ => c
/-- The `certification-status-overrides` field (testplan.py 253-254). -/
def Plan.cert : Plan → Option (List (Str × Str)) | .mk _ _ _ c _ => c
/-- The nested parts (testplan.py 339-365). -/
def Plan.nested : Plan → List Plan | .mk _ _ _ _ n => n

/-- `r"^{}$".format(testplan.qualify_id(text))`, testplan.py 533-534, 861-862, 888-889, 917-918. -/
def patternOf (ns : Option Str) (text : Str) : Str := '^' :: qualifyId ns text ++ ['$']

/-- `text.replace('-', '_')`, testplan.py 920. -/
def dashes (t : Str) : Str := t.map fun c => if c = '-' then '_' else c

/-- The statements of one include field, testplan.py 910-923: statements without overrides are
skipped; the values are used as they are. -/
def inlineOf (ns : Option Str) (l : List (Str × List (Str × Str))) : List (Str × List (Str × Str)) :=
  l.filterMap fun st =>
    if st.2 = [] then none else some (patternOf ns st.1, st.2.map fun fv => (dashes fv.1, fv.2))

mutual
/-- `_get_inline_overrides`, testplan.py 899-929. -/
def inlineOverrides : Plan → List (Str × List (Str × Str))
  | .mk ns incl _ _ nested => (match incl with
      | none => []
      | some l => inlineOf ns l) ++ inlineOverridesL nested
/-- The loop over nested parts (testplan.py 900-928). -/
def inlineOverridesL : List Plan → List (Str × List (Str × Str))
  | [] => []
  | p :: ps => inlineOverrides p ++ inlineOverridesL ps
end

mutual
/-- `_get_category_overrides`, testplan.py 843-868: without the field, nested parts are not visited. -/
def categoryOverrides : Plan → List (Str × Str × Str)
  | .mk ns _ cat _ nested => match cat with
      | none => []
      | some l => (l.map fun st => (patternOf ns st.2, "category_id".toList, qualifyId ns st.1)) ++
          categoryOverridesL nested
/-- The loop over nested parts (testplan.py 843-869). -/
def categoryOverridesL : List Plan → List (Str × Str × Str)
  | [] => []
  | p :: ps => categoryOverrides p ++ categoryOverridesL ps
end

mutual
/-- `_get_blocker_status_overrides`, testplan.py 870-897. -/
def blockerOverrides : Plan → List (Str × Str × Str)
  | .mk ns _ _ cert nested => (match cert with
      | none => []
      | some l => l.map fun st => (patternOf ns st.2, "certification_status".toList, st.1)) ++
          blockerOverridesL nested
/-- The loop over nested parts (testplan.py 871-898). -/
def blockerOverridesL : List Plan → List (Str × Str × Str)
  | [] => []
  | p :: ps => blockerOverrides p ++ blockerOverridesL ps
end

/-- A dictionary from patterns to lists of (field, value), in insertion order.
(testplan.py 815-841, state.py 588-595) -/
abbrev OMap := List (Str × List (Str × Str))

/-- `m[k].extend(l)` on a `defaultdict(list)`, testplan.py 834-840; `m.setdefault(k, []).extend(l)`,
state.py 594. -/
def extendAt (m : OMap) (k : Str) (l : List (Str × Str)) : OMap :=
  match m with
  | [] => [(k, l)]
  | (k', l') :: m => if k' = k then (k', l' ++ l) :: m else (k', l') :: extendAt m k l

/-- `sorted` of the items, testplan.py 841: the keys are distinct, so only they are compared. -/
def itemLe (a b : Str × List (Str × Str)) : Bool := Sort.strLe a.1 b.1

/-- `_get_override_list`, testplan.py 815-841. -/
def overrideList (p : Plan) : OMap :=
  let m := (inlineOverrides p).foldl (fun m x => extendAt m x.1 x.2) []
  let m := (categoryOverrides p).foldl (fun m x => extendAt m x.1 [x.2]) m
  let m := (blockerOverrides p).foldl (fun m x => extendAt m x.1 [x.2]) m
  Sort.sortBy itemLe m

/-- `SessionDeviceContext._compute_override_map`, state.py 588-595. -/
def computeOverrideMap (plans : List Plan) : OMap :=
  plans.foldl (fun m p => (overrideList p).foldl (fun m x => extendAt m x.1 x.2) m) []

/-- The overridable fields of a `JobState`, jobs.py 319-332; `none` is the marker `JOB_VALUE`. -/
structure Eff where
  categoryId : Option Str
  certificationStatus : Option Str
  autoRetry : Option Str
deriving DecidableEq

/-- A `JobState` as it is constructed. (jobs.py 318-332) -/
def Eff.initial : Eff := ⟨none, none, none⟩

/-- What overriding can raise (jobs.py 377-424, state.py 601-616). -/
inductive Exc
  | attributeError
  | reError
deriving DecidableEq

/-- The assignment of one override, jobs.py 418-423. Every attribute of the class that begins with
`effective_` is overridable, so the `ValueError` of line 422 is never raised; the fields have no
assignment filters. -/
def setField (e : Eff) (fv : Str × Str) : Except Exc Eff :=
  if fv.1 = "category_id".toList then .ok { e with categoryId := some fv.2 }
  else if fv.1 = "certification_status".toList then .ok { e with certificationStatus := some fv.2 }
  else if fv.1 = "auto_retry".toList then .ok { e with autoRetry := some fv.2 }
  else .error .attributeError

/-- `JobState.apply_overrides`, jobs.py 377-424: the state afterwards, and the exception if there
was one. -/
def applyOverrides (e : Eff) : List (Str × Str) → Eff × Option Exc
  | [] => (e, none)
  | fv :: l => match setField e fv with
    | .ok e => applyOverrides e l
    | .error x => (e, some x)

/-- `_override_update` and the body of the loop of `_bulk_override_update`, state.py 606-616. -/
def overrideUpdate (rx : Rx) (id : Str) (e : Eff) : OMap → Eff × Option Exc
  | [] => (e, none)
  | (pattern, l) :: m =>
    if rx.valid pattern = false then (e, some .reError)
    else if rx.mt pattern id then
      match applyOverrides e l with
      | (e, none) => overrideUpdate rx id e m
      | (e, some x) => (e, some x)
    else overrideUpdate rx id e m

/-- `_bulk_override_update`, state.py 601-610, over the job states with their ids. -/
def bulkUpdate (rx : Rx) (m : OMap) : List (Str × Eff) → List (Str × Eff) × Option Exc
  | [] => ([], none)
  | (id, e) :: l =>
    match overrideUpdate rx id e m with
    | (e, none) => ((id, e) :: (bulkUpdate rx m l).1, (bulkUpdate rx m l).2)
    | (e, some x) => ((id, e) :: l, some x)

/-- `OverridableJobField.__get__`, jobs.py 243-249. -/
def effective (v : Option Str) (jobValue : Option Str) : Option Str :=
  match v with
  | none => jobValue
  | some x => some x

/-! ## Categories of a single test plan -/

/-- A job as seen by the category functions. (testplan.py 546-583) -/
structure Job where
  id : Str
  categoryId : Option Str
deriving DecidableEq

/-- `parse_category_overrides`, testplan.py 505-544, on parsed statements (value, pattern); `none`
is an error node, for which the code raises `ValueError`. The result is (category, pattern). -/
def parseCategoryOverrides (ns : Option Str) : List (Option (Str × Str)) → Option (List (Str × Str))
  | [] => some []
  | none :: _ => none
  | some st :: l => (parseCategoryOverrides ns l).map ((qualifyId ns st.1, patternOf ns st.2) :: ·)

/-- What the category functions can raise (testplan.py 506-583). -/
inductive CatExc
  | valueError
  | reError
deriving DecidableEq

/-- Python dictionary assignment. (testplan.py 546-565) -/
def dictSet (m : List (Str × Option Str)) (k : Str) (v : Option Str) : List (Str × Option Str) :=
  match m with
  | [] => [(k, v)]
  | (k', v') :: m => if k' = k then (k, v) :: m else (k', v') :: dictSet m k v

/-- The inner loop of `get_effective_category_map`, testplan.py 562-564. -/
def mapJobs (rx : Rx) (pattern category : Str) :
    List Job → List (Str × Option Str) → Except CatExc (List (Str × Option Str))
  | [], m => .ok m
  | j :: js, m =>
    if rx.valid pattern = false then .error .reError
    else mapJobs rx pattern category js (if rx.mt pattern j.id then dictSet m j.id (some category) else m)

/-- The outer loop, testplan.py 561. -/
def mapOverrides (rx : Rx) (jobs : List Job) :
    List (Str × Str) → List (Str × Option Str) → Except CatExc (List (Str × Option Str))
  | [], m => .ok m
  | (c, p) :: l, m => (mapJobs rx p c jobs m).bind (mapOverrides rx jobs l)

/-- `get_effective_category_map`, testplan.py 546-565; `ov` are the statements of the field, `none`
when it is absent. -/
def getEffectiveCategoryMap (rx : Rx) (ns : Option Str) (ov : Option (List (Option (Str × Str))))
    (jobs : List Job) : Except CatExc (List (Str × Option Str)) :=
  let m := jobs.foldl (fun m j => dictSet m j.id j.categoryId) []
  match ov with
  | none => .ok m
  | some l => match parseCategoryOverrides ns l with
    | none => .error .valueError
    | some l => mapOverrides rx jobs l m

/-- The loop of `get_effective_category`, testplan.py 580-582. -/
def firstMatch (rx : Rx) (job : Job) : List (Str × Str) → Except CatExc (Option Str)
  | [] => .ok job.categoryId
  | (c, p) :: l =>
    if rx.valid p = false then .error .reError
    else if rx.mt p job.id then .ok (some c) else firstMatch rx job l

/-- `get_effective_category`, testplan.py 567-583. -/
def getEffectiveCategory (rx : Rx) (ns : Option Str) (ov : Option (List (Option (Str × Str))))
    (job : Job) : Except CatExc (Option Str) :=
  match ov with
  | none => .ok job.categoryId
  | some l => match parseCategoryOverrides ns l with
    | none => .error .valueError
    | some l => firstMatch rx job l

end Verif.Overrides
