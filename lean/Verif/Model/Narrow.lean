import Verif.Model.Session
import Verif.Model.Qualifiers

/-!
# Choosing what to run

Model of the part of `SessionAssistant` (plainbox/impl/session/assistant.py, "assistant") that chooses the
jobs to run: `select_test_plan`, `get_bootstrap_todo_list`, `finish_bootstrap` (and the end of `bootstrap`),
`hand_pick_jobs`, `use_alternate_selection`, `filter_jobs_by_categories`, `remove_all_filters`, and of the
queries `get_static_todo_list`, `get_mandatory_jobs`, `get_participating_categories`.  The session is the one
of `Verif.Model.Session`, the qualifiers those of `Verif.Model.Qualifiers`.

Simplified: a test plan is given by its three qualifiers and by the value that
`get_effective_category_map` has for each job (see `Verif.Model.Overrides`), which does not raise; the order
in which the calls are allowed is left out (see `Verif.Model.Assistant`), so that more histories are possible
here; `SessionDeviceContext.get_unit` finds the jobs of the session by their ids (see
`Verif.Model.Device`).
-/

namespace Verif.Narrow

open Verif.Session (Session Sem Result updateDesired updateMandatory updateResult)
open Verif.Qualifiers (Qual Prim Kind selectJobs)

variable {J I E R C : Type} [DecidableEq J] [DecidableEq I] [DecidableEq E] [DecidableEq R] [DecidableEq C]

/-- A test plan: `get_qualifier()`, `get_mandatory_qualifier()`, `get_bootstrap_qualifier()` (testplan.py
368-414) and the effective category of each job (testplan.py 546-565). -/
structure Plan (J I C : Type) where
  incl : Qual J I
  mandatory : Qual J I
  boot : Qual J I
  category : J → C

/-- The session of the assistant and `self._manager.test_plans`. (assistant 130-206; manager.py 106-187.) -/
structure SA (J I E R C : Type) where
  sess : Session J I E R
  plans : List (Plan J I C)

/-- Exceptions: `KeyError` of `get_unit`, `IndexError` of `test_plans[0]`, and those of the session.
(assistant.py 815, 992, 1152, 1170) -/
inductive Exc (J I : Type)
  | keyError (i : I)
  | indexError
  | session (e : Session.Err J I)

/-- An iterable argument, as the annotations `Iterable[str]` allow: a container, or an iterator, of which
only what has not been consumed is left. (assistant 966-1020) -/
inductive Sel (α : Type)
  | container (l : List α)
  | iterator (l : List α)

/-- Python's `x in selection`, and the selection afterwards: looking into an iterator consumes it up to the
first equal element, or all of it. (assistant 991-993, 1017-1019) -/
def Sel.has {α : Type} [DecidableEq α] : Sel α → α → Bool × Sel α
  | .container l, x => (decide (x ∈ l), .container l)
  | .iterator l, x => (decide (x ∈ l), .iterator (l.drop (l.idxOf x + 1)))

/-- `SessionDeviceContext.get_unit(job_id, 'job')`, state.py 450-468. -/
def getUnit (sem : Sem J I E R) (sa : SA J I E R C) (i : I) : Except (Exc J I) J :=
  match sa.sess.jobs.find? (fun j => decide (sem.id j = i)) with
  | some j => .ok j
  | none => .error (.keyError i)

/-- `get_static_todo_list`, assistant 1176-1198. -/
def staticTodo (sem : Sem J I E R) (sa : SA J I E R C) : List I := sa.sess.runList.map sem.id

/-- `self._context.state.update_desired_job_list(req)` with the default `include_mandatory=True`.
(assistant 881-1039; state.py 883-943.) -/
def desire (sem : Sem J I E R) (sa : SA J I E R C) (req : List J) : SA J I E R C × Option (Exc J I) :=
  ({ sa with sess := (updateDesired sem sa.sess req true).1 },
    (updateDesired sem sa.sess req true).2.2.map .session)

/-- The list comprehension of `use_alternate_selection`, assistant 990-992. -/
def pick (sem : Sem J I E R) (sa : SA J I E R C) : List I → Sel I → Except (Exc J I) (List J)
  | [], _ => .ok []
  | i :: is, sel =>
    if (sel.has i).1 then
      match getUnit sem sa i with
      | .error e => .error e
      | .ok j =>
        match pick sem sa is (sel.has i).2 with
        | .error e => .error e
        | .ok js => .ok (j :: js)
    else pick sem sa is (sel.has i).2

/-- `use_alternate_selection`, assistant 965-993. -/
def alternate (sem : Sem J I E R) (sa : SA J I E R C) (sel : Sel I) : SA J I E R C × Option (Exc J I) :=
  match pick sem sa (staticTodo sem sa) sel with
  | .error e => (sa, some e)
  | .ok l => desire sem sa l

/-- `[self.get_job(job_id) for job_id in …]`, assistant 1015-1016. -/
def getJobs (sem : Sem J I E R) (sa : SA J I E R C) : List I → Except (Exc J I) (List J)
  | [] => .ok []
  | i :: is =>
    match getUnit sem sa i with
    | .error e => .error e
    | .ok j =>
      match getJobs sem sa is with
      | .error e => .error e
      | .ok js => .ok (j :: js)

/-- `[job.id for job in … if job.category_id in categories]`, assistant 1015-1017; `cat` is
`job.category_id`. -/
def inCategories (sem : Sem J I E R) (cat : J → C) : List J → Sel C → List I
  | [], _ => []
  | j :: js, cats =>
    if (cats.has (cat j)).1 then sem.id j :: inCategories sem cat js (cats.has (cat j)).2
    else inCategories sem cat js (cats.has (cat j)).2

/-- `filter_jobs_by_categories`, assistant 995-1018. -/
def filterCategories (sem : Sem J I E R) (cat : J → C) (sa : SA J I E R C) (cats : Sel C) :
    SA J I E R C × Option (Exc J I) :=
  match getJobs sem sa (staticTodo sem sa) with
  | .error e => (sa, some e)
  | .ok js => alternate sem sa (.container (inCategories sem cat js cats))

/-- `remove_all_filters`, assistant 1020-1038.  The ends of `bootstrap` (assistant 866-871) and
`finish_bootstrap` (assistant 953-956) make the same two calls. -/
def everything (sem : Sem J I E R) (sa : SA J I E R C) : SA J I E R C × Option (Exc J I) :=
  desire sem sa (selectJobs sem.id sa.sess.jobs (sa.plans.map (·.incl)))

/-- `hand_pick_jobs`, assistant 879-909; a pattern is given by the jobs whose id it matches. -/
def handPick (sem : Sem J I E R) (sa : SA J I E R C) (pats : List (J → Bool)) :
    SA J I E R C × Option (Exc J I) :=
  desire sem sa (selectJobs sem.id sa.sess.jobs (pats.map fun f => .prim ⟨true, .other f⟩))

/-- `get_bootstrap_todo_list` (assistant 912-934) and the beginning of `bootstrap` (assistant 851-856):
mandatory jobs are not included. -/
def bootTodo (sem : Sem J I E R) (sa : SA J I E R C) : SA J I E R C × Option (Exc J I) :=
  ({ sa with
      sess := (updateDesired sem sa.sess (selectJobs sem.id sa.sess.jobs (sa.plans.map (·.boot))) false).1 },
    (updateDesired sem sa.sess (selectJobs sem.id sa.sess.jobs (sa.plans.map (·.boot))) false).2.2.map .session)

/-- `select_test_plan`, assistant 794-822: the change of `test_plans` reaches `set_test_plan_list` and
`_update_mandatory_job_list` (state.py 375-379, 618-625). -/
def selectPlan (sem : Sem J I E R) (sa : SA J I E R C) (p : Plan J I C) : SA J I E R C × Option (Exc J I) :=
  desire sem
    { sess := updateMandatory sa.sess (selectJobs sem.id sa.sess.jobs [p.mandatory])
      plans := [p] }
    sa.sess.desired

/-- The part of `use_job_result` (assistant 1405-1408) that gives the result to the session. -/
def useResult (sem : Sem J I E R) (sa : SA J I E R C) (i : I) (r : Result R) : SA J I E R C × Option (Exc J I) :=
  match getUnit sem sa i with
  | .error e => (sa, some e)
  | .ok j =>
    ({ sa with sess := (updateResult sem sa.sess j r).1 }, (updateResult sem sa.sess j r).2.map .session)

/-- `get_mandatory_jobs`, assistant 1158-1173. -/
def mandatoryJobs (sem : Sem J I E R) (sa : SA J I E R C) : Except (Exc J I) (List I) :=
  match sa.plans with
  | [] => .error .indexError
  | p :: _ => .ok ((selectJobs sem.id sa.sess.jobs [p.mandatory]).map sem.id)

/-- `get_participating_categories`, assistant 1135-1155, as a list with repetitions. -/
def participating (sa : SA J I E R C) : Except (Exc J I) (List C) :=
  match sa.plans with
  | [] => .error .indexError
  | p :: _ => .ok (sa.sess.runList.map p.category)

/-- The calls. (assistant 794-821, 881-1039) -/
inductive Call (J I R C : Type)
  | selectPlan (p : Plan J I C)
  | bootTodo
  | finish
  | removeFilters
  | alternate (sel : Sel I)
  | filter (cats : Sel C)
  | handPick (pats : List (J → Bool))
  | result (i : I) (r : Result R)

/-- One call; `cat` is `job.category_id`. (assistant 794-821, 881-1039) -/
def Call.run (sem : Sem J I E R) (cat : J → C) (sa : SA J I E R C) : Call J I R C →
    SA J I E R C × Option (Exc J I)
  | .selectPlan p => Narrow.selectPlan sem sa p
  | .bootTodo => Narrow.bootTodo sem sa
  | .finish => everything sem sa
  | .removeFilters => everything sem sa
  | .alternate sel => Narrow.alternate sem sa sel
  | .filter cats => filterCategories sem cat sa cats
  | .handPick pats => Narrow.handPick sem sa pats
  | .result i r => useResult sem sa i r

/-- Calls one after the other; the application goes on after an exception.
(No counterpart in the code: any interleaving of the methods modelled here.) -/
def runAll (sem : Sem J I E R) (cat : J → C) : List (Call J I R C) → SA J I E R C → SA J I E R C
  | [], sa => sa
  | c :: cs, sa => runAll sem cat cs (c.run sem cat sa).1

end Verif.Narrow
