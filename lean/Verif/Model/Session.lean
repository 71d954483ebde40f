import Verif.Model.DepMgr
import Verif.Model.Resource

/-!
# Model of `plainbox/impl/session/state.py` (`SessionState`), `plainbox/impl/ctrl.py`
(`CheckBoxSessionStateController`) and `plainbox/impl/session/jobs.py` (`JobState`)

Simplifications (all definitions of this file):
* jobs are values of an arbitrary type `J`; everything the session asks a job for is in `Sem`;
* signals, logging, `via_job`, effective categories and metadata are not modelled here;
* `recompute=False` (state.py:1038, 1183) is not modelled: it is never used inside plainbox
  except by callers that recompute afterwards;
* dictionaries are association lists in insertion order;
* an operation that raises still may have changed the session, so an operation returns the new
  session *and* the optional exception.
-/

namespace Verif.Session

open Verif.DepMgr (Graph DepType)
open Verif.Resource (ExprSem ProgOutcome evaluateOrRaise)

/-- `IJobResult.OUTCOME_*`, plainbox/abc.py:195-219 (`none` is `OUTCOME_NONE`). -/
inductive Outcome where
  | none | pass | fail | skip | notSupported | notImplemented | undecided | crash
deriving DecidableEq, Repr

/-- `InhibitionCause`, session/jobs.py:43-69. -/
inductive Cause where
  | undesired | pendingDep | failedDep | pendingResource | failedResource
deriving DecidableEq, Repr

/-- `JobReadinessInhibitor`, session/jobs.py:72-184.  The constructor checks of 161-184 hold by
the way the controller builds inhibitors. -/
structure Inhibitor (J E : Type) where
  cause : Cause
  job : Option J
  expr : Option E
deriving DecidableEq, Repr

/-- `UndesiredJobReadinessInhibitor`, session/jobs.py:187-189. -/
def undesired {J E : Type} : Inhibitor J E := ⟨.undesired, .none, .none⟩

/-- A job result: outcome, the RFC822 records its output parses to, and a token for all other
data.  `MemoryJobResult({})` is `hollow`.  Simplified from impl/result.py:264-439. -/
structure Result (R : Type) where
  outcome : Outcome
  records : List R
  extra : Nat
deriving DecidableEq, Repr

/-- `MemoryJobResult({})`, session/jobs.py:305. -/
def Result.empty {R : Type} : Result R := ⟨.none, [], 0⟩

/-- `is_hollow`, impl/result.py:426-439. -/
def Result.isHollow {R : Type} (r : Result R) : Bool :=
  r.outcome = .none && r.records.isEmpty && r.extra = 0

/-- `job.get_resource_program()`, unit/job.py:591-614: no `requires` field, a program that cannot
be compiled (`ResourceProgramError`), or a list of expressions. -/
inductive Prog (E : Type) where
  | absent
  | bad
  | prog (es : List E)

/-- Everything the session asks of a job.  `direct`/`after` list the ids in the order in which
`sorted()` presents them (ctrl.py:196, 216); `depOrder` is the iteration order of the set built by
`get_dependency_set` (ctrl.py:110-137), constrained by `Sem.WF`; `family` lists the sibling jobs
created when the job is added (state.py:1111-1181), in pre-order over nested siblings; `gen` lists
the jobs that templates make from the resources of a job (ctrl.py:301-320), `blank` is
`Resource({})`. -/
structure Sem (J I E R : Type) where
  id : J → I
  direct : J → List I
  after : J → List I
  prog : J → Prog E
  depOrder : J → List (DepType × I)
  isResource : J → Bool
  failOnResource : J → Bool
  expr : ExprSem E I R
  family : J → List J
  gen : J → List R → List J
  blank : R

variable {J I E R : Type}

/-- Resource ids of a program, unit/job.py:654-666; nothing when the program is bad
(ctrl.py:129-132). -/
def Sem.resDeps (sem : Sem J I E R) (j : J) : List I :=
  match sem.prog j with
  | .prog es => es.flatMap sem.expr.resIds
  | _ => []

/-- `get_dependency_set` as a set, ctrl.py:110-137: `depOrder` enumerates exactly these pairs. -/
def Sem.WF (sem : Sem J I E R) : Prop :=
  ∀ j ty i, (ty, i) ∈ sem.depOrder j ↔
    (ty = .direct ∧ i ∈ sem.direct j) ∨ (ty = .resource ∧ i ∈ sem.resDeps j) ∨
    (ty = .ordering ∧ i ∈ sem.after j)

/-- The graph seen by the dependency solver. It is passed in state.py:912-916. -/
def Sem.graph (sem : Sem J I E R) : Graph J I := ⟨sem.id, sem.depOrder⟩

/-- `JobState`, session/jobs.py:274-346. -/
structure JobState (J E R : Type) where
  job : J
  inhib : List (Inhibitor J E)
  result : Result R
  history : List (Result R)
  attempts : Int
deriving DecidableEq, Repr

/-- `JobState(job)`: initial field values, session/jobs.py:292-337. -/
def JobState.new (j : J) : JobState J E R := ⟨j, [undesired], .empty, [], 3⟩

/-- `can_start`, session/jobs.py:364-366. -/
def JobState.canStart (q : JobState J E R) : Bool := q.inhib.isEmpty && decide (0 < q.attempts)

/-- `SessionState`, session/state.py:754-803.  `units` holds the job units of `unit_list`. -/
structure Session (J I E R : Type) where
  jobs : List J
  units : List J
  states : List (I × JobState J E R)
  desired : List J
  mandatory : List J
  runList : List J
  resources : List (I × List R)
deriving DecidableEq, Repr

/-- Exceptions that session operations can raise. (state.py:805-870, 1005-1036, 1085-1214) -/
inductive Err (J I : Type) where
  | keyError (i : I)
  | valueError
  | duplicate (existing new : J)
  | badProgram
  | solver (e : DepMgr.Err J I)
  | diverges
deriving DecidableEq, Repr

variable [DecidableEq J] [DecidableEq I] [DecidableEq E] [DecidableEq R]

/-! ## Dictionaries -/

/-- In-place change of the value stored under a key. (used for `job_state_map`, state.py:1085-1110, 1434-1460) -/
def modify {K V : Type} [DecidableEq K] (m : List (K × V)) (k : K) (f : V → V) : List (K × V) :=
  m.map fun p => if p.1 = k then (p.1, f p.2) else p

/-- `del m[k]`. (state.py:855-871, 1183-1214) -/
def delKey {K V : Type} [DecidableEq K] (m : List (K × V)) (k : K) : List (K × V) :=
  m.filter fun p => p.1 ≠ k

/-- `m[k] = v`. (state.py:1085-1110, 1216-1223) -/
def setKey {K V : Type} [DecidableEq K] (m : List (K × V)) (k : K) (v : V) : List (K × V) :=
  if (m.lookup k).isSome then modify m k (fun _ => v) else m ++ [(k, v)]

/-! ## Readiness -/

/-- The part of `job_state_map` that readiness looks at: job and outcome. (ctrl.py:139-232) -/
def look (st : List (I × JobState J E R)) (i : I) : Option (J × Outcome) :=
  (st.lookup i).map fun q => (q.job, q.result.outcome)

/-- Loop over the resource ids of an expression that cannot be evaluated, ctrl.py:160-177. -/
def pendingResources (lk : I → Option (J × Outcome)) (e : E) :
    List I → Except (Err J I) (List (Inhibitor J E))
  | [] => .ok []
  | i :: is =>
    match lk i with
    | none => .error (.keyError i)
    | some (j, o) =>
      match pendingResources lk e is with
      | .error x => .error x
      | .ok l => .ok (if o = .pass then l else ⟨.pendingResource, some j, some e⟩ :: l)

/-- Loop over the resource ids of a failed expression, ctrl.py:182-194. -/
def failedResources (lk : I → Option (J × Outcome)) (e : E) :
    List I → Except (Err J I) (List (Inhibitor J E))
  | [] => .ok []
  | i :: is =>
    match lk i with
    | none => .error (.keyError i)
    | some (j, _) =>
      match failedResources lk e is with
      | .error x => .error x
      | .ok l => .ok (⟨.failedResource, some j, some e⟩ :: l)

/-- Loop over direct dependencies, ctrl.py:196-214. -/
def directLoop (lk : I → Option (J × Outcome)) :
    List I → Except (Err J I) (List (Inhibitor J E))
  | [] => .ok []
  | i :: is =>
    match lk i with
    | none => .error (.keyError i)
    | some (j, o) =>
      match directLoop lk is with
      | .error x => .error x
      | .ok l =>
        if o = .none then .ok (⟨.pendingDep, some j, none⟩ :: l)
        else if o ≠ .pass then .ok (⟨.failedDep, some j, none⟩ :: l)
        else .ok l

/-- Loop over "after" dependencies, ctrl.py:216-224. -/
def afterLoop (lk : I → Option (J × Outcome)) :
    List I → Except (Err J I) (List (Inhibitor J E))
  | [] => .ok []
  | i :: is =>
    match lk i with
    | none => .error (.keyError i)
    | some (j, o) =>
      match afterLoop lk is with
      | .error x => .error x
      | .ok l => if o = .none then .ok (⟨.pendingDep, some j, none⟩ :: l) else .ok l

/-- Resource part of `get_inhibitor_list`, ctrl.py:153-194. -/
def resourcePart (sem : Sem J I E R) (lk : I → Option (J × Outcome)) (res : List (I × List R))
    (j : J) : Except (Err J I) (List (Inhibitor J E)) :=
  match sem.prog j with
  | .absent => .ok []
  | .bad => .error .badProgram
  | .prog es =>
    match evaluateOrRaise sem.expr res es with
    | .ok => .ok []
    | .cannotEvaluate e _ => pendingResources lk e (sem.expr.resIds e)
    | .failed e => failedResources lk e (sem.expr.resIds e)

/-- `get_inhibitor_list`, ctrl.py:139-225. -/
def inhibitorList (sem : Sem J I E R) (lk : I → Option (J × Outcome)) (res : List (I × List R))
    (j : J) : Except (Err J I) (List (Inhibitor J E)) :=
  match resourcePart sem lk res j with
  | .error x => .error x
  | .ok a =>
    match directLoop lk (sem.direct j) with
    | .error x => .error x
    | .ok b =>
      match afterLoop lk (sem.after j) with
      | .error x => .error x
      | .ok c => .ok (a ++ b ++ c)

/-- Remove the undesired inhibitor from a state (`list.remove`, state.py:1453-1454). -/
def dropUndesired (q : JobState J E R) : JobState J E R :=
  { q with inhib := q.inhib.erase undesired }

/-- Append inhibitors to a state, state.py:1456-1458. -/
def addInhib (l : List (Inhibitor J E)) (q : JobState J E R) : JobState J E R :=
  { q with inhib := q.inhib ++ l }

/-- Loop over the run list in `_recompute_job_readiness`, state.py:1450-1458. -/
def recomputeLoop (sem : Sem J I E R) (res : List (I × List R)) :
    List J → List (I × JobState J E R) → List (I × JobState J E R) × Option (Err J I)
  | [], st => (st, none)
  | j :: js, st =>
    match st.lookup (sem.id j) with
    | none => (st, some (.keyError (sem.id j)))
    | some q =>
      if undesired ∈ q.inhib then
        let st1 := modify st (sem.id j) dropUndesired
        match inhibitorList sem (look st1) res j with
        | .error x => (st1, some x)
        | .ok l => recomputeLoop sem res js (modify st1 (sem.id j) (addInhib l))
      else (st, some .valueError)

/-- Reset loop of `_recompute_job_readiness`, state.py:1445-1447. -/
def resetAll (st : List (I × JobState J E R)) : List (I × JobState J E R) :=
  st.map fun p => (p.1, { p.2 with inhib := [undesired] })

/-- `_recompute_job_readiness`, state.py:1434-1458. -/
def recompute (sem : Sem J I E R) (s : Session J I E R) : Session J I E R × Option (Err J I) :=
  let r := recomputeLoop sem s.resources s.runList (resetAll s.states)
  ({ s with states := r.1 }, r.2)

/-! ## Construction -/

/-- The duplicate-removal loop of `SessionState.__init__`, state.py:764-793.  Constructing the
solver raises only for duplicates (depmgr.py:317-326). -/
def dedupLoop (sem : Sem J I E R) : Nat → List J → Except (Err J I) (List J)
  | 0, _ => .error .diverges
  | n + 1, jobs =>
    match DepMgr.getJobMap sem.graph jobs with
    | .error (.duplicate a b) =>
      if a = b then dedupLoop sem n (jobs.erase b) else .error (.duplicate a b)
    | .error e => .error (.solver e)
    | .ok _ => .ok jobs

/-- `SessionState.__init__`, state.py:754-803. -/
def construct (sem : Sem J I E R) (units : List J) : Except (Err J I) (Session J I E R) :=
  match dedupLoop sem (units.length + 1) units with
  | .error e => .error e
  | .ok jobs =>
    .ok { jobs := jobs, units := units, states := jobs.map fun j => (sem.id j, JobState.new j),
          desired := [], mandatory := [], runList := [], resources := [] }

/-! ## Selection -/

/-- `affected_job` of the dependency errors, depmgr.py:82, 139, 194, 235 (`none`: the error is
not a `DependencyError`, or an empty cycle). -/
def affected : DepMgr.Err J I → Option J
  | .unknown j => some j
  | .cycle (j :: _) => some j
  | .missing j _ _ => some j
  | .duplicate j _ => some j
  | _ => none

/-- What the repair loop ends with. (state.py:899-944) -/
structure Repair (J I : Type) where
  desired : List J
  runList : List J
  problems : List (DepMgr.Err J I)
deriving DecidableEq, Repr

/-- The `while` loop of `update_desired_job_list`, state.py:913-939, with fuel. -/
def repairLoop (g : Graph J I) :
    Nat → List J → List J → List (DepMgr.Err J I) → Except (Err J I) (Repair J I)
  | 0, _, _, _ => .error .diverges
  | n + 1, jobs, desired, problems =>
    if desired = [] then .ok ⟨[], [], problems⟩
    else
      match DepMgr.resolve g jobs (some desired) with
      | .ok run => .ok ⟨desired, run, problems⟩
      | .error e =>
        match affected e with
        | some j => repairLoop g n (jobs.erase j) (desired.erase j) (problems ++ [e])
        | none => .error (.solver e)

/-- `update_mandatory_job_list`, state.py:872-881. -/
def updateMandatory (s : Session J I E R) (l : List J) : Session J I E R :=
  { s with mandatory := l }

/-- `update_desired_job_list`, state.py:883-943.  Returns the session, the problems and the
exception, if any. -/
def updateDesired (sem : Sem J I E R) (s : Session J I E R) (req : List J)
    (inclMandatory : Bool) :
    Session J I E R × List (DepMgr.Err J I) × Option (Err J I) :=
  let desired := (if inclMandatory then s.mandatory else []) ++ req
  match repairLoop sem.graph (s.jobs.length + desired.length + 1) s.jobs desired [] with
  | .error x => ({ s with desired := desired, runList := [] }, [], some x)
  | .ok r =>
    let p := recompute sem { s with desired := r.desired, runList := r.runList }
    (p.1, r.problems, p.2)

/-! ## Adding and removing jobs -/

/-- Registration part of `_add_job_unit` for one job, state.py:1087-1105, without siblings. -/
def addOne (sem : Sem J I E R) (s : Session J I E R) (j : J) :
    Session J I E R × Option (Err J I) :=
  match s.states.lookup (sem.id j) with
  | none =>
    ({ s with states := s.states ++ [(sem.id j, JobState.new j)], jobs := s.jobs ++ [j],
              units := s.units ++ [j] }, none)
  | some q => if j ≠ q.job then (s, some (.duplicate q.job j)) else (s, none)

/-- A job followed by its siblings, state.py:1085-1181: stops at the first clash. -/
def addMany (sem : Sem J I E R) : Session J I E R → List J → Session J I E R × Option (Err J I)
  | s, [] => (s, none)
  | s, j :: js =>
    match addOne sem s j with
    | (s', some x) => (s', some x)
    | (s', none) => addMany sem s' js

/-- `add_unit` of a job, state.py:1038-1109: siblings are added recursively; each level
recomputes readiness in its `finally` clause, the last one decides.  An exception of the
recomputation replaces an earlier one, as in Python.  Simplified: siblings are a flat list, and all are
added before the recomputation; in the code a recomputation that raises inside keeps later siblings out
(`Verif.Model.Device` has the siblings as a tree and follows the code in this). -/
def addUnit (sem : Sem J I E R) (s : Session J I E R) (j : J) :
    Session J I E R × Option (Err J I) :=
  let r := addMany sem s (j :: sem.family j)
  let p := recompute sem r.1
  (p.1, match p.2 with
    | some x => some x
    | none => r.2)

/-- `remove_unit` of a job, state.py:1183-1214. -/
def removeUnit (sem : Sem J I E R) (s : Session J I E R) (j : J) :
    Session J I E R × Option (Err J I) :=
  if j ∉ s.units then (s, some .valueError)
  else
    let s1 := { s with units := s.units.erase j }
    if j ∉ s.jobs then (s1, some .valueError)
    else
      let s2 := { s1 with jobs := s.jobs.erase j }
      if (s.states.lookup (sem.id j)).isNone then (s2, some (.keyError (sem.id j)))
      else
        recompute sem { s2 with states := delKey s.states (sem.id j),
                                resources := delKey s.resources (sem.id j) }

/-- The deletion loop of `trim_job_list`, state.py:849-853. -/
def trimLoop (sem : Sem J I E R) : List J → Session J I E R → Session J I E R × Option (Err J I)
  | [], s => (s, none)
  | j :: js, s =>
    if (s.states.lookup (sem.id j)).isNone then (s, some (.keyError (sem.id j)))
    else trimLoop sem js { s with states := delKey s.states (sem.id j),
                                  resources := delKey s.resources (sem.id j) }

/-- `trim_job_list`, state.py:805-870. -/
def trim (sem : Sem J I E R) (s : Session J I E R) (designates : J → Bool) :
    Session J I E R × Option (Err J I) :=
  let removed := s.jobs.filter designates
  if removed.any (fun j => decide (sem.id j ∈ s.runList.map sem.id)) then (s, some .valueError)
  else
    match trimLoop sem removed s with
    | (s', some x) => (s', some x)
    | (s', none) => ({ s' with jobs := s.jobs.filter fun j => !designates j }, none)

/-! ## Results -/

/-- Assignment to `JobState.result` with its change notification, session/jobs.py:302-306,
350-362 and pod.py:318-346: the notifier runs only when the value differs. -/
def setResult (r : Result R) (q : JobState J E R) : JobState J E R :=
  if r = q.result then q
  else { q with result := r, history := if r.isHollow then q.history else q.history ++ [r] }

/-- `_parse_and_store_resource`, ctrl.py:269-290. -/
def storeResource (sem : Sem J I E R) (s : Session J I E R) (j : J) (r : Result R) :
    Session J I E R :=
  if r.outcome = .none then s
  else { s with resources := setKey s.resources (sem.id j)
                  (if r.records.isEmpty then [sem.blank] else r.records) }

/-- The template loop of `_instantiate_templates`, ctrl.py:301-324: each generated job is added
with `add_unit`. -/
def addGenerated (sem : Sem J I E R) : Session J I E R → List J →
    Session J I E R × Option (Err J I)
  | s, [] => (s, none)
  | s, j :: js =>
    match addUnit sem s j with
    | (s', some x) => (s', some x)
    | (s', none) => addGenerated sem s' js

/-- `observe_result`, ctrl.py:227-324. -/
def observeResult (sem : Sem J I E R) (s : Session J I E R) (j : J) (r : Result R) :
    Session J I E R × Option (Err J I) :=
  if (s.states.lookup (sem.id j)).isNone then (s, some (.keyError (sem.id j)))
  else
    let s1 := { s with states := modify s.states (sem.id j) (setResult r) }
    if sem.isResource j then
      let s2 := storeResource sem s1 j r
      if r.outcome = .none then (s2, none)
      else addGenerated sem s2 (sem.gen j ((s2.resources.lookup (sem.id j)).getD []))
    else (s1, none)

/-- `update_job_result`, state.py:982-1002. -/
def updateResult (sem : Sem J I E R) (s : Session J I E R) (j : J) (r : Result R) :
    Session J I E R × Option (Err J I) :=
  match observeResult sem s j r with
  | (s', some x) => (s', some x)
  | (s', none) => recompute sem s'

/-- `attempts -= 1` in `use_job_result`, session/assistant.py:1405. -/
def useAttempt (s : Session J I E R) (i : I) : Session J I E R :=
  { s with states := modify s.states i fun q => { q with attempts := q.attempts - 1 } }

/-! ## The session as a transition system -/

/-- Calls that an application can make. (state.py:805-1036, 1183-1223) -/
inductive Op (J I R : Type) where
  | add (j : J)
  | remove (j : J)
  | trim (designates : J → Bool)
  | mandatory (l : List J)
  | desired (l : List J) (inclMandatory : Bool)
  | result (j : J) (r : Result R)
  | attempt (i : I)

/-- One call. (state.py:805-1036, 1183-1223) -/
def step (sem : Sem J I E R) (s : Session J I E R) : Op J I R → Session J I E R × Option (Err J I)
  | .add j => addUnit sem s j
  | .remove j => removeUnit sem s j
  | .trim d => trim sem s d
  | .mandatory l => (updateMandatory s l, none)
  | .desired l b => let r := updateDesired sem s l b; (r.1, r.2.2)
  | .result j r => updateResult sem s j r
  | .attempt i => (useAttempt s i, none)

/-! ## Jobs that cannot start -/

/-- The outcome loop of `run_job`, session/assistant.py:1350-1364; `acc` is `outcome`. -/
def outcomeLoop (sem : Sem J I E R) (lk : I → Option (J × Outcome)) (j : J) :
    List (Inhibitor J E) → Outcome → Except (Err J I) Outcome
  | [], acc => .ok acc
  | h :: hs, acc =>
    if h.cause = .failedResource ∧ sem.failOnResource j = true then .ok .fail
    else if h.cause ≠ .failedDep then outcomeLoop sem lk j hs acc
    else
      match h.job with
      | none => .error .valueError
      | some rj =>
        match lk (sem.id rj) with
        | none => .error (.keyError (sem.id rj))
        | some (_, o) => outcomeLoop sem lk j hs (if o = .skip then .skip else acc)

/-- Outcome of a job that cannot start, session/assistant.py:1345-1367. -/
def cannotStartOutcome (sem : Sem J I E R) (lk : I → Option (J × Outcome)) (j : J)
    (hs : List (Inhibitor J E)) : Except (Err J I) Outcome :=
  outcomeLoop sem lk j hs .notSupported

end Verif.Session
