import Verif.Basic

/-!
# Model of `plainbox/impl/depmgr.py`

The dependency solver: a depth first search with three colours, a trail used for
error reporting and a solution list.

Simplifications (all definitions of this file):
* jobs are values of an arbitrary type `J` with decidable equality; identity (`is`) and
  equality (`==`) of jobs are not distinguished;
* the dependency *set* returned by `get_dependency_set` is a list in arbitrary order;
* the Python recursion limit and logging are not modelled; recursion is bounded by fuel and
  running out of fuel is a separate result, so that termination is a theorem.
-/

namespace Verif.DepMgr

/-- `DependencyMissingError.DEP_TYPE_*`, depmgr.py:166-168. -/
inductive DepType where
  | resource | direct | ordering
deriving DecidableEq, Repr

/-- What the solver looks at in a job: `job.id` and
`job.controller.get_dependency_set(job)` (depmgr.py:358, 370). -/
structure Graph (J I : Type) where
  id : J → I
  deps : J → List (DepType × I)

/-- `Color`, depmgr.py:257-273. -/
inductive Color where
  | white | gray | black
deriving DecidableEq, Repr

/-- The `DependencyError` subclasses, depmgr.py:60-255, plus the failures that the Python code
can only have as assertion errors (depmgr.py:129-130, and `trail.index` at 398) and the model's
own out-of-fuel marker. -/
inductive Err (J I : Type) where
  | unknown (job : J)                                -- 60-111
  | cycle (jobs : List J)                            -- 114-159
  | missing (job : J) (id : I) (ty : DepType)        -- 162-215
  | duplicate (job dup : J)                          -- 218-254
  | assertion
  | outOfFuel
deriving DecidableEq, Repr

/-- Mutable state of the solver: `_job_color_map` and `_solution`, depmgr.py:321-326. -/
structure St (J I : Type) where
  color : I → Option Color
  solution : List J

variable {J I : Type} [DecidableEq J] [DecidableEq I]

/-- Dictionary assignment `self._job_color_map[id] = c`, depmgr.py:366, 391. -/
def St.paint (st : St J I) (i : I) (c : Color) : St J I :=
  { st with color := fun k => if k = i then some c else st.color k }

/-- The loop of `_get_job_map`, depmgr.py:414-420, with the accumulated dictionary as an
association list. -/
def getJobMapAux (g : Graph J I) : List J → List (I × J) → Except (Err J I) (List (I × J))
  | [], m => .ok m
  | job :: rest, m =>
    match m.lookup (g.id job) with
    | some first => .error (.duplicate first job)
    | none => getJobMapAux g rest (m ++ [(g.id job, job)])

/-- `_get_job_map`, depmgr.py:406-420. -/
def getJobMap (g : Graph J I) (jobs : List J) : Except (Err J I) (List (I × J)) :=
  getJobMapAux g jobs []

/-- Construction of `DependencyCycleError(trail[trail.index(job):])`, depmgr.py:398-400 with the
assertions of 129-130. -/
def mkCycle (trail : List J) (job : J) : Err J I :=
  if job ∈ trail then
    let t := trail.drop (trail.idxOf job)
    if 1 < t.length ∧ t.head? = t.getLast? then .cycle t else .assertion
  else .assertion

/-- The dependency loop of `_visit`, depmgr.py:370-387; `rec` is the recursive call. -/
def depsLoop (m : List (I × J)) (rec : J → List J → St J I → Except (Err J I) (St J I))
    (job : J) (trail : List J) :
    List (DepType × I) → St J I → Except (Err J I) (St J I)
  | [], st => .ok st
  | (ty, i) :: rest, st =>
    match m.lookup i with
    | none => .error (.missing job i ty)
    | some next =>
      match rec next (trail ++ [next]) st with
      | .error e => .error e
      | .ok st' => depsLoop m rec job trail rest st'

/-- `_visit`, depmgr.py:348-404.  The caller passes the trail; `trail=None` (368-369) is
represented by the caller passing `[job]`, see `solveLoop`.  (In Python a `None` trail would also
reach line 398 if a top-level visit found a gray node; `solve_no_assertion` shows it cannot.) -/
def visit (g : Graph J I) (m : List (I × J)) :
    Nat → J → List J → St J I → Except (Err J I) (St J I)
  | 0, _, _, _ => .error .outOfFuel
  | fuel + 1, job, trail, st =>
    match st.color (g.id job) with
    | none => .error (.unknown job)
    | some .white =>
      match depsLoop m (visit g m fuel) job trail (g.deps job) (st.paint (g.id job) .gray) with
      | .error e => .error e
      | .ok st' =>
        let st'' := st'.paint (g.id job) .black
        .ok { st'' with solution := st''.solution ++ [job] }
    | some .gray => .error (mkCycle trail job)
    | some .black => .ok st

/-- The loop of `_solve`, depmgr.py:342-343. -/
def solveLoop (g : Graph J I) (m : List (I × J)) (fuel : Nat) :
    List J → St J I → Except (Err J I) (St J I)
  | [], st => .ok st
  | job :: rest, st =>
    match visit g m fuel job [job] st with
    | .error e => .error e
    | .ok st' => solveLoop g m fuel rest st'

/-- `__init__`, depmgr.py:317-326: every job white, empty solution. -/
def initSt (g : Graph J I) (jobs : List J) : St J I :=
  { color := fun i => if i ∈ jobs.map g.id then some .white else none, solution := [] }

/-- `resolve_dependencies`, depmgr.py:289-346.  `visitList = none` is the Python default. -/
def resolve (g : Graph J I) (jobs : List J) (visitList : Option (List J)) :
    Except (Err J I) (List J) :=
  match getJobMap g jobs with
  | .error e => .error e
  | .ok m =>
    match solveLoop g m (jobs.length + 1) (visitList.getD jobs) (initSt g jobs) with
    | .error e => .error e
    | .ok st => .ok st.solution

end Verif.DepMgr
