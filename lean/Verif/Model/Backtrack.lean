import Verif.Model.RunLoop

/-!
# The run loop of `plainbox run`

Models `run_all_selected_jobs`, `run_single_job_with_ui` and `on_job_added` of
`plainbox/impl/commands/inv_run.py` on top of the session state: when a job is added while running, all jobs
are selected again and the loop makes another round.

Executing a job (with its dialogue, see `Verif.Model.Dialogue`) is an arbitrary function of the session and
the job; `sel` is `_get_matching_job_list` as a function of the list of known jobs.  Checkpoints, times and
printing are left out, and so are effective categories.
-/

namespace Verif.Session

variable {J I E R : Type} [DecidableEq J] [DecidableEq I] [DecidableEq E] [DecidableEq R]

/-- A session, whether a job was added (`_backtrack_and_run_missing`), and an exception.
(`on_job_added`, inv_run.py 1030-1046.) -/
structure Hooked (J I E R : Type) where
  s : Session J I E R
  added : Bool
  err : Option (Err J I)

/-- `_add_job_unit` for one job without siblings (state.py 1085-1105) with `on_job_added` connected
(inv_run.py 636, 1030-1046): every job is selected again. -/
def addOneH (sem : Sem J I E R) (sel : List J → List J) (s : Session J I E R) (j : J) : Hooked J I E R :=
  match s.states.lookup (sem.id j) with
  | none =>
    let s1 := (addOne sem s j).1
    let r := updateDesired sem s1 (sel s1.jobs) true
    ⟨r.1, true, r.2.2⟩
  | some q => if j ≠ q.job then ⟨s, false, some (.duplicate q.job j)⟩ else ⟨s, false, none⟩

/-- A job and its siblings, as `addMany` (state.py 1085-1181). -/
def addManyH (sem : Sem J I E R) (sel : List J → List J) : Session J I E R → List J → Hooked J I E R
  | s, [] => ⟨s, false, none⟩
  | s, j :: js =>
    let h := addOneH sem sel s j
    match h.err with
    | some x => ⟨h.s, h.added, some x⟩
    | none =>
      let h' := addManyH sem sel h.s js
      ⟨h'.s, h.added || h'.added, h'.err⟩

/-- `add_unit`, as `addUnit` (state.py 1038-1109). -/
def addUnitH (sem : Sem J I E R) (sel : List J → List J) (s : Session J I E R) (j : J) : Hooked J I E R :=
  let h := addManyH sem sel s (j :: sem.family j)
  match h.err with
  | some x => ⟨(recompute sem h.s).1, h.added, some x⟩
  | none => ⟨(recompute sem h.s).1, h.added, (recompute sem h.s).2⟩

/-- The template loop, as `addGenerated` (ctrl.py 301-324). -/
def addGeneratedH (sem : Sem J I E R) (sel : List J → List J) : Session J I E R → List J → Hooked J I E R
  | s, [] => ⟨s, false, none⟩
  | s, j :: js =>
    let h := addUnitH sem sel s j
    match h.err with
    | some x => ⟨h.s, h.added, some x⟩
    | none =>
      let h' := addGeneratedH sem sel h.s js
      ⟨h'.s, h.added || h'.added, h'.err⟩

/-- `observe_result`, as `observeResult` (ctrl.py 227-324). -/
def observeResultH (sem : Sem J I E R) (sel : List J → List J) (s : Session J I E R) (j : J) (r : Result R) :
    Hooked J I E R :=
  if (s.states.lookup (sem.id j)).isNone then ⟨s, false, some (.keyError (sem.id j))⟩
  else
    let s1 := { s with states := modify s.states (sem.id j) (setResult r) }
    if sem.isResource j then
      let s2 := storeResource sem s1 j r
      if r.outcome = .none then ⟨s2, false, none⟩
      else addGeneratedH sem sel s2 (sem.gen j ((s2.resources.lookup (sem.id j)).getD []))
    else ⟨s1, false, none⟩

/-- `update_job_result` (state.py 982-1002). -/
def updateResultH (sem : Sem J I E R) (sel : List J → List J) (s : Session J I E R) (j : J) (r : Result R) :
    Hooked J I E R :=
  let h := observeResultH sem sel s j r
  match h.err with
  | some x => ⟨h.s, h.added, some x⟩
  | none => ⟨(recompute sem h.s).1, h.added, (recompute sem h.s).2⟩

/-- The state of the loop: the session, the flag, the jobs started so far, an exception.
(`run_all_selected_jobs`, inv_run.py 717-749.) -/
structure Round (J I E R : Type) where
  s : Session J I E R
  flag : Bool
  started : List J
  err : Option (Err J I)

/-- `run_single_job_with_ui` (inv_run.py 763-805); the comments of a result made for a job that cannot start are the token `1`. -/
def runSingle (sem : Sem J I E R) (sel : List J → List J) (out : Session J I E R → J → Result R)
    (b : Round J I E R) (j : J) : Round J I E R :=
  match b.s.states.lookup (sem.id j) with
  | none => { b with err := some (.keyError (sem.id j)) }
  | some q =>
    if q.canStart then
      let h := updateResultH sem sel b.s j (out b.s j)
      ⟨h.s, b.flag || h.added, b.started ++ [j], h.err⟩
    else
      match cannotStartOutcome sem (look b.s.states) j q.inhib with
      | .error x => { b with err := some x }
      | .ok o =>
        let h := updateResultH sem sel b.s j ⟨o, [], 1⟩
        ⟨h.s, b.flag || h.added, b.started, h.err⟩

/-- The loop over the jobs gathered (739-750); an exception ends it. -/
def runBatch (sem : Sem J I E R) (sel : List J → List J) (out : Session J I E R → J → Result R) :
    Round J I E R → List J → Round J I E R
  | b, [] => b
  | b, j :: js =>
    let b' := runSingle sem sel out b j
    if b'.err.isSome then b' else runBatch sem sel out b' js

/-- The jobs gathered (729-738): those of the run list without an outcome. -/
def gather (sem : Sem J I E R) (s : Session J I E R) : List J → Except (Err J I) (List J)
  | [] => .ok []
  | j :: js =>
    match s.states.lookup (sem.id j) with
    | none => .error (.keyError (sem.id j))
    | some q =>
      match gather sem s js with
      | .error x => .error x
      | .ok l => if q.result.outcome = .none then .ok (j :: l) else .ok l

/-- One pass of the outer loop (724-750). -/
def runRound (sem : Sem J I E R) (sel : List J → List J) (out : Session J I E R → J → Result R)
    (b : Round J I E R) : Round J I E R :=
  match gather sem b.s b.s.runList with
  | .error x => { b with flag := false, err := some x }
  | .ok l => runBatch sem sel out { b with flag := false } l

/-- The outer loop of `run_all_selected_jobs` (717-750); `none` when the fuel is used up. -/
def runAll (sem : Sem J I E R) (sel : List J → List J) (out : Session J I E R → J → Result R) :
    Nat → Round J I E R → Option (Round J I E R)
  | 0, _ => none
  | n + 1, b =>
    let b' := runRound sem sel out b
    if b'.err.isSome then some b'
    else if b'.flag then runAll sem sel out n b'
    else some b'

/-- The loop begins with nothing started. (inv_run.py 722) -/
def Round.start (s : Session J I E R) : Round J I E R := ⟨s, true, [], none⟩

end Verif.Session
