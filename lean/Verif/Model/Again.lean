import Verif.Basic

/-! # Interrupted runs of `plainbox run`

Models how `RunInvocation` (`plainbox/impl/commands/inv_run.py`, "inv_run") creates, saves, offers, resumes and
finishes sessions. The process can die between any two steps; the next process finds what the last checkpoint
stored. A checkpoint writes the session or raises and changes nothing (C21), and what is loaded is what was saved
(C19, C20). One process at a time uses the repository.

Simplified: the job list of a command (`_get_matching_job_list`, `update_desired_job_list`, C04) is a parameter, and no jobs are added while the run
lasts (C69); which jobs can start and what comes of them (C05, C08, C38, C68) is chosen by the environment; so is the
order of the listing (C49). -/

namespace Verif.Again

variable {I A K O : Type} [DecidableEq I] [DecidableEq A] [DecidableEq K]

/-- Where a result comes from: the job was run (inv_run 773-777), could not start (inv_run 796-801), or the user
told it after the session was resumed (inv_run 539-553). -/
inductive How
  | ran
  | cannot
  | told
deriving DecidableEq, Repr

/-- A result. (inv_run 539-553, 777, 800) -/
structure Entry (K O : Type) where
  job : K
  outcome : O
  how : How
deriving DecidableEq, Repr

/-- A session: application and title (`metadata.app_id`, `title`: inv_run 656-666), the flags `incomplete` and
`submitted`, `running_job_name`, the run list, and the results, the latest first. (plainbox/impl/session/state.py
47-84) -/
structure Sess (A K O : Type) where
  app : A
  incomplete : Bool
  submitted : Bool
  running : Option K
  run : List K
  results : List (Entry K O)
deriving DecidableEq, Repr

/-- The jobs that have a result: `result.outcome is None` (inv_run 732) says which do not. -/
def Sess.has (s : Sess A K O) (k : K) : Bool := s.results.any fun e => decide (e.job = k)

/-- What is in a storage: no checkpoint, one that cannot be peeked at, a session. (inv_run 501-509) -/
inductive Content (A K O : Type)
  | empty
  | bad
  | saved (s : Sess A K O)
deriving DecidableEq, Repr

/-- Where the process is.
* `offer i r`: "Do you want to resume session i?", others to come (inv_run 439-447).
* `broken i r`: it cannot be loaded, ignore or erase? (inv_run 459-462)
* `another`: "Do you want to start a new session?" (inv_run 473)
* `create`: before a storage is made (inv_run 453, 377, 477).
* `created`: before the meta-data is stored (inv_run 400-403).
* `select`: before the jobs are selected (inv_run 406).
* `last k`: what to do with the job that was running? (inv_run 532-537)
* `prepare`: before the loop (inv_run 408-410).
* `loop l`: at the `for`, with the jobs to come (inv_run 738).
* `running k l`: a job runs (inv_run 771-775).
* `ended k o l`: it has ended and the checkpoint was made (inv_run 780), before its result is taken over (804).
* `finishing`: before the flag is removed (inv_run 416). `exporting`: before the results are exported (inv_run 420).
* `exported`: before the session is marked as submitted (inv_run 421). `done`: after that. -/
inductive Pc (I K O : Type)
  | offer (i : I) (rest : List I)
  | broken (i : I) (rest : List I)
  | another
  | create
  | created
  | select
  | last (k : K)
  | prepare
  | loop (todo : List K)
  | running (k : K) (todo : List K)
  | ended (k : K) (o : O) (todo : List K)
  | finishing
  | exporting
  | exported
  | done
deriving DecidableEq, Repr

/-- The process: its command line (`expected_app_id`, `expected_session_title`, inv_run 661-666), its session
(`manager`, inv_run 304-336), and where it is. -/
structure Proc (I A K O : Type) where
  app : A
  sess : Option (I × Sess A K O)
  pc : Pc I K O
deriving DecidableEq, Repr

/-- What has happened. (No counterpart in the code: a record for the statements.) -/
inductive Event (I A K O : Type)
  | erased (i : I)
  | started (i : I) (k : K)
  | ended (i : I) (k : K) (o : O)
  | finished (i : I)
  | exported (i : I) (a : A) (results : List (Entry K O))
deriving DecidableEq, Repr

/-- The repository in the order of its listing, the process, and the record, latest first.
(plainbox/impl/session/storage.py 79-113) -/
structure World (I A K O : Type) where
  repo : List (I × Content A K O)
  proc : Option (Proc I A K O)
  log : List (Event I A K O)
deriving DecidableEq, Repr

/-- The jobs that a command line selects, in the order of the run list (inv_run 687-695), and the outcomes that can
be chosen for the last job (inv_run 538-553). -/
structure Cmd (A K O : Type) where
  jobs : A → List K
  skip : O
  pass : O
  fail : O

/-- Answers to "Do you want to resume session": EOF counts as `create` (inv_run 441-454). -/
inductive Offer
  | resume | next | create
deriving DecidableEq, Repr

/-- Answers about the last job: EOF counts as `skip` (inv_run 532-553). -/
inductive Last
  | skip | pass | fail | again
deriving DecidableEq, Repr

/-- Steps. `loads`: `load_session` does not raise `SessionResumeError`. `saves`: the checkpoint does not raise.
`create i`: the name of a new storage. `go`: everything that does not need an answer; `starts` and `o`: can the
job start, what comes of it. (inv_run 369-478) -/
inductive Act (I A O : Type)
  | launch (a : A) (interactive : Bool)
  | offer (x : Offer) (loads : Bool)
  | broken (erase : Bool)
  | another (yes : Bool)
  | last (x : Last) (saves : Bool)
  | create (i : I)
  | go (saves starts : Bool) (o : O)
  | die
  | foreign (i : I)
deriving DecidableEq, Repr

/-- `get_resume_candidates`, inv_run 495-514. -/
def candidates (a : A) (repo : List (I × Content A K O)) : List I :=
  repo.filterMap fun x =>
    match x.2 with
    | .saved s => if s.app = a ∧ s.incomplete = true then some x.1 else none
    | _ => none

/-- The content of a storage is replaced. (`save_checkpoint`, plainbox/impl/session/storage.py 302-342) -/
def write (repo : List (I × Content A K O)) (i : I) (c : Content A K O) : List (I × Content A K O) :=
  repo.map fun x => if x.1 = i then (i, c) else x

/-- `self.manager.checkpoint()`: it stores the session and the process goes on, or it raises and the process ends.
(plainbox/impl/session/manager.py 335-354) -/
def World.checkpoint (w : World I A K O) (a : A) (i : I) (s : Sess A K O) (pc : Pc I K O) (saves : Bool)
    (new : List (Event I A K O)) : World I A K O :=
  if saves then ⟨write w.repo i (.saved s), some ⟨a, some (i, s), pc⟩, new ++ w.log⟩
  else { w with proc := none }

/-- The next question, or the `else` of the loop, inv_run 438, 471-473. -/
def afterOffer : List I → Pc I K O
  | [] => .another
  | j :: r => .offer j r

/-- The result for the last job, inv_run 538-555. -/
def Cmd.told (c : Cmd A K O) : Last → Option O
  | .skip => some c.skip
  | .pass => some c.pass
  | .fail => some c.fail
  | .again => none

/-- What the process does by itself, with its session `s` stored in `i`.

* `created`: inv_run 397-403 (`store_application_metadata`, flag, checkpoint).
* `select`: inv_run 404-406, `do_initial_job_selection` 687-695.
* `prepare`: inv_run 408-415; the jobs without a result, 723-732.
* `loop`: `run_single_job_with_ui`, inv_run 762-772 (job can start) and 782-804 (it cannot).
* `running`: inv_run 773-780. `ended`: inv_run 804.
* `finishing`: inv_run 416-417. `exporting`: inv_run 420, 865-893. `exported`: inv_run 421-422.
* `done`: inv_run 424. -/
def World.go (c : Cmd A K O) (w : World I A K O) (a : A) (i : I) (s : Sess A K O) (saves starts : Bool) (o : O) :
    Pc I K O → World I A K O
  | .created =>
    w.checkpoint a i { s with
      app := a
      incomplete := true } .select saves []
  | .select => { w with proc := some ⟨a, some (i, { s with run := c.jobs a }), .prepare⟩ }
  | .prepare => { w with proc := some ⟨a, some (i, s), .loop (s.run.filter fun k => !s.has k)⟩ }
  | .loop [] => { w with proc := some ⟨a, some (i, s), .finishing⟩ }
  | .loop (k :: l) =>
    if starts then w.checkpoint a i { s with running := some k } (.running k l) saves [.started i k]
    else { w with proc := some ⟨a, some (i, { s with results := ⟨k, o, .cannot⟩ :: s.results }), .loop l⟩ }
  | .running k l =>
    World.checkpoint { w with log := .ended i k o :: w.log } a i { s with running := none } (.ended k o l) saves []
  | .ended k o l =>
    { w with proc := some ⟨a, some (i, { s with results := ⟨k, o, .ran⟩ :: s.results }), .loop l⟩ }
  | .finishing => w.checkpoint a i { s with incomplete := false } .exporting saves [.finished i]
  | .exporting =>
    { w with
      proc := some ⟨a, some (i, s), .exported⟩
      log := .exported i a s.results :: w.log }
  | .exported => w.checkpoint a i { s with submitted := true } .done saves []
  | .done => { w with proc := none }
  | _ => w

/-- A new session, before anything is stored. (`create_with_unit_list`, plainbox/impl/session/manager.py 242-275;
its meta-data: plainbox/impl/session/state.py 78-87) -/
def Sess.blank (a : A) : Sess A K O := ⟨a, false, false, none, [], []⟩

/-- The name of a new storage has not been used before: it has the time in it, and a number if it exists.
(plainbox/impl/session/storage.py 240-250) -/
def World.unused (w : World I A K O) (i : I) : Bool :=
  (w.repo.lookup i).isNone && w.log.all fun
    | .erased j => decide (j ≠ i)
    | _ => true

/-- One step; what is not possible changes nothing.

* `launch`: inv_run 375-378, 427-438.
* `offer`: inv_run 438-459, and 466-470, 528-529 if the session was loaded.
* `broken`: inv_run 459-465. `another`: inv_run 471-475.
* `last`: inv_run 538-559. `create`: inv_run 477, 616.
* `die`: anything that ends the process, also exceptions.
* `foreign`: something else leaves a storage that cannot be read (inv_run 506-507). -/
def World.step (c : Cmd A K O) (w : World I A K O) : Act I A O → World I A K O
  | .launch a interactive =>
    match w.proc with
    | some _ => w
    | none =>
      { w with
        proc := some ⟨a, none,
          if interactive then
            match candidates a w.repo with
            | [] => .create
            | j :: r => .offer j r
          else .create⟩ }
  | .offer x loads =>
    match w.proc with
    | some ⟨a, _, .offer i r⟩ =>
      match x with
      | .resume =>
        match w.repo.lookup i with
        | some (.saved s) =>
          if loads then
            { w with
              proc := some ⟨a, some (i, s),
                match s.running with
                | some k => .last k
                | none => .prepare⟩ }
          else { w with proc := some ⟨a, none, .broken i r⟩ }
        | _ => { w with proc := some ⟨a, none, .broken i r⟩ }
      | .next => { w with proc := some ⟨a, none, afterOffer r⟩ }
      | .create => { w with proc := some ⟨a, none, .create⟩ }
    | _ => w
  | .broken erase =>
    match w.proc with
    | some ⟨a, _, .broken i r⟩ =>
      if erase then
        { repo := w.repo.filter fun x => decide (x.1 ≠ i)
          proc := some ⟨a, none, afterOffer r⟩
          log := .erased i :: w.log }
      else { w with proc := some ⟨a, none, afterOffer r⟩ }
    | _ => w
  | .another yes =>
    match w.proc with
    | some ⟨a, _, .another⟩ =>
      if yes then { w with proc := some ⟨a, none, .create⟩ } else { w with proc := none }
    | _ => w
  | .last x saves =>
    match w.proc with
    | some ⟨a, some (i, s), .last k⟩ =>
      match c.told x with
      | some o =>
        w.checkpoint a i { s with
          running := none
          results := ⟨k, o, .told⟩ :: s.results } .prepare saves []
      | none => { w with proc := some ⟨a, some (i, s), .prepare⟩ }
    | _ => w
  | .create i =>
    match w.proc with
    | some ⟨a, _, .create⟩ =>
      if w.unused i then
        { w with
          repo := (i, .empty) :: w.repo
          proc := some ⟨a, some (i, .blank a), .created⟩ }
      else w
    | _ => w
  | .go saves starts o =>
    match w.proc with
    | some ⟨a, some (i, s), pc⟩ => w.go c a i s saves starts o pc
    | _ => w
  | .die => { w with proc := none }
  | .foreign i => if w.unused i then { w with repo := (i, .bad) :: w.repo } else w

/-- Any steps. (No counterpart in the code: any number of processes, one after the other.) -/
def World.run (c : Cmd A K O) (w : World I A K O) (l : List (Act I A O)) : World I A K O :=
  l.foldl (fun w a => w.step c a) w

/-- Nothing has happened yet. (plainbox/impl/session/storage.py 93-97) -/
def World.start : World I A K O := ⟨[], none, []⟩

end Verif.Again
