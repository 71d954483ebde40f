import Verif.Model.Assistant

/-!
# The life of sessions in the repository

Model of the parts of `SessionAssistant` (plainbox/impl/session/assistant.py, "assistant") that create, save,
list, resume, finish and delete sessions.  The process can die between any two steps; the next process finds
what the last checkpoint stored.  A checkpoint writes the session or fails and changes nothing (C21), and what
is loaded is what was saved (C19, C20).  One process at a time uses the repository.
-/

namespace Verif.Life

open Verif.Assistant (put started resumed bootable normal ended)

/-- The flags of a session that the assistant uses, plainbox/impl/session/state.py 58-75. -/
structure Flags where
  bootstrapping : Bool
  incomplete : Bool
  submitted : Bool
  testplanless : Bool
deriving DecidableEq, Repr

/-- `{'bootstrapping'}`, assistant 577. -/
def Flags.fresh : Flags := ⟨true, false, false, false⟩

/-- `{'incomplete'}`, assistant 877 and 962. -/
def Flags.ready : Flags := ⟨false, true, false, false⟩

/-- `{'incomplete', 'testplanless'}`, assistant 906. -/
def Flags.picked : Flags := ⟨false, true, false, true⟩

/-- A session: its application, its flags, the `running_job_name`, and the results in the order in which they
were given to the session.  `A`: applications, `K`: jobs.
(`SessionMetaData`, state.py 47-191; results: state.py 982-1002.) -/
structure Sess (A K O : Type) where
  app : A
  flags : Flags
  running : Option K
  results : List (K × O)
deriving DecidableEq, Repr

/-- What `load_checkpoint` and `SessionPeekHelper.peek` find in a storage: no data, data that raises
`SessionResumeError`, or a session.
(`SessionManager.load_session`, manager.py 277-333; assistant 486-519, 651-689.) -/
inductive Content (A K O : Type)
  | empty
  | bad
  | saved (s : Sess A K O)
deriving DecidableEq, Repr

/-- Where in a call the process is: not in one, in `start_new_session` after the storage was made, in
`run_job` (perhaps called by `bootstrap`) while the job runs, in `bootstrap` between two jobs.
(assistant 543-591, 824-878, 1242-1376) -/
inductive Pc (K : Type)
  | free
  | starting
  | running (inBoot : Bool)
  | booting
deriving DecidableEq, Repr

/-- The assistant: `_app_id`, the allowed calls, `_manager` with the session, the keys of
`_resume_candidates`, the generators made by `get_resumable_sessions` (not started, or the storages that they
have still to look at). (assistant 130-206, 651-689) -/
structure Proc (I A K O : Type) where
  app : A
  pc : Pc K
  allowed : Assistant.Call → Bool
  cur : Option (I × Sess A K O)
  cand : List I
  gens : List (Option (List I))

/-- The repository and the process.
(Simplified: the storages of one repository, storage.py 46-159, and at most one process.) -/
structure World (I A K O : Type) where
  stores : List (I × Content A K O)
  proc : Option (Proc I A K O)

/-- The flags `autorestart` and `noreturn` of jobs, and the outcomes.
(Looked at in assistant 1283-1372 and 594-648.) -/
structure Jobs (K O : Type) where
  autorestart : K → Bool
  noreturn : K → Bool
  pass : O
  fail : O

/-- How a call ends (assistant 486-689, 824-878, 1242-1479). -/
inductive Res (I : Type)
  | ok
  /-- `UnexpectedMethodCall` -/
  | refused
  /-- another exception -/
  | raised
  /-- a generator yields, or stops -/
  | found (i : I)
  | stop
  /-- not something that can happen now -/
  | impossible
deriving DecidableEq, Repr

/-- What happens.  `ck` says whether the checkpoint works. (assistant 486-689, 824-878, 1242-1479) -/
inductive Act (I A K O : Type)
  /-- a process starts, up to `select_providers` -/
  | spawn (a : A)
  | crash
  /-- `start_new_session`, in two steps -/
  | startNew (i : I)
  | started (ck : Bool)
  /-- `get_resumable_sessions`, and `next` of a generator -/
  | listing
  | next (g : Nat)
  /-- `resume_session`; `loads`: the session can be loaded, `known`: its running job is among the units -/
  | resume (i : I) (loads known ck : Bool)
  | selectPlan (found ck : Bool)
  | handPick
  | bootTodo
  /-- `bootstrap`, up to the first job; then a job (`bootRun`, `ran`, `bootUse`); then the end -/
  | bootstrap
  | bootRun (k : K) (can ck : Bool)
  | bootUse (k : K) (o : O) (ck : Bool)
  | booted (ck : Bool)
  | finishBoot (ck : Bool)
  /-- `run_job`, up to the job; then the job ends, `ok`: without an exception -/
  | runJob (k : K) (can ck : Bool)
  | ran (ok ck : Bool)
  | getJob
  | useResult (k : K) (o : O) (ck : Bool)
  /-- `export_to_transport`, `export_to_stream` after the report was made and sent -/
  | export (ck : Bool)
  | finalize (ck : Bool)
  | updateBlob (ck : Bool)
  | delete (ids : List I)

variable {I A K O : Type} [DecidableEq I] [DecidableEq A] [DecidableEq K] [DecidableEq O]

/-- The allowed calls after `select_providers`, assistant 181-194 and 457-466. -/
def ready : Assistant.Call → Bool :=
  put .clearCache true (put .getResumable true (put .startNew true
    (put .selectProviders false Assistant.atFirst)))

/-- The content of a storage. (storage.py 170-300) -/
def look (stores : List (I × Content A K O)) (i : I) : Option (Content A K O) :=
  (stores.find? fun e => decide (e.1 = i)).map (·.2)

/-- The data of a storage is replaced. (`SessionManager.checkpoint`, manager.py 335-354.) -/
def write (stores : List (I × Content A K O)) (i : I) (s : Sess A K O) : List (I × Content A K O) :=
  stores.map fun e => if e.1 = i then (i, .saved s) else e

/-- `SessionManager.checkpoint` of the session `s` of storage `i`; it needs the storage. (manager.py 335-354) -/
def save (stores : List (I × Content A K O)) (i : I) (s : Sess A K O) (ck : Bool) :
    Option (List (I × Content A K O)) :=
  if ck = true ∧ (look stores i).isSome = true then some (write stores i s) else none

/-- The process changes its session to `s` and makes a checkpoint; `p'` is the process afterwards if this
works. (assistant 578, 637, 1307, 1344, 1416, 1467) -/
def saving (w : World I A K O) (p : Proc I A K O) (i : I) (s : Sess A K O) (ck : Bool)
    (p' : Proc I A K O) : World I A K O × Res I :=
  match save w.stores i s ck with
  | none => ({ w with proc := some { p with cur := some (i, s) } }, .raised)
  | some stores => ({ stores := stores, proc := some { p' with cur := some (i, s) } }, .ok)

/-- `UsageExpectation.enforce` at the beginning of a method. (developer.py 163-226) -/
def enforce (w : World I A K O) (c : Assistant.Call) (f : Proc I A K O → World I A K O × Res I) :
    World I A K O × Res I :=
  match w.proc with
  | none => (w, .impossible)
  | some p =>
    if p.pc ≠ .free then (w, .impossible)
    else if p.allowed c = true then f p
    else (w, .refused)

/-- A method that needs the session; without one it is an `AttributeError` (C59 says when).
(assistant.py 703-770, 794-821, 1379-1422, 1443-1479) -/
def withSess (w : World I A K O) (p : Proc I A K O)
    (f : I → Sess A K O → World I A K O × Res I) : World I A K O × Res I :=
  match p.cur with
  | none => (w, .raised)
  | some (i, s) => f i s

/-- The process inside a call.
(No counterpart in the code: the process is between two steps of a method of assistant 543-591, 824-878,
1242-1376.) -/
def inside (w : World I A K O) (ok : Pc K → Bool)
    (f : Proc I A K O → I → Sess A K O → World I A K O × Res I) : World I A K O × Res I :=
  match w.proc with
  | none => (w, .impossible)
  | some p =>
    if ok p.pc = true then
      match p.cur with
      | none => (w, .raised)
      | some (i, s) => f p i s
    else (w, .impossible)

/-- `resume_session`, assistant 620-636: what becomes of the session when it is loaded. -/
def revive (jobs : Jobs K O) (s : Sess A K O) : Sess A K O :=
  match s.running with
  | none => s
  | some k =>
    if jobs.autorestart k = true then
      { s with
        running := none
        results := s.results ++ [(k, if jobs.noreturn k = true then jobs.pass else jobs.fail)] }
    else s

/-- Is this a session that `get_resumable_sessions` yields (assistant 672-684)? -/
def resumable (a : A) : Content A K O → Bool
  | .saved s => decide (s.app = a) && s.flags.incomplete
  | _ => false

/-- The loop of `get_resumable_sessions`, assistant 672-689, from one `yield` to the next: the session found
and the storages left.  A storage that was removed meanwhile raises (`none`). -/
def scan (stores : List (I × Content A K O)) (a : A) : List I → Option (Option I × List I)
  | [] => some (none, [])
  | i :: is =>
    match look stores i with
    | none => none
    | some c => if resumable a c = true then some (some i, is) else scan stores a is

/-- `next` of generator `g`, whose storages are `l`. (assistant 651-689) -/
def advance (w : World I A K O) (p : Proc I A K O) (g : Nat) (l : List I) : World I A K O × Res I :=
  match scan w.stores p.app l with
  | none => ({ w with proc := some { p with gens := p.gens.set g (some []) } }, .raised)
  | some (none, l') => ({ w with proc := some { p with gens := p.gens.set g (some l') } }, .stop)
  | some (some i, l') =>
    ({ w with
        proc := some { p with
          gens := p.gens.set g (some l')
          cand := p.cand ++ [i]
          allowed := put .resume true p.allowed } }, .found i)

/-- `get_old_sessions`, assistant 508-519: the sessions with one of the flags `fs`, and those without flags if
`plain`.  (A storage is not removed while this generator is used.) -/
def oldSessions (w : World I A K O) (a : A) (fs : Flags) (plain : Bool) : List (I × Flags) :=
  w.stores.filterMap fun e =>
    match e.2 with
    | .saved s =>
      if s.app = a ∧ (plain = true ∧ s.flags = ⟨false, false, false, false⟩ ∨
          (s.flags.bootstrapping && fs.bootstrapping || s.flags.incomplete && fs.incomplete ||
            s.flags.submitted && fs.submitted || s.flags.testplanless && fs.testplanless) = true) then
        some (e.1, s.flags)
      else none
    | _ => none

/-- The default flags of `get_old_sessions`, assistant 486-488. -/
def oldFlags : Flags := ⟨true, false, true, false⟩

/-- One step. (assistant 486-689, 824-878, 1242-1479) -/
def step (jobs : Jobs K O) : Act I A K O → World I A K O → World I A K O × Res I
  | .spawn a, w =>
    match w.proc with
    | some _ => (w, .impossible)
    | none => ({ w with proc := some ⟨a, .free, ready, none, [], []⟩ }, .ok)
  | .crash, w => ({ w with proc := none }, .ok)
  | .startNew i, w =>
    -- assistant 564-577; the storage has a new name
    enforce w .startNew fun p =>
      if (look w.stores i).isSome = true then (w, .impossible)
      else
        ({ stores := (i, .empty) :: w.stores
           proc := some { p with
             pc := .starting
             cur := some (i, ⟨p.app, .fresh, none, []⟩) } }, .ok)
  | .started ck, w =>
    -- assistant 578-590
    inside w (fun pc => decide (pc = .starting)) fun p i s =>
      saving w { p with pc := .free } i s ck { p with
        pc := .free
        allowed := started }
  | .listing, w =>
    match w.proc with
    | none => (w, .impossible)
    | some p =>
      if p.pc ≠ .free then (w, .impossible)
      else ({ w with proc := some { p with gens := p.gens ++ [none] } }, .ok)
  | .next g, w =>
    match w.proc with
    | none => (w, .impossible)
    | some p =>
      if p.pc ≠ .free then (w, .impossible)
      else
        match p.gens[g]? with
        | none => (w, .impossible)
        | some none =>
          -- the body of the generator starts, assistant 670-672
          if p.allowed .getResumable = true then advance w { p with cand := [] } g (w.stores.map (·.1))
          else ({ w with proc := some { p with gens := p.gens.set g (some []) } }, .refused)
        | some (some l) => advance w p g l
  | .resume i loads known ck, w =>
    -- assistant 615-648
    enforce w .resume fun p =>
      if i ∉ p.cand then (w, .raised)
      else
        match look w.stores i with
        | some (.saved s) =>
          if loads = false then (w, .raised)
          else if s.running.isSome = true ∧ known = false then
            ({ w with proc := some { p with cur := some (i, s) } }, .raised)
          else if (revive jobs s) = s then
            ({ w with
                proc := some { p with
                  cur := some (i, s)
                  allowed := if s.flags.testplanless = true then normal else resumed } }, .ok)
          else
            saving w p i (revive jobs s) ck { p with
              allowed := if s.flags.testplanless = true then normal else resumed }
        | _ => (w, .raised)
  | .selectPlan found ck, w =>
    -- assistant 814-822
    enforce w .selectTestPlan fun p => withSess w p fun i s =>
      if found = false then (w, .raised) else saving w p i s ck { p with allowed := bootable }
  | .handPick, w =>
    -- assistant 898-909
    enforce w .handPick fun p => withSess w p fun i s =>
      ({ w with
          proc := some { p with
            allowed := normal
            cur := some (i, { s with flags := .picked }) } }, .ok)
  | .bootTodo, w =>
    -- assistant 924-934
    enforce w .getBootstrapTodo fun p => withSess w p fun _ _ =>
      ({ w with proc := some { p with allowed := normal } }, .ok)
  | .bootstrap, w =>
    -- assistant 847-856
    enforce w .bootstrap fun p => withSess w p fun _ _ => ({ w with proc := some { p with pc := .booting } }, .ok)
  | .bootRun k can ck, w =>
    -- assistant 857-861, the beginning of `run_job`
    inside w (fun pc => decide (pc = .booting)) fun p i s =>
      if can = true then
        match save w.stores i { s with running := some k } ck with
        | none =>
          ({ w with
              proc := some { p with
                pc := .free
                allowed := put .runJob true p.allowed
                cur := some (i, { s with running := some k }) } }, .raised)
        | some stores =>
          ({ stores := stores
             proc := some { p with
               pc := .running true
               allowed := put .runJob true p.allowed
               cur := some (i, { s with running := some k }) } }, .ok)
      else ({ w with proc := some { p with allowed := put .useResult true (put .runJob false p.allowed) } }, .ok)
  | .bootUse k o ck, w =>
    -- assistant 862, with the body of `use_job_result`
    inside w (fun pc => decide (pc = .booting)) fun p i s =>
      saving w { p with pc := .free } i { s with results := s.results ++ [(k, o)] } ck
        { p with allowed := put .runJob true (put .useResult false p.allowed) }
  | .booted ck, w =>
    -- assistant 864-877
    inside w (fun pc => decide (pc = .booting)) fun p i s =>
      saving w
        { p with
          pc := .free
          allowed := normal } i { s with flags := .ready } ck
        { p with
          pc := .free
          allowed := normal }
  | .finishBoot ck, w =>
    -- assistant 951-963
    enforce w .finishBootstrap fun p => withSess w p fun i s =>
      saving w { p with allowed := normal } i { s with flags := .ready } ck { p with allowed := normal }
  | .runJob k can ck, w =>
    -- assistant 1304-1310 and 1341-1376
    enforce w .runJob fun p => withSess w p fun i s =>
      if can = true then
        saving w p i { s with running := some k } ck { p with pc := .running false }
      else ({ w with proc := some { p with allowed := put .useResult true (put .runJob false p.allowed) } }, .ok)
  | .ran ok ck, w =>
    -- assistant 1311-1340 and 1366-1376
    inside w (fun pc => match pc with | .running _ => true | _ => false) fun p i s =>
      if ok = false then ({ w with proc := some { p with pc := .free } }, .raised)
      else
        saving w { p with pc := .free } i s ck { p with
          pc := match p.pc with | .running true => .booting | _ => .free
          allowed := put .useResult true (put .runJob false p.allowed) }
  | .getJob, w =>
    -- assistant 1083-1088
    enforce w .getJob fun p => ({ w with proc := some { p with allowed := put .useResult true p.allowed } }, .ok)
  | .useResult k o ck, w =>
    -- assistant 1405-1422
    enforce w .useResult fun p => withSess w p fun i s =>
      saving w p i { s with results := s.results ++ [(k, o)] } ck
        { p with allowed := put .runJob true (put .useResult false p.allowed) }
  | .export ck, w =>
    -- assistant 1521-1524 and 1591-1594
    enforce w .exportTransport fun p => withSess w p fun i s =>
      if s.flags.submitted = true then (w, .ok)
      else saving w p i { s with flags := { s.flags with submitted := true } } ck p
  | .finalize ck, w =>
    -- assistant 1457-1479
    enforce w .finalize fun p => withSess w p fun i s =>
      if s.flags.incomplete = false then (w, .ok)
      else
        saving w p i { s with flags := { s.flags with incomplete := false } } ck { p with allowed := ended }
  | .updateBlob ck, w =>
    -- assistant 691-700, which enforces nothing
    match w.proc with
    | none => (w, .impossible)
    | some p => if p.pc ≠ .free then (w, .impossible) else withSess w p fun i s => saving w p i s ck p
  | .delete ids, w =>
    -- assistant 537-540
    enforce w .deleteSessions fun _ => ({ w with stores := w.stores.filter fun e => !decide (e.1 ∈ ids) }, .ok)

/-- A history. (No counterpart in the code: any interleaving of the methods modelled here.) -/
def run (jobs : Jobs K O) : List (Act I A K O) → World I A K O → World I A K O
  | [], w => w
  | a :: l, w => run jobs l (step jobs a w).1

end Verif.Life
