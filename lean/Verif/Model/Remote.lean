import Verif.Model.Assistant

/-!
# The remote session service

Model of plainbox/impl/session/assistant2.py ("assistant2"): `SessionAssistant2`, `BackgroundExecutor`
and `BufferedUI`.  The usage expectations of the session assistant it wraps are those of
`Verif.Model.Assistant`; of the session it holds we keep the run list and the outcome of each job.

The service is called by any number of clients, whose calls are served one after the other.  The thread
that runs a job ends by itself (`Op.ends`); a call that waits for the lock goes on when it gets it
(`Op.wake`); `finish_job` called while the job runs waits, which we model as `Reply.waits` and a call
that can be made again.  Left out: encryption of the password, the texts of interactions, what
`get_jobs_repr` says about a job, failures of the assistant other than those given by `Outcome`.
-/

namespace Verif.Remote

open Verif.Assistant (Call Args Outcome)

/-- Identifiers of jobs (assistant2 177-198). -/
abbrev Id := String

/-- The outcome of a job; `None` is `none` where it may occur. (assistant2 105-106, 258-265) -/
abbrev Verdict := String

/-- What `run_job` looks at in a job (assistant2 186-193): its plug-in is one of the interactive ones,
it has a `user` field. -/
structure JobDef where
  interactive : Bool
  user : Bool
deriving DecidableEq, Repr

/-- `_state` (assistant2 42-47); `Bootstrapping` and `Finalizing` are never used. -/
inductive Phase
  | idle | started | bootstrapped | running
deriving DecidableEq, Repr

/-- `BackgroundExecutor` (assistant2 82-106): the job, and once the thread ended its builder, which is
`None` if `run_job` of the assistant raised. -/
structure Thread where
  job : Id
  ended : Option (Option Verdict)
deriving DecidableEq, Repr

/-- Where a generator made by `run_job` stands (assistant2 177-198). -/
inductive Pos
  | fresh | purpose | sudo | over
deriving DecidableEq, Repr

/-- One generator made by `run_job` (assistant2 177-198). -/
structure Gen where
  job : Id
  pos : Pos
deriving DecidableEq, Repr

/-- What happened, for stating properties: a job was started, it ended with a result, running it raised,
a result was given to the session. The calls are made in assistant2 90, 100-103, 258-265. -/
inductive Event
  | started (j : Id) | ended (j : Id) (v : Verdict) | lost (j : Id) | recorded (j : Id) (v : Verdict)
deriving DecidableEq, Repr

/-- The attributes of `SessionAssistant2` (assistant2 113-137) and the session it holds. -/
structure St where
  phase : Phase
  /-- `_sa`: its usage expectations -/
  sa : Assistant.St
  /-- the run list of the session, and the outcome of each job -/
  runList : List Id
  res : Id → Option Verdict
  /-- `_jobs_count`, `_job_index`, `_currently_running_job` -/
  count : Int
  index : Int
  current : Option Id
  /-- `_session_change_lock` is held; calls that wait for it -/
  lock : Bool
  waiting : List Id
  /-- `_be` -/
  be : Option Thread
  /-- `_sudo_password` -/
  password : Option String
  /-- the generators that were handed out -/
  gens : List Gen

/-- What a call gives back or raises. (assistant2 143-151, 201-265) -/
inductive Reply
  /-- `AssertionError` of `allowed_when`, or of the assertion about the password -/
  | wrongState | noPassword
  /-- `UnexpectedMethodCall` or another exception of the assistant -/
  | assistant
  /-- `KeyError`, `AttributeError` on `None`, `RuntimeError` of the lock, `StopIteration`, `SystemExit` -/
  | keyError | noneError | unlocked | stop | exit
  /-- the call does not return until the lock is free, or until the job is over -/
  | blocked | waits
  | ok
  /-- a generator: its number -/
  | gen (k : Nat)
  | purpose | sudo
  | runs | done (v : Verdict)
  /-- `whats_up` and `get_session_progress` -/
  | up (p : Phase) (payload : Option (Int × Int × Option Id))
  | progress (dn todo : List Id)
deriving DecidableEq, Repr

/-- The state after a call, the reply, and what happened (assistant2 143-325). -/
abbrev Out := St × Reply × List Event

/-- Arguments of calls of the assistant for which they do not matter. (assistant2 154-174, 304-321) -/
def plain : Args := ⟨⟨true, false, false⟩, false, true, []⟩

/-- Calls of the assistant, up to the first that raises. (assistant2 154-174, 304-321) -/
def calls : List (Call × Args × Outcome) → Assistant.St → Assistant.St × Bool
  | [], sa => (sa, true)
  | (c, a, o) :: l, sa =>
    if (Assistant.call c a o sa).2.1 = .ok then calls l (Assistant.call c a o sa).1
    else ((Assistant.call c a o sa).1, false)

/-- `get_dynamic_todo_list` (assistant 1197-1225): the jobs of the run list without an outcome. -/
def todo (s : St) : List Id := s.runList.filter fun j => (s.res j).isNone

/-- `SessionAssistant2.__init__` (assistant2 113-137): the expectations of the assistant after its setup. -/
def init : St :=
  { phase := .idle
    sa := (calls [(.configureRestart, plain, .ok), (.useControllers, plain, .ok),
      (.selectProviders, plain, .ok)] (Assistant.init true)).1
    runList := [], res := fun _ => none, count := 0, index := 0, current := none, lock := false
    waiting := [], be := none, password := none, gens := [] }

/-- `start_session` (assistant2 153-163); `o` is how `start_new_session` goes. -/
def start (o : Outcome) (s : St) : Out :=
  if s.phase ≠ .idle then (s, .wrongState, [])
  else
    let r := calls [(.startNew, plain, o), (.getSessionId, plain, .ok), (.getTestPlans, plain, .ok),
      (.getTestPlan, plain, .ok)] s.sa
    if r.2 then ({ s with sa := r.1, phase := .started }, .ok, []) else ({ s with sa := r.1 }, .assistant, [])

/-- What a test plan and bootstrapping lead to: how the bootstrap jobs go, the run list, the outcomes the
jobs have then. (assistant2 166-174, 304-321) -/
structure Plan where
  boots : List (Assistant.Job × Outcome × Outcome)
  o : Outcome
  runList : List Id
  res : Id → Option Verdict

/-- `bootstrap` (assistant2 165-174). -/
def bootstrap (p : Plan) (s : St) : Out :=
  if s.phase ≠ .started then (s, .wrongState, [])
  else
    let r := calls [(.selectTestPlan, plain, .ok), (.bootstrap, { plain with boots := p.boots }, p.o),
      (.getStaticTodo, plain, .ok)] s.sa
    if r.2 then
      ({ s with
          sa := r.1, runList := p.runList, res := p.res, count := p.runList.length, phase := .bootstrapped },
        .ok, [])
    else ({ s with sa := r.1 }, .assistant, [])

/-- `run_job` called (assistant2 176, 143-151): the state is looked at, but nothing of the body runs until
the generator is advanced. -/
def ask (j : Id) (s : St) : Out :=
  if s.phase ≠ .bootstrapped then (s, .wrongState, [])
  else ({ s with gens := s.gens ++ [⟨j, .fresh⟩] }, .gen s.gens.length, [])

/-- The generator `k` stands at `p` from now on. (assistant2 177-198) -/
def move (k : Nat) (j : Id) (p : Pos) (s : St) : St := { s with gens := s.gens.set k ⟨j, p⟩ }

/-- The thread is started (assistant2 90, 100-103): `run_job` of the assistant begins with enforcing
its expectation, and the builder stays `None` if that raises. -/
def begin (j : Id) (s : St) : St × List Event :=
  if s.sa.allowed .runJob then
    ({ s with lock := true, be := some ⟨j, none⟩ }, [.started j])
  else ({ s with lock := true, be := some ⟨j, some none⟩ }, [])

/-- The end of `run_job` (assistant2 197-198, 83-91). -/
def launch (k : Nat) (j : Id) (s : St) : Out :=
  if s.lock then
    ({ move k j .over s with phase := .running, waiting := s.waiting ++ [j] }, .blocked, [])
  else
    ((begin j { move k j .over s with phase := .running }).1, .stop,
      (begin j { move k j .over s with phase := .running }).2)

/-- The password is asked for (assistant2 191-196). -/
def askPassword (k : Nat) (j : Id) (d : JobDef) (s : St) : Out :=
  if d.user ∧ s.password.getD "" = "" then (move k j .sudo s, .sudo, [])
  else launch k j s

/-- A generator is advanced for the first time (assistant2 182-190). -/
def first (jobs : Id → Option JobDef) (k : Nat) (j : Id) (s : St) : Out :=
  let r := calls [(.getDynamicTodo, plain, .ok)] s.sa
  if !r.2 then (move k j .over s, .assistant, [])
  else
    let s1 := { s with index := s.count - (todo s).length + 1, current := some j }
    let q := calls [(.getJob, plain, .ok)] s.sa
    if !q.2 then (move k j .over s1, .assistant, [])
    else
      let s2 := { s1 with sa := q.1 }
      match jobs j with
      | none => (move k j .over s2, .keyError, [])
      | some d => if d.interactive then (move k j .purpose s2, .purpose, []) else askPassword k j d s2

/-- A generator is advanced (assistant2 177-198). -/
def next (jobs : Id → Option JobDef) (k : Nat) (s : St) : Out :=
  match s.gens[k]? with
  | none => (s, .stop, [])
  | some g =>
    match g.pos with
    | .fresh => first jobs k g.job s
    | .purpose =>
      match jobs g.job with
      | none => (s, .stop, [])
      | some d => askPassword k g.job d s
    | .sudo => if s.password.isSome then launch k g.job s else (move k g.job .over s, .noPassword, [])
    | .over => (s, .stop, [])

/-- A call that waited gets the lock (assistant2 89-91). -/
def wake (s : St) : Out :=
  match s.waiting with
  | [] => (s, .ok, [])
  | j :: l =>
    if s.lock then (s, .blocked, [])
    else ((begin j { s with waiting := l }).1, .stop, (begin j { s with waiting := l }).2)

/-- The thread ends (assistant2 100-103, assistant 1370-1376): running the job raises (`none`) or gives a
result, after which `run_job` is taken from the allowed calls, which raises if it is not there. -/
def ends (o : Option Verdict) (s : St) : Out :=
  match s.be with
  | none => (s, .ok, [])
  | some t =>
    if t.ended ≠ none then (s, .ok, [])
    else
      match o with
      | none => ({ s with be := some ⟨t.job, some none⟩ }, .ok, [.lost t.job])
      | some v =>
        if s.sa.allowed .runJob then
          ({ s with
              be := some ⟨t.job, some (some v)⟩
              sa := { s.sa with allowed := Assistant.put .useResult true (Assistant.put .runJob false s.sa.allowed) } },
            .ok, [.ended t.job v])
        else ({ s with be := some ⟨t.job, some none⟩ }, .ok, [.lost t.job])

/-- `monitor_job` (assistant2 200-217). -/
def monitor (s : St) : Out :=
  if s.phase ≠ .running then (s, .wrongState, [])
  else
    match s.be with
    | none => (s, .noneError, [])
    | some t =>
      match t.ended with
      | none => (s, .runs, [])
      | some none => (s, .noneError, [])
      | some (some v) => (s, .done v, [])

/-- `whats_up` (assistant2 219-233), without the list of test plans. -/
def whatsUp (s : St) : Out :=
  (s, .up s.phase (if s.phase = .running then some (s.index, s.count, s.current) else none), [])

/-- `get_session_progress` (assistant2 235-242). -/
def progress (s : St) : Out :=
  if (calls [(.getDynamicTodo, plain, .ok)] s.sa).2 then (s, .progress [] (todo s), [])
  else (s, .assistant, [])

/-- A result is given to the session. (assistant2 258-265) -/
def record (j : Id) (v : Verdict) (s : St) : St :=
  { s with res := fun i => if i = j then some v else s.res i }

/-- `use_job_result` and the rest of `finish_job` (assistant2 258-265, assistant 1403-1422); `stored` says
that the checkpoint succeeds. -/
def collect (jobs : Id → Option JobDef) (stored : Bool) (v : Verdict) (s : St) : Out :=
  if !s.sa.allowed .useResult then (s, .assistant, [])
  else
    match s.current with
    | none => (s, .keyError, [])
    | some j =>
      if jobs j = none then (s, .keyError, [])
      else if !stored then (record j v s, .assistant, [.recorded j v])
      else
        let r := calls [(.useResult, plain, .ok)] s.sa
        let s1 := { record j v s with sa := r.1 }
        if !r.2 then (s, .assistant, [])
        else if !s.lock then (s1, .unlocked, [.recorded j v])
        else
          let s2 := { s1 with lock := false }
          if !(calls [(.getDynamicTodo, plain, .ok)] s2.sa).2 then (s2, .assistant, [.recorded j v])
          else
            ({ s2 with phase := if todo s2 = [] then .idle else .bootstrapped }, .ok, [.recorded j v])

/-- `finish_job` (assistant2 257-265, 93-98). -/
def finish (jobs : Id → Option JobDef) (stored : Bool) (s : St) : Out :=
  match s.be with
  | none => (s, .noneError, [])
  | some t =>
    match t.ended with
    | none => (s, .waits, [])
    | some none => (s, .noneError, [])
    | some (some v) => collect jobs stored v s

/-- `get_jobs_repr` of some jobs (assistant2 267-302), of which only `get_job` matters here. -/
def repr (s : St) : Out :=
  let r := calls [(.getJob, plain, .ok), (.getJobState, plain, .ok)] s.sa
  ({ s with sa := r.1 }, if r.2 then .ok else .assistant, [])

/-- `resume_last` (assistant2 304-321): whether there is a session, how resuming it goes, what it leads to, and the job
that was running. -/
def resume (jobs : Id → Option JobDef) (found : Bool) (o : Outcome) (p : Plan) (last : Option Id) (s : St) : Out :=
  let g := calls [(.getResumable, { plain with found := found }, .ok)] s.sa
  if !g.2 then (s, .assistant, [])
  else if !found then ({ s with sa := g.1 }, .stop, [])
  else
    let r := calls [(.resume, plain, o), (.selectTestPlan, plain, .ok),
      (.bootstrap, { plain with boots := p.boots }, p.o)] g.1
    if !r.2 then ({ s with sa := r.1 }, .assistant, [])
    else
      let s1 := { s with sa := r.1, runList := p.runList, res := p.res }
      match last with
      | none => ({ s1 with phase := .bootstrapped }, .ok, [])
      | some j =>
        if jobs j = none then (s1, .exit, [])
        else
          let u := calls [(.useResult, plain, .ok)] r.1
          if !u.2 then (s1, .assistant, [])
          else ({ record j "pass" { s1 with sa := u.1 } with phase := .bootstrapped }, .ok, [])

/-- `finalize_session` (assistant2 323-325). -/
def finalize (o : Outcome) (s : St) : Out :=
  let r := calls [(.finalize, plain, o)] s.sa
  if r.2 then ({ s with sa := r.1, phase := .idle }, .ok, []) else ({ s with sa := r.1 }, .assistant, [])

/-- What can happen: a call of a client, a waiting call goes on, the thread ends. (assistant2 82-106, 143-325) -/
inductive Op
  | start (o : Outcome) | bootstrap (p : Plan) | ask (j : Id) | next (k : Nat) | wake
  | ends (o : Option Verdict) | monitor | whatsUp | progress | password (p : String)
  | finish (stored : Bool) | repr | resume (found : Bool) (o : Outcome) (p : Plan) (last : Option Id)
  | finalize (o : Outcome)

/-- The calls that can be made, and the two ways in which a thread goes on (assistant2 82-106, 143-325). -/
def step (jobs : Id → Option JobDef) : Op → St → Out
  | .start o, s => start o s
  | .bootstrap p, s => bootstrap p s
  | .ask j, s => ask j s
  | .next k, s => next jobs k s
  | .wake, s => wake s
  | .ends o, s => ends o s
  | .monitor, s => monitor s
  | .whatsUp, s => whatsUp s
  | .progress, s => progress s
  -- `save_password` (assistant2 248-250)
  | .password p, s => ({ s with password := some p }, .ok, [])
  | .finish b, s => finish jobs b s
  | .repr, s => repr s
  | .resume f o p l, s => resume jobs f o p l s
  | .finalize o, s => finalize o s

/-- A history: the state at the end, what was replied and what happened. (assistant2 109-325) -/
def run (jobs : Id → Option JobDef) : List Op → St → St × List Reply × List Event
  | [], s => (s, [], [])
  | a :: l, s =>
    ((run jobs l (step jobs a s).1).1, (step jobs a s).2.1 :: (run jobs l (step jobs a s).1).2.1,
      (step jobs a s).2.2 ++ (run jobs l (step jobs a s).1).2.2)

/-! ## The buffered user interface -/

/-- `BufferedUI` (assistant2 50-79): the decoded lines not read yet, the lines not collected yet, the
output collected so far. -/
structure UI where
  queue : List String
  whole : List (List UInt8)
  collected : String

/-- `clear_buffers` (assistant2 76-79). -/
def UI.clear : UI := ⟨[], [], ""⟩

/-- `got_program_output` (assistant2 59-61); nothing is kept of a line that cannot be decoded. -/
def UI.got (dec : List UInt8 → Option String) (line : List UInt8) (u : UI) : UI × Bool :=
  match dec line with
  | none => (u, false)
  | some t => ({ u with queue := u.queue ++ [t], whole := u.whole ++ [line] }, true)

/-- `get_output` (assistant2 69-74). -/
def UI.get (u : UI) : UI × String := ({ u with queue := [] }, u.queue.foldl (· ++ ·) "")

/-- `whole_output` (assistant2 63-67): a text and a byte string cannot be added; the line is taken from
the queue all the same.  `none` is the `TypeError`. -/
def UI.all (u : UI) : UI × Option String :=
  match u.whole with
  | [] => (u, some u.collected)
  | _ :: l => ({ u with whole := l }, none)

end Verif.Remote
