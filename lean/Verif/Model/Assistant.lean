/-!
# The session assistant, as a protocol

Model of the usage expectations of `SessionAssistant` (plainbox/impl/session/assistant.py, "assistant") as
enforced by `UsageExpectation` (plainbox/impl/developer.py, "developer", 163-226).

The state holds which methods are allowed and which of the attributes of the assistant are set; what
the methods compute is left out.  Every call comes with what the rest of the world does: whether an
exception comes out early (before anything was changed) or late (in the last step that can fail), what
kind of job is run, which session is resumed.  User interfaces that call the assistant back while a job
runs are left out.
-/

namespace Verif.Assistant

/-- The methods that enforce usage expectations.
(Their `UsageExpectation.of(self).enforce()` lines are in assistant 209-1618.) -/
inductive Call
  | useRepository | useConfiguration | useControllers | configureRestart | useStrategy
  | selectProviders | getOldSessions | deleteSessions | startNew | resume | getResumable | clearCache
  | getSessionId | getSessionDir | getTestPlans | selectTestPlan | bootstrap | handPick
  | getBootstrapTodo | finishBootstrap | useSelection | filterJobs | removeFilters | getJobState
  | getJob | getTestPlan | getCategory | getParticipating | getMandatory | getStaticTodo
  | getDynamicTodo | runJob | useResult | finalize | exportTransport | exportFile | exportStream
  | ssoTransport
deriving DecidableEq, Repr

/-- What the body of a method does: it returns, raises before changing anything, or raises in its last
step that can fail. (No counterpart in the code: stands for what assistant 209-1618 calls into.) -/
inductive Outcome
  | ok | early | late
deriving DecidableEq, Repr

/-- What `run_job` looks at in a job (assistant 1304-1342). -/
structure Job where
  canStart : Bool
  autorestart : Bool
  noreturn : Bool
deriving DecidableEq, Repr

/-- Arguments and circumstances of a call.
(`run_job` assistant 1242-1376, `resume_session` 594-648, `select_test_plan` 794-821, `bootstrap` 824-878.) -/
structure Args where
  /-- for `run_job` -/
  job : Job
  /-- `resume_session`: the session was made without a test plan -/
  testplanless : Bool
  /-- `get_resumable_sessions`: a session was found; `filter_jobs_by_categories`: there are jobs to filter -/
  found : Bool
  /-- `bootstrap`: the jobs without results, and how running and reporting each goes -/
  boots : List (Job × Outcome × Outcome)

/-- How a call ends: refused with `UnexpectedMethodCall`, an attribute or a test plan that is not there,
another exception, or return.
(`UnexpectedMethodCall` is developer 70-109, raised in developer 163-226; the attributes are those of
assistant 130-206.) -/
inductive Res
  | refused | lacks | raised | ok
deriving DecidableEq, Repr

/-- What happened, for stating properties. (No counterpart in the code.) -/
inductive Event
  /-- `select_providers` returned -/
  | providers
  /-- a session was created (false) or resumed; true if it has no test plan -/
  | opened (testplanless : Bool)
  | planned
  /-- `bootstrap` was accepted, ran its jobs to the end, or raised -/
  | booting | bootstrapped | broke
  | todo
  | picked
  /-- `finish_bootstrap` did its work -/
  | finished
  | ran
  | used
  /-- `finalize_session` returned, or raised in its checkpoint -/
  | final | finalBroke
deriving DecidableEq, Repr

/-- The attributes of an assistant that decide what it allows (assistant 130-206). -/
structure St where
  /-- `UsageExpectation.of(self).allowed_calls` -/
  allowed : Call → Bool
  /-- `_manager` and `_context` -/
  session : Bool
  /-- `_metadata`, and its flags -/
  metadata : Bool
  incomplete : Bool
  testplanless : Bool
  /-- `_runner` -/
  runner : Bool
  /-- `_manager.test_plans` is not empty -/
  plan : Bool
  /-- `_restart_strategy`, `_restart_cmd_callback` -/
  strategy : Bool
  callback : Bool
  /-- `_resume_candidates`, and a generator made by `get_resumable_sessions` -/
  candidates : Bool
  gen : Bool

/-- `allowed_calls[c] = ...` or `del allowed_calls[c]`. (As in assistant 458-466, 1373-1375, 1420-1422.) -/
def put (c : Call) (b : Bool) (f : Call → Bool) : Call → Bool := fun d => if d = c then b else f d

/-- The calls allowed at first (assistant 181-194). -/
def atFirst : Call → Bool
  | .useRepository | .useConfiguration | .useControllers | .selectProviders | .getOldSessions
  | .deleteSessions => true
  | _ => false

/-- After `start_new_session` (assistant 582-590). -/
def started : Call → Bool
  | .getTestPlans | .getTestPlan | .selectTestPlan | .getSessionId | .getSessionDir | .handPick => true
  | _ => false

/-- After `resume_session` of a session with a test plan (assistant 645-647). -/
def resumed : Call → Bool
  | .selectTestPlan => true
  | _ => false

/-- After `select_test_plan` (assistant 818-821). -/
def bootable : Call → Bool
  | .bootstrap | .getBootstrapTodo => true
  | _ => false

/-- `_get_allowed_calls_in_normal_state` (assistant 1620-1648). -/
def normal : Call → Bool
  | .getJobState | .getJob | .getTestPlan | .getCategory | .getParticipating | .getMandatory
  | .filterJobs | .removeFilters | .getStaticTodo | .getDynamicTodo | .runJob | .useSelection
  | .handPick | .useResult | .exportTransport | .exportFile | .exportStream | .finalize
  | .getSessionId | .getSessionDir | .finishBootstrap => true
  | _ => false

/-- After `finalize_session` (assistant 1468-1479). -/
def ended : Call → Bool
  | .finalize | .exportTransport | .exportFile | .exportStream | .getResumable | .startNew
  | .getOldSessions | .deleteSessions => true
  | _ => false

/-- `SessionAssistant.__init__` (assistant 130-206); `restartable` is the flag `SA_RESTARTABLE`. -/
def init (restartable : Bool) : St :=
  { allowed := if restartable then put .useStrategy true (put .configureRestart true atFirst) else atFirst
    session := false, metadata := false, incomplete := false, testplanless := false, runner := false
    plan := false, strategy := false, callback := false, candidates := false, gen := false }

/-- (Simplified: state after the call, how it ended, and what happened, for assistant 209-1618.) -/
abbrev Out := St × Res × List Event

/-- A method that is done with its work, and perhaps raised at the end.
(No counterpart in the code: how a body of assistant 209-1618 ends.) -/
def fin (o : Outcome) : Res := if o = .ok then .ok else .raised

/-- `run_job` after its enforcement (assistant 1283-1376). -/
def runBody (j : Job) (o : Outcome) (st : St) : Out :=
  if o = .early then (st, .raised, [])
  else if !(st.session && st.runner) then (st, .lacks, [])
  else if j.canStart && j.autorestart && st.strategy && !st.callback then
    -- calling `_restart_cmd_callback`, which is `None`
    (st, .lacks, [])
  else if j.canStart && j.noreturn && (!st.allowed .getSessionDir || st.callback && !st.allowed .getSessionId) then
    -- `get_session_dir` and `get_session_id` enforce again
    (st, .refused, [])
  else if o = .late then (st, .raised, [])
  else ({ st with allowed := put .useResult true (put .runJob false st.allowed) }, .ok, [.ran])

/-- `run_job`. (assistant 1242-1376) -/
def runJob (j : Job) (o : Outcome) (st : St) : Out :=
  if st.allowed .runJob then runBody j o st else (st, .refused, [])

/-- `use_job_result` (assistant 1379-1422). -/
def useResult (o : Outcome) (st : St) : Out :=
  if !st.allowed .useResult then (st, .refused, [])
  else if !st.session then (st, .lacks, [])
  else if o = .ok then
    ({ st with allowed := put .runJob true (put .useResult false st.allowed) }, .ok, [.used])
  else (st, .raised, [])

/-- The loop of `bootstrap` (assistant 857-863). -/
def bootLoop : List (Job × Outcome × Outcome) → St → Out
  | [], st => (st, .ok, [])
  | (j, o1, o2) :: l, st =>
    let r := runJob j o1 { st with allowed := put .runJob true st.allowed }
    if r.2.1 ≠ .ok then r
    else
      let u := useResult o2 r.1
      if u.2.1 ≠ .ok then (u.1, u.2.1, r.2.2 ++ u.2.2)
      else
        let t := bootLoop l u.1
        (t.1, t.2.1, r.2.2 ++ u.2.2 ++ t.2.2)

/-- `bootstrap` after its enforcement (assistant 847-878). -/
def bootstrap (l : List (Job × Outcome × Outcome)) (o : Outcome) (st : St) : Out :=
  if o = .early then (st, .raised, [.booting, .broke])
  else
    let r := bootLoop l st
    if r.2.1 ≠ .ok then (r.1, r.2.1, .booting :: r.2.2 ++ [.broke])
    else ({ r.1 with allowed := normal, incomplete := true, testplanless := false }, fin o,
      .booting :: r.2.2 ++ [.bootstrapped])

/-- What a method needs of the attributes of the assistant.
(Uses of `_manager`, `_context`, `_metadata`, `_runner` in assistant 209-1618; set in 130-206, 543-591,
594-648, 1650-1662.) -/
def need (c : Call) (st : St) : Bool :=
  match c with
  | .useRepository | .useConfiguration | .useControllers | .configureRestart | .useStrategy
  | .selectProviders | .getOldSessions | .deleteSessions | .startNew | .getResumable | .clearCache
  | .ssoTransport => true
  | .resume => st.candidates
  | .getParticipating | .getMandatory => st.session && st.plan
  | .handPick | .finishBootstrap | .bootstrap | .finalize | .exportTransport | .exportStream =>
    st.session && st.metadata
  | .runJob => st.session && st.runner
  | _ => st.session

/-- The methods after their enforcement. (assistant 209-1618, method by method; what they compute is left out.) -/
def body (c : Call) (a : Args) (o : Outcome) (st : St) : Out :=
  match c with
  | .runJob => runBody a.job o st
  | .useResult => useResult o st
  | .bootstrap => bootstrap a.boots o st
  | .useRepository | .useConfiguration | .useControllers =>
    -- assistant 291-373: allowed once
    if o = .ok then ({ st with allowed := put c false st.allowed }, .ok, []) else (st, .raised, [])
  | .configureRestart =>
    -- assistant 209-251
    if o = .ok then
      ({ st with allowed := put .useStrategy false (put .configureRestart false st.allowed)
                 strategy := true, callback := true }, .ok, [])
    else (st, .raised, [])
  | .useStrategy =>
    -- assistant 254-288
    if o = .ok then ({ st with allowed := put .useStrategy false st.allowed, strategy := true }, .ok, [])
    else (st, .raised, [])
  | .selectProviders =>
    -- assistant 457-466
    if o = .ok then
      ({ st with allowed := put .clearCache true (put .getResumable true (put .startNew true
          (put .selectProviders false st.allowed))) }, .ok, [.providers])
    else (st, .raised, [])
  | .startNew =>
    -- assistant 564-590; late: the checkpoint
    if o = .ok then
      ({ st with session := true, metadata := true, incomplete := false, testplanless := false, runner := true
                 plan := false, allowed := started }, .ok, [.opened false])
    else if o = .late then
      ({ st with session := true, metadata := true, incomplete := false, testplanless := false, plan := false },
        .raised, [])
    else (st, .raised, [])
  | .resume =>
    -- assistant 615-648; late: the checkpoint or the restart strategy. Candidates are incomplete sessions.
    if o = .early then (st, .raised, [])
    else
      let st' := { st with session := true, metadata := true, incomplete := true, testplanless := a.testplanless
                           runner := true, plan := false }
      if o = .late then (st', .raised, [])
      else ({ st' with allowed := if a.testplanless then normal else resumed }, .ok, [.opened a.testplanless])
  | .getResumable =>
    -- assistant 670-689, up to the first session found
    if o = .early then (st, .raised, [])
    else
      ({ st with candidates := true, gen := true
                 allowed := if a.found then put .resume true st.allowed else st.allowed }, fin o, [])
  | .selectTestPlan =>
    -- assistant 814-821; late: the checkpoint
    if o = .early then (st, .raised, [])
    else if o = .late then ({ st with plan := true }, .raised, [])
    else ({ st with plan := true, allowed := bootable }, .ok, [.planned])
  | .handPick =>
    -- assistant 898-908
    if o = .ok then
      ({ st with incomplete := true, testplanless := true, allowed := normal }, .ok, [.picked])
    else (st, .raised, [])
  | .getBootstrapTodo =>
    -- assistant 924-933
    if o = .ok then ({ st with allowed := normal }, .ok, [.todo]) else (st, .raised, [])
  | .finishBootstrap =>
    -- assistant 951-963; late: the checkpoint, after everything was changed
    if o = .early then (st, .raised, [])
    else ({ st with allowed := normal, incomplete := true, testplanless := false }, fin o, [.finished])
  | .getJob =>
    -- assistant 1083-1088; an unknown job is found out last
    if o = .early then (st, .raised, [])
    else ({ st with allowed := put .useResult true st.allowed }, fin o, [])
  | .filterJobs =>
    -- assistant 1016-1020, with `get_job` for each job on the list
    if o = .early then (st, .raised, [])
    else ({ st with allowed := if a.found then put .useResult true st.allowed else st.allowed }, fin o, [])
  | .finalize =>
    -- assistant 1457-1479; late: the checkpoint, after the flag was removed
    if o = .early then (st, .raised, [])
    else if !st.incomplete then (st, fin o, if o = .ok then [.final] else [])
    else if o = .late then ({ st with incomplete := false }, .raised, [.finalBroke])
    else ({ st with incomplete := false, allowed := ended }, .ok, [.final])
  | _ => (st, fin o, [])

/-- A call of a method: the enforcement (developer 163-226), then the body. -/
def call (c : Call) (a : Args) (o : Outcome) (st : St) : Out :=
  if !st.allowed c then (st, .refused, [])
  else if !need c st then (st, .lacks, [])
  else body c a o st

/-- What an application does: calls, or the next session from a generator made by
`get_resumable_sessions`, which enforces nothing (assistant 672-689). -/
inductive Act
  | call (c : Call) (a : Args) (o : Outcome)
  | advance (found : Bool)

/-- One call, or one step of the generator that `get_resumable_sessions` returned (assistant 651-689). -/
def step : Act → St → Out
  | .call c a o, st => call c a o st
  | .advance found, st =>
    if st.gen ∧ found then ({ st with allowed := put .resume true st.allowed }, .ok, [])
    else (st, .ok, [])

/-- A history: the state at the end and the events.
(Any sequence of calls by an application; no counterpart in the code.) -/
def run : List Act → St × List Event → St × List Event
  | [], s => s
  | a :: l, s => run l ((step a s.1).1, s.2 ++ (step a s.1).2.2)

end Verif.Assistant
