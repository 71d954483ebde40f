import Verif.Lemmas.Assistant

/-!
# C41 and C59: the protocol of the session assistant

* `C41_selected`: no job runs before providers and jobs were selected.
* `C41_pair_partial`, `C41_boot`, `C41_pair_violated`: runs and reports.
* `C41_final_partial`, `C41_final_violated`, `C41_retry_violated`: nothing runs after the session was
  finalised.
* `C41_live`: the protocol never gets stuck.
* `C59_partial`, `C59_nested`, `C59_sso`, `C59_plan_violated`, `C59_callback_violated`,
  `C59_noreturn_violated`: allowed calls find what they need.
-/

namespace Verif.Assistant

/-- The events of a history, from a new assistant. -/
def history (restartable : Bool) (acts : List Act) : List Event := (run acts (init restartable, [])).2

def after (restartable : Bool) (acts : List Act) : St := (run acts (init restartable, [])).1

/-! ## C41 -/

/-- **C41**, selection: whenever a job runs, providers were selected before, and in the current session a
test plan was selected, or jobs were hand-picked, or the session was resumed as one without a test
plan. -/
theorem C41_selected (restartable : Bool) (acts : List Act) (a b : List Event)
    (h : history restartable acts = a ++ .ran :: b) :
    .providers ∈ a ∧ ∃ x e y, a = x ++ e :: y ∧ (e = .planned ∨ e = .picked ∨ e = .opened true) ∧
      .opened false ∉ y := by
  obtain ⟨h1, ⟨x, e, y, h2, h3, h4⟩, -, -⟩ := (good_run restartable acts a .ran b h).1 rfl
  refine ⟨h1, x, e, y, h2, by simpa using h3, fun hm => ?_⟩
  have := h4 _ hm
  simp at this

/-- **C41**, pairs, partial: between two runs there is a report, or a call of `hand_pick_jobs`,
`finish_bootstrap`, `bootstrap` or `get_bootstrap_todo_list`, or another session.  Full statement: there
is a report or another session (`C41_pair_violated`). -/
theorem C41_pair_partial (restartable : Bool) (acts : List Act) (a b c : List Event)
    (h : history restartable acts = a ++ .ran :: b ++ .ran :: c) :
    ∃ e ∈ b, e = .used ∨ e = .picked ∨ e = .finished ∨ e = .booting ∨ e = .todo ∨ ∃ t, e = .opened t := by
  obtain ⟨-, -, hp, -⟩ := (good_run restartable acts (a ++ .ran :: b) .ran c h).1 rfl
  refine Classical.byContradiction fun hn => hp ⟨a, .ran, b, rfl, by simp, ?_⟩
  intro e he
  cases hr : renews e
  · rfl
  · exfalso
    refine hn ⟨e, he, ?_⟩
    cases e <;> simp [renews] at hr <;> simp

/-- **C41**, bootstrap: once a job ran in a session, `bootstrap` and `get_bootstrap_todo_list` are
refused, unless a `bootstrap` of this session raised. So in sessions where it did not, only
`hand_pick_jobs` and `finish_bootstrap` break the pairs. -/
theorem C41_boot (restartable : Bool) (acts : List Act) (a b c : List Event) (e : Event)
    (he : e = .booting ∨ e = .todo) (h : history restartable acts = a ++ .ran :: b ++ e :: c)
    (hb : ∀ d ∈ b, ∀ t, d ≠ .opened t) :
    ∃ x y, a ++ .ran :: b = x ++ .broke :: y ∧ ∀ d ∈ y, ∀ t, d ≠ .opened t := by
  have hran : RanHere (a ++ .ran :: b) := by
    refine ⟨a, .ran, b, rfl, by simp, fun d hd => ?_⟩
    cases d <;> simp [isOpened]
    exact hb _ hd _ rfl
  obtain ⟨x, d, y, h1, h2, h3⟩ := (good_run restartable acts (a ++ .ran :: b) e c h).2 he hran
  simp only [decide_eq_true_eq] at h2
  subst h2
  refine ⟨x, y, h1, fun d hd t ht => ?_⟩
  subst ht
  have := h3 _ hd
  simp [isOpened] at this

/-- **C41**, the end, partial: when `finalize_session` returned after the selection of jobs was complete
in the session (and without an earlier finalisation that raised), no job runs until another session is
created or resumed.  Full statement: without these conditions (`C41_final_violated`,
`C41_retry_violated`). -/
theorem C41_final_partial (restartable : Bool) (acts : List Act) (a b c : List Event)
    (h : history restartable acts = a ++ .final :: b ++ .ran :: c)
    (x : List Event) (e : Event) (y : List Event) (ha : a = x ++ e :: y)
    (he : e = .picked ∨ e = .finished ∨ e = .bootstrapped ∨ e = .opened true)
    (hy : .opened false ∉ y ∧ .finalBroke ∉ y) : ∃ t, .opened t ∈ b := by
  obtain ⟨-, -, -, hf⟩ := (good_run restartable acts (a ++ .final :: b) .ran c h).1 rfl
  refine Classical.byContradiction fun hn => hf ⟨a, b, rfl, ?_, x, e, y, ha, by simpa using he, ?_⟩
  · intro d hd
    cases d <;> simp [isOpened]
    exact hn ⟨_, hd⟩
  · intro d hd
    simp only [decide_eq_false_iff_not, not_or]
    exact ⟨fun e => hy.1 (e ▸ hd), fun e => hy.2 (e ▸ hd)⟩

/-! ### Histories -/

def plainJob : Job := { canStart := true, autorestart := false, noreturn := false }

def noArgs : Args := { job := plainJob, testplanless := false, found := true, boots := [(plainJob, .ok, .ok)] }

/-- A call that does not fail. -/
def good (c : Call) : Act := .call c noArgs .ok

/-- The usual session: two bootstrap jobs, two jobs, one of them skipped without being run. -/
example : history false [good .selectProviders, good .startNew, good .getTestPlans, good .selectTestPlan,
    good .bootstrap, good .getStaticTodo, good .runJob, good .runJob, good .useResult, good .getJob, good .useResult,
    good .runJob, good .useResult, good .finalize, good .runJob, good .startNew, good .handPick, good .runJob] =
    [.providers, .opened false, .planned, .booting, .ran, .used, .bootstrapped, .ran, .used, .used, .ran, .used,
      .final, .opened false, .picked, .ran] := by decide +kernel

/-- **C41**, the mark: when `finalize_session` returned, the session is not marked incomplete any more (so it
is not offered for resuming), and calling it again changes nothing; after `hand_pick_jobs`, `bootstrap` and
`finish_bootstrap` it is marked. -/
theorem C41_marked (a : Args) (st : St) :
    ((call .finalize a .ok st).2.1 = .ok → (call .finalize a .ok st).1.incomplete = false ∧
      ∀ b o, (call .finalize b o (call .finalize a .ok st).1).1 = (call .finalize a .ok st).1) ∧
    (∀ c, c = .handPick ∨ c = .bootstrap ∨ c = .finishBootstrap → (call c a .ok st).2.1 = .ok →
      (call c a .ok st).1.incomplete = true) := by
  constructor
  · intro h
    simp only [call] at h ⊢
    split at h
    · cases h
    rename_i h1
    split at h
    · cases h
    rename_i h2
    simp only [if_neg h1, if_neg h2]
    simp only [body, fin, reduceCtorEq, ↓reduceIte] at h ⊢
    by_cases hi : st.incomplete = true
    · simp only [hi, Bool.not_true, Bool.false_eq_true, ↓reduceIte, true_and]
      intro b o
      have hs : st.session = true ∧ st.metadata = true := by simpa [need] using h2
      simp only [Assistant.ended, Bool.not_true, Bool.false_eq_true, ↓reduceIte, need, hs, Bool.and_self,
        Bool.not_false]
      split <;> rfl
    · simp only [hi, Bool.not_false, ↓reduceIte, true_and]
      intro b o
      rw [if_neg h1, if_neg h2]
      split
      · rfl
      · split <;> rfl
  · rintro c (rfl | rfl | rfl) h
    all_goals
      simp only [call] at h ⊢
      split at h
      · cases h
      rename_i h1
      split at h
      · cases h
      rename_i h2
      simp only [if_neg h1, if_neg h2]
      simp only [body, bootstrap, reduceCtorEq, ↓reduceIte] at h ⊢
    split at h
    · rename_i hne; exact absurd h hne
    · rename_i hne; rw [if_neg hne]

/-- Set-up calls that can be made once. -/
def once : Call → Bool
  | .useRepository | .useConfiguration | .useControllers | .configureRestart | .useStrategy
  | .selectProviders => true
  | _ => false

theorem run_append (l m : List Act) (s : St × List Event) : run (l ++ m) s = run m (run l s) := by
  induction l generalizing s with
  | nil => rfl
  | cons x l ih => exact ih _

theorem once_runBody (c : Call) (hc : once c = true) (j : Job) (o : Outcome) (st : St)
    (h : (runBody j o st).1.allowed c = true) : st.allowed c = true := by
  unfold runBody at h
  repeat' split at h
  all_goals first
    | exact h
    | (simp only [put] at h
       split at h
       · rename_i e; subst e; simp [once] at hc
       · split at h
         · cases h
         · exact h)

theorem once_useResult (c : Call) (hc : once c = true) (o : Outcome) (st : St)
    (h : (useResult o st).1.allowed c = true) : st.allowed c = true := by
  unfold useResult at h
  repeat' split at h
  all_goals first
    | exact h
    | (simp only [put] at h
       split at h
       · rename_i e; subst e; simp [once] at hc
       · split at h
         · cases h
         · exact h)

theorem once_bootLoop (c : Call) (hc : once c = true) (l : List (Job × Outcome × Outcome)) (st : St)
    (h : (bootLoop l st).1.allowed c = true) : st.allowed c = true := by
  have hrun : ∀ j o (st : St),
      (runJob j o { st with allowed := put .runJob true st.allowed }).1.allowed c = true →
      st.allowed c = true := by
    intro j o st h
    have h' : ({ st with allowed := put .runJob true st.allowed } : St).allowed c = true := by
      unfold runJob at h
      split at h
      · exact once_runBody c hc _ _ _ h
      · exact h
    simp only [put] at h'
    split at h'
    · rename_i e; subst e; simp [once] at hc
    · exact h'
  induction l generalizing st with
  | nil => exact h
  | cons x l ih =>
    obtain ⟨j, o1, o2⟩ := x
    simp only [bootLoop] at h
    split at h
    · exact hrun _ _ _ h
    · split at h
      · exact hrun _ _ _ (once_useResult c hc _ _ h)
      · exact hrun _ _ _ (once_useResult c hc _ _ (ih _ h))

theorem once_step (c : Call) (hc : once c = true) (x : Act) (st : St)
    (h : (step x st).1.allowed c = true) : st.allowed c = true := by
  cases x with
  | advance f =>
    simp only [step] at h
    split at h
    · simp only [put] at h
      split at h
      · rename_i e; subst e; simp [once] at hc
      · exact h
    · exact h
  | call d a o =>
    simp only [step, call] at h
    split at h
    · exact h
    split at h
    · exact h
    cases d
    case runJob => exact once_runBody c hc _ _ _ h
    case useResult => exact once_useResult c hc _ _ h
    case bootstrap =>
      simp only [body, bootstrap] at h
      split at h
      · exact h
      · split at h
        · exact once_bootLoop c hc _ _ h
        · exfalso; revert h hc; cases c <;> simp [once, Assistant.normal]
    all_goals
      simp only [body] at h
      repeat' split at h
      all_goals first
        | exact h
        | (exfalso; revert h hc
           cases c <;>
             simp [once, Assistant.normal, Assistant.started, Assistant.resumed, bootable, Assistant.ended]; done)
        | (simp only [put] at h
           revert h hc
           cases c <;> simp [once])

/-- **C41**, once: set-up calls (repository, configuration, controllers, restart, providers) are refused
once they returned, whatever follows; `configure_application_restart` also rules out
`use_alternate_restart_strategy`. -/
theorem C41_once (restartable : Bool) (acts more : List Act) (c : Call) (a : Args) (hc : once c = true)
    (h : (call c a .ok (after restartable acts)).2.1 = .ok) :
    (after restartable (acts ++ .call c a .ok :: more)).allowed c = false ∧
    (c = .configureRestart → (after restartable (acts ++ .call c a .ok :: more)).allowed .useStrategy = false) := by
  have key : ∀ d, once d = true → ∀ (more : List Act) (s : St × List Event), s.1.allowed d = false →
      (run more s).1.allowed d = false := by
    intro d hd more
    induction more with
    | nil => exact fun _ h => h
    | cons x more ih =>
      intro s hs
      refine ih _ ?_
      cases he : (step x s.1).1.allowed d
      · rfl
      · rw [once_step d hd x s.1 he] at hs; cases hs
  have e : after restartable (acts ++ .call c a .ok :: more) =
      (run more ((call c a .ok (after restartable acts)).1,
        (run acts (init restartable, [])).2 ++ (call c a .ok (after restartable acts)).2.2)).1 := by
    simp only [after, run_append, run, step]
  rw [e]
  have hb : ∀ st, (call c a .ok st).2.1 = .ok → (call c a .ok st).1.allowed c = false ∧
      (c = .configureRestart → (call c a .ok st).1.allowed .useStrategy = false) := by
    intro st h
    simp only [call] at h ⊢
    split at h
    · cases h
    rename_i h1
    split at h
    · cases h
    rename_i h2
    rw [if_neg h1, if_neg h2]
    cases c <;> first | cases hc; done | simp [body, put]
  obtain ⟨h1, h2⟩ := hb _ h
  exact ⟨key c hc more _ h1, fun he => key .useStrategy rfl more _ (h2 he)⟩

example : (call .configureRestart noArgs .ok (after true [good .selectProviders])).2.1 = .ok := by decide +kernel

/-- **C41** does not hold for pairs: `finish_bootstrap` and `hand_pick_jobs` are always allowed together
with running jobs, and allow another run without a report. -/
theorem C41_pair_violated :
    history false [good .selectProviders, good .startNew, good .selectTestPlan, good .bootstrap, good .runJob,
      good .finishBootstrap, good .runJob, good .handPick, good .runJob] =
    [.providers, .opened false, .planned, .booting, .ran, .used, .bootstrapped, .ran, .finished, .ran, .picked, .ran] := by
  decide +kernel

/-- **C41** does not hold for the end: after `get_bootstrap_todo_list` the session is not marked
incomplete, so `finalize_session` returns without doing anything and jobs can be run. -/
theorem C41_final_violated :
    history false [good .selectProviders, good .startNew, good .selectTestPlan, good .getBootstrapTodo, good .runJob,
      good .useResult, good .finalize, good .runJob] =
    [.providers, .opened false, .planned, .todo, .ran, .used, .final, .ran] := by decide +kernel

/-- **C41** does not hold for the end: when the checkpoint of `finalize_session` fails, calling it again
does nothing, and jobs can be run. -/
theorem C41_retry_violated :
    history false [good .selectProviders, good .startNew, good .handPick, .call .finalize noArgs .late, good .finalize,
      good .runJob] =
    [.providers, .opened false, .picked, .finalBroke, .final, .ran] := by decide +kernel

/-- A bootstrap that raises, as allowed by `C41_boot`: the report of its job fails, it is tried again, and
the job runs twice. -/
example : history false [good .selectProviders, good .startNew, good .selectTestPlan,
    .call .bootstrap { noArgs with boots := [(plainJob, .ok, .late)] } .ok, good .bootstrap] =
    [.providers, .opened false, .planned, .booting, .ran, .broke, .booting, .ran, .used, .bootstrapped] := by
  decide +kernel

/-! ### Progress -/

/-- A job that can run is run from a state that allows it. -/
theorem run_one (st : St) (evs : List Event) (h1 : st.allowed .runJob = true) (h2 : st.session = true)
    (h3 : st.runner = true) : (run [good .runJob] (st, evs)).2 = evs ++ [.ran] := by
  simp [run, good, step, call, need, body, runBody, h1, h2, h3, noArgs, plainJob]

/-- **C41**, progress: after every history there are calls that lead to a job being run; no order of
calls and failures gets the assistant stuck. -/
theorem C41_live (restartable : Bool) (acts : List Act) :
    ∃ more new, history restartable (acts ++ more) = history restartable acts ++ new ∧ .ran ∈ new := by
  obtain ⟨ph, h⟩ := inv_run restartable acts
  simp only [history, run_append]
  generalize hs : run acts (init restartable, []) = s at h
  obtain ⟨st, evs⟩ := s
  simp only at h
  have pick : ∀ st evs, st.allowed .handPick = true → st.session = true → st.metadata = true → st.runner = true →
      (run [good .handPick, good .runJob] (st, evs)).2 = evs ++ [.picked, .ran] := by
    intro st evs h1 h2 h3 h4
    simp [run, good, step, call, need, body, runBody, h1, h2, h3, h4, noArgs, plainJob, Assistant.normal]
  have start : ∀ st evs, st.allowed .startNew = true →
      (run [good .startNew, good .handPick, good .runJob] (st, evs)).2 = evs ++ [.opened false, .picked, .ran] := by
    intro st evs h1
    simp [run, good, step, call, need, body, runBody, h1, noArgs, plainJob, Assistant.normal, Assistant.started]
  have hf := h.fits
  unfold Fits at hf
  cases ph with
  | setup =>
    simp only [if_true] at hf
    rcases hf.2 with e | e
    · refine ⟨[good .selectProviders, good .startNew, good .handPick, good .runJob],
        [.providers, .opened false, .picked, .ran], ?_, by simp⟩
      have := start (step (good .selectProviders) st).1 (evs ++ [.providers]) (by
        simp [good, step, call, need, body, e, put])
      have e2 : (step (good .selectProviders) st).2.2 = [.providers] := by simp [good, step, call, need, body, e]
      show (run [good .startNew, good .handPick, good .runJob] (_, evs ++ (step (good .selectProviders) st).2.2)).2 = _
      rw [e2, this]; simp
    · exact ⟨_, _, start st evs e, by simp⟩
  | started =>
    rw [if_neg (by decide)] at hf
    obtain ⟨h1, h2, h3⟩ := h.attrs (by decide)
    exact ⟨_, _, pick st evs (hf.1 _ (by decide) (by decide) (by decide)) h1 h2 h3, by simp⟩
  | resumed =>
    rw [if_neg (by decide)] at hf
    obtain ⟨h1, h2, h3⟩ := h.attrs (by decide)
    refine ⟨[good .selectTestPlan, good .getBootstrapTodo, good .runJob], [.planned, .todo, .ran], ?_, by simp⟩
    have e := hf.1 .selectTestPlan (by decide) (by decide) (by decide)
    simp [run, good, step, call, need, body, runBody, h1, h3, e, base, Assistant.resumed, noArgs, plainJob,
      Assistant.normal, bootable]
  | boot =>
    rw [if_neg (by decide)] at hf
    obtain ⟨h1, h2, h3⟩ := h.attrs (by decide)
    refine ⟨[good .getBootstrapTodo, good .runJob], [.todo, .ran], ?_, by simp⟩
    have e := hf.1 .getBootstrapTodo (by decide) (by decide) (by decide)
    simp [run, good, step, call, need, body, runBody, h1, h3, e, base, noArgs, plainJob,
      Assistant.normal, bootable]
  | normal =>
    rw [if_neg (by decide)] at hf
    obtain ⟨h1, h2, h3⟩ := h.attrs (by decide)
    rcases hf.2.2 rfl with e | e
    · exact ⟨_, _, run_one st evs e h1 h3, by simp⟩
    · refine ⟨[good .useResult, good .runJob], [.used, .ran], ?_, by simp⟩
      simp [run, good, step, call, need, body, runBody, useResult, h1, h3, e, noArgs, plainJob, put]
  | ended =>
    rw [if_neg (by decide)] at hf
    exact ⟨_, _, start st evs (hf.1 _ (by decide) (by decide) (by decide)), by simp⟩

/-! ## C59 -/

/-- What keeps a job from being run although it could be started: the application set a restart strategy
but no command. -/
def noCommand (st : St) (j : Job) : Prop :=
  j.canStart = true ∧ j.autorestart = true ∧ st.strategy = true ∧ st.callback = false

theorem boot_lacks (l : List (Job × Outcome × Outcome)) (st : St) (hs : st.session = true) (hr : st.runner = true)
    (h : (bootLoop l st).2.1 = .lacks) : ∃ x ∈ l, noCommand st x.1 := by
  induction l generalizing st with
  | nil => simp [bootLoop] at h
  | cons z l ih =>
    obtain ⟨j, o1, o2⟩ := z
    have hrun : ∀ st0 : St, st0.session = true → st0.runner = true →
        ((runJob j o1 st0).2.1 = .lacks → noCommand st0 j) ∧
        ((runJob j o1 st0).1.session = st0.session ∧ (runJob j o1 st0).1.runner = st0.runner ∧
          (runJob j o1 st0).1.strategy = st0.strategy ∧ (runJob j o1 st0).1.callback = st0.callback) := by
      intro st0 h1 h2
      simp only [runJob, runBody, h1, h2]
      repeat' split
      all_goals simp_all [noCommand]
    have huse : ∀ st0 : St, st0.session = true → (useResult o2 st0).2.1 ≠ .lacks ∧
        ((useResult o2 st0).1.session = st0.session ∧ (useResult o2 st0).1.runner = st0.runner ∧
          (useResult o2 st0).1.strategy = st0.strategy ∧ (useResult o2 st0).1.callback = st0.callback) := by
      intro st0 h1
      simp only [useResult, h1]
      repeat' split
      all_goals simp_all
    simp only [bootLoop] at h
    generalize hst1 : ({ st with allowed := put .runJob true st.allowed } : St) = st1 at h
    have hst1s : st1.session = true ∧ st1.runner = true ∧ st1.strategy = st.strategy ∧ st1.callback = st.callback := by
      subst hst1; exact ⟨hs, hr, rfl, rfl⟩
    obtain ⟨h1, h2⟩ := hrun st1 hst1s.1 hst1s.2.1
    split at h
    · refine ⟨(j, o1, o2), by simp, ?_⟩
      have := h1 h
      simpa [noCommand, hst1s.2.2.1, hst1s.2.2.2] using this
    · obtain ⟨h3, h4⟩ := huse (runJob j o1 st1).1 (by rw [h2.1]; exact hst1s.1)
      split at h
      · exact absurd h h3
      · obtain ⟨x, hx, hn⟩ := ih _ (by rw [h4.1, h2.1]; exact hst1s.1) (by rw [h4.2.1, h2.2.1]; exact hst1s.2.1) h
        refine ⟨x, by simp [hx], ?_⟩
        simp only [noCommand, h4.2.2.1, h4.2.2.2, h2.2.2.1, h2.2.2.2, hst1s.2.2.1, hst1s.2.2.2] at hn
        exact hn

theorem boot_refused (l : List (Job × Outcome × Outcome)) (st : St) (h : (bootLoop l st).2.1 = .refused) :
    ∃ x ∈ l, x.1.noreturn = true ∧ x.1.canStart = true := by
  induction l generalizing st with
  | nil => simp [bootLoop] at h
  | cons z l ih =>
    obtain ⟨j, o1, o2⟩ := z
    have hrun : ∀ st0 : St, st0.allowed .runJob = true →
        ((runJob j o1 st0).2.1 = .refused → j.noreturn = true ∧ j.canStart = true) ∧
        ((runJob j o1 st0).2.1 = .ok → (runJob j o1 st0).1.allowed .useResult = true) := by
      intro st0 h1
      simp only [runJob, runBody, h1]
      repeat' split
      all_goals simp_all [put]
    have huse : ∀ st0 : St, st0.allowed .useResult = true → (useResult o2 st0).2.1 ≠ .refused := by
      intro st0 h1
      simp only [useResult, h1]
      repeat' split
      all_goals simp_all
    simp only [bootLoop] at h
    generalize hst1 : ({ st with allowed := put .runJob true st.allowed } : St) = st1 at h
    obtain ⟨h1, h2⟩ := hrun st1 (by subst hst1; simp [put])
    split at h
    · exact ⟨(j, o1, o2), by simp, h1 h⟩
    · rename_i hok
      simp only [ne_eq, Decidable.not_not] at hok
      split at h
      · exact absurd h (huse _ (h2 hok))
      · obtain ⟨x, hx, hn⟩ := ih _ h
        exact ⟨x, by simp [hx], hn⟩

/-- **C59**, partial: after every history, an allowed call lacks something only in two cases: the
categories or mandatory jobs of the test plan when there is none, and a job with the flag
`autorestart` when the application gave a restart strategy and no command.  Full statement: never
(`C59_plan_violated`, `C59_callback_violated`). -/
theorem C59_partial (restartable : Bool) (acts : List Act) (c : Call) (a : Args) (o : Outcome)
    (h : (call c a o (after restartable acts)).2.1 = .lacks) :
    ((c = .getParticipating ∨ c = .getMandatory) ∧ (after restartable acts).plan = false) ∨
    (c = .runJob ∧ noCommand (after restartable acts) a.job) ∨
    (c = .bootstrap ∧ ∃ x ∈ a.boots, noCommand (after restartable acts) x.1) := by
  obtain ⟨ph, hi⟩ := inv_run restartable acts
  revert h hi
  unfold after
  generalize (run acts (init restartable, [])).1 = st
  generalize (run acts (init restartable, [])).2 = evs
  intro h hi
  unfold call at h
  split at h
  · cases h
  rename_i hc
  simp only [Bool.not_eq_true, Bool.not_eq_false'] at hc
  have hsess : setupCall c = false → st.session = true ∧ st.metadata = true ∧ st.runner = true := by
    intro hn
    rcases hi.fits.phase hc with ⟨_, e⟩ | ⟨e, _⟩
    · rw [hn] at e; cases e
    · exact hi.attrs e
  split at h
  · rename_i hn
    simp only [Bool.not_eq_true'] at hn
    cases c <;> simp only [need] at hn
    case resume => rw [hi.cands (.inl hc)] at hn; cases hn
    case getParticipating =>
      rw [(hsess rfl).1] at hn
      exact .inl ⟨.inl rfl, by simpa using hn⟩
    case getMandatory =>
      rw [(hsess rfl).1] at hn
      exact .inl ⟨.inr rfl, by simpa using hn⟩
    all_goals first
      | cases hn
      | (obtain ⟨e1, e2, e3⟩ := hsess rfl; simp [e1, e2, e3] at hn)
  · cases c
    case runJob =>
      obtain ⟨e1, e2, e3⟩ := hsess rfl
      simp only [body, runBody, e1, e3, Bool.and_self, Bool.not_true, Bool.false_eq_true, if_false] at h
      refine .inr (.inl ⟨rfl, ?_⟩)
      split at h
      · cases h
      · split at h
        · rename_i hh
          simp only [Bool.and_eq_true, Bool.not_eq_true'] at hh
          exact ⟨hh.1.1.1, hh.1.1.2, hh.1.2, hh.2⟩
        · split at h
          · cases h
          · split at h <;> cases h
    case useResult =>
      obtain ⟨e1, e2, e3⟩ := hsess rfl
      simp only [body, useResult, e1, hc, Bool.not_true, Bool.false_eq_true, if_false] at h
      split at h <;> cases h
    case bootstrap =>
      obtain ⟨e1, e2, e3⟩ := hsess rfl
      refine .inr (.inr ⟨rfl, ?_⟩)
      simp only [body, bootstrap] at h
      split at h
      · cases h
      · split at h
        · exact boot_lacks _ _ e1 e3 h
        · exfalso; revert h; simp only [fin]; split <;> simp
    all_goals
      exfalso
      revert h
      simp only [body, fin]
      repeat' split
      all_goals simp

/-- **C59**, nested calls: a call that is allowed is refused only when it runs a job with the flag
`noreturn` before the bootstrap is finished. -/
theorem C59_nested (restartable : Bool) (acts : List Act) (c : Call) (a : Args) (o : Outcome)
    (hc : (after restartable acts).allowed c = true)
    (h : (call c a o (after restartable acts)).2.1 = .refused) :
    (c = .runJob ∧ a.job.noreturn = true ∧ a.job.canStart = true ∧
      (after restartable acts).allowed .getSessionDir = false) ∨
    (c = .bootstrap ∧ ∃ x ∈ a.boots, x.1.noreturn = true ∧ x.1.canStart = true) := by
  obtain ⟨ph, hi⟩ := inv_run restartable acts
  revert hc h hi
  unfold after
  generalize (run acts (init restartable, [])).1 = st
  generalize (run acts (init restartable, [])).2 = evs
  intro hc h hi
  simp only [call, hc, Bool.not_true, Bool.false_eq_true, if_false] at h
  split at h
  · cases h
  cases c
  case runJob =>
    left
    have hd : st.allowed .getSessionDir = st.allowed .getSessionId := by
      rcases hi.fits.phase hc with ⟨_, e⟩ | ⟨e, _⟩
      · cases e
      · have hf := hi.fits
        unfold Fits at hf
        rw [if_neg e] at hf
        rw [hf.1 .getSessionDir (by decide) (by decide) (by decide), hf.1 .getSessionId (by decide) (by decide) (by decide)]
        cases ph <;> rfl
    simp only [body, runBody] at h
    split at h
    · cases h
    split at h
    · cases h
    split at h
    · cases h
    split at h
    · rename_i hh
      simp only [Bool.and_eq_true, Bool.or_eq_true, Bool.not_eq_true', ← hd] at hh
      exact ⟨rfl, hh.1.2, hh.1.1, hh.2.elim id fun e => e.2⟩
    · split at h <;> cases h
  case useResult =>
    simp only [body, useResult, hc, Bool.not_true, Bool.false_eq_true, if_false] at h
    split at h
    · cases h
    · split at h <;> cases h
  case bootstrap =>
    refine .inr ⟨rfl, ?_⟩
    simp only [body, bootstrap] at h
    split at h
    · cases h
    · split at h
      · exact boot_refused _ _ h
      · exfalso; revert h; simp only [fin]; split <;> simp
  all_goals
    exfalso
    revert h
    simp only [body, fin]
    repeat' split
    all_goals simp

/-- **C59** does not hold for `get_ubuntu_sso_oauth_transport`: it is refused after every history. -/
theorem C59_sso (restartable : Bool) (acts : List Act) : (after restartable acts).allowed .ssoTransport = false := by
  obtain ⟨ph, hi⟩ := inv_run restartable acts
  cases hc : (after restartable acts).allowed .ssoTransport
  · rfl
  · exfalso
    rcases hi.fits.phase hc with ⟨_, e⟩ | ⟨_, e | e | ⟨e | e, _⟩⟩
    · cases e
    · revert e; cases ph <;> simp [base, Assistant.started, Assistant.resumed, bootable, Assistant.normal, Assistant.ended]
    · cases e
    · cases e
    · cases e

/-- **C59** does not hold without a test plan: after hand-picking jobs, `get_mandatory_jobs` and
`get_participating_categories` are allowed and raise `IndexError`. -/
theorem C59_plan_violated :
    let st := after false [good .selectProviders, good .startNew, good .handPick]
    (call .getMandatory noArgs .ok st).2.1 = .lacks ∧ (call .getParticipating noArgs .ok st).2.1 = .lacks := by
  decide +kernel

/-- **C59** does not hold with a restart strategy but without `configure_application_restart`: running a
job with the flag `autorestart` calls `None`. -/
theorem C59_callback_violated :
    let st := after true [good .useStrategy, good .selectProviders, good .startNew, good .handPick]
    (call .runJob { noArgs with job := { canStart := true, autorestart := true, noreturn := false } } .ok st).2.1 =
      .lacks := by decide +kernel

/-- **C59** does not hold for bootstrap jobs with the flag `noreturn`: `bootstrap` makes a call that is
not allowed yet. -/
theorem C59_noreturn_violated :
    let st := after false [good .selectProviders, good .startNew, good .selectTestPlan]
    let j : Job := { canStart := true, autorestart := false, noreturn := true }
    (call .bootstrap { noArgs with boots := [(j, .ok, .ok)] } .ok st).2.1 = .refused := by decide +kernel

/-- `C59_partial` speaks about all other calls: for example all calls of the normal phase succeed when a
test plan was selected. -/
example : (let st := after false [good .selectProviders, good .startNew, good .selectTestPlan, good .bootstrap]
    [Call.getJobState, .getJob, .getTestPlan, .getCategory, .getParticipating, .getMandatory, .filterJobs,
      .removeFilters, .getStaticTodo, .getDynamicTodo, .runJob, .useSelection, .handPick, .useResult, .exportTransport,
      .exportFile, .exportStream, .finalize, .getSessionId, .getSessionDir, .finishBootstrap].all
        fun c => (call c noArgs .ok st).2.1 == .ok) = true := by decide +kernel

/-- **C41**, resuming: a session that is resumed can be gone on with: if it was one without a test plan, jobs can be run at once,
and otherwise when the test plan was selected and the bootstrap is done; a session that cannot be loaded changes nothing. -/
theorem C41_resumed (a : Args) (st : St) (evs : List Event) (h1 : st.allowed .resume = true) (h2 : st.candidates = true) :
    (call .resume a .ok st).2 = (.ok, [.opened a.testplanless]) ∧ (call .resume a .ok st).1.incomplete = true ∧
    (a.testplanless = true → (run [good .runJob] ((call .resume a .ok st).1, evs)).2 = evs ++ [.ran]) ∧
    (a.testplanless = false → (run [good .selectTestPlan, good .bootstrap, good .runJob]
      ((call .resume a .ok st).1, evs)).2 = evs ++ [.planned, .booting, .ran, .used, .bootstrapped, .ran] ∧ (call .runJob a .ok (call .resume a .ok st).1).2.1 = .refused) ∧
    call .resume a .early st = (st, .raised, []) := by
  refine ⟨?_, ?_, ?_, ?_, ?_⟩
  · simp [call, need, body, h1, h2]
  · simp [call, need, body, h1, h2]
  · intro ht
    apply run_one <;> simp [call, need, body, h1, h2, ht, Assistant.normal]
  · intro ht
    constructor
    · simp [run, good, step, call, need, body, runBody, h1, h2, ht, noArgs, plainJob, Assistant.normal, Assistant.resumed, bootable, Assistant.bootstrap, bootLoop, Assistant.useResult, Assistant.runJob, put]
    · simp [call, need, body, h1, h2, ht, Assistant.resumed]
  · simp [call, need, body, h1, h2]

/-- A session found by `get_resumable_sessions` meets the hypotheses of `C41_resumed`. -/
example : let st := (run [good .selectProviders, good .getResumable] (init false, [])).1
    st.allowed .resume = true ∧ st.candidates = true := by decide +kernel

end Verif.Assistant
