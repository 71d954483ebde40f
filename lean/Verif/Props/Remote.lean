import Verif.Lemmas.Remote

/-!
# C76: the remote session service

For all clients and all ways the threads interleave: jobs are run one at a time, a job is started only
after the result of the job before has been given to the session, a result that is given to the session is the
result of the last job, and nothing else changes results.  For clients that use one generator at a time:
every result is recorded for the job that was run, and `whats_up` tells the truth.
-/

namespace Verif.Remote

open Verif.Assistant (Call Args Outcome)

/-! ## Specification -/

/-- What an observer of the events knows: no job runs (and the last result), a job runs, a job is over
and its result was not taken yet, running a job raised. -/
inductive Watch
  | free (last : Option Verdict) | busy (j : Id) | over (j : Id) (v : Verdict) | dead
deriving DecidableEq, Repr

/-- One job at a time: it is started when none is running and no result is waiting to be recorded; it
ends; its result is recorded, perhaps more than once, for some job. -/
def watch : Watch → Event → Option Watch
  | .free _, .started j => some (.busy j)
  | .free (some v), .recorded _ w => if v = w then some (.free (some v)) else none
  | .busy j, .ended i v => if i = j then some (.over j v) else none
  | .busy j, .lost i => if i = j then some .dead else none
  | .over _ v, .recorded _ w => if v = w then some (.free (some v)) else none
  | _, _ => none

/-- The same, but a result is recorded once and for the job it is the result of. -/
def watchOwn : Watch → Event → Option Watch
  | .free _, .started j => some (.busy j)
  | .busy j, .ended i v => if i = j then some (.over j v) else none
  | .over j v, .recorded i w => if i = j ∧ v = w then some (.free (some v)) else none
  | _, _ => none

/-- The result a job has according to the events, if it had `old` before. -/
def resultAfter (old : Id → Option Verdict) : List Event → Id → Option Verdict
  | [], j => old j
  | .recorded i v :: l, j => resultAfter (fun k => if k = i then some v else old k) l j
  | _ :: l, j => resultAfter old l j

/-! ## Any clients -/

/-- What the observer knows and what the service holds. -/
def Rel (s : St) (c : Watch) : Prop :=
  match s.be with
  | none => s.lock = false ∧ c = .free none
  | some ⟨j, none⟩ => s.lock = true ∧ c = .busy j
  | some ⟨_, some none⟩ => s.lock = true
  | some ⟨j, some (some v)⟩ => (s.lock = true ∧ (c = .over j v ∨ c = .free (some v))) ∨ (s.lock = false ∧ c = .free (some v))

theorem rel_free {s : St} {c : Watch} (h : Rel s c) (hl : s.lock = false) : ∃ l, c = .free l := by
  unfold Rel at h
  cases hb : s.be with
  | none => rw [hb] at h; exact ⟨_, h.2⟩
  | some t =>
    obtain ⟨j, e⟩ := t
    rw [hb] at h
    match e with
    | none => exact absurd (hl.symm.trans h.1) (by decide)
    | some none => exact absurd (hl.symm.trans h) (by decide)
    | some (some v) =>
      rcases h with h | h
      · exact absurd (hl.symm.trans h.1) (by decide)
      · exact ⟨_, h.2⟩

theorem rel_still {s : St} {c : Watch} {r : Out} (h : Rel s c) (hs : Still s r) :
    ∃ c', r.2.2.foldlM watch c = some c' ∧ Rel r.1 c' := by
  obtain ⟨h1, h2, h3⟩ := hs
  refine ⟨c, by rw [h3]; rfl, ?_⟩
  unfold Rel at h ⊢
  rw [h1, h2]
  exact h

theorem rel_starts {s : St} {c : Watch} {r : Out} (h : Rel s c) (hs : Starts s r) :
    ∃ c', r.2.2.foldlM watch c = some c' ∧ Rel r.1 c' := by
  rcases hs with hs | ⟨hl, hl', hs⟩
  · exact rel_still h hs
  · obtain ⟨l, rfl⟩ := rel_free h hl
    rcases hs with ⟨j, hb, he⟩ | ⟨j, hb, he⟩
    · refine ⟨.busy j, by rw [he]; rfl, ?_⟩
      unfold Rel; rw [hb]; exact ⟨hl', rfl⟩
    · refine ⟨.free l, by rw [he]; rfl, ?_⟩
      unfold Rel; rw [hb]; exact hl'

theorem rel_ends {s : St} {c : Watch} (o : Option Verdict) (h : Rel s c) :
    ∃ c', (ends o s).2.2.foldlM watch c = some c' ∧ Rel (ends o s).1 c' := by
  unfold ends
  cases hb : s.be with
  | none => exact ⟨c, rfl, h⟩
  | some t =>
    obtain ⟨j, e⟩ := t
    match e, hb with
    | some e, hb => exact ⟨c, rfl, h⟩
    | none, hb =>
      unfold Rel at h
      rw [hb] at h
      obtain ⟨h1, rfl⟩ := h
      dsimp only
      rw [if_neg (by simp)]
      cases o with
      | none => exact ⟨.dead, by simp [watch], h1⟩
      | some v =>
        dsimp only
        split
        · exact ⟨.over j v, by simp [watch], .inl ⟨h1, .inl rfl⟩⟩
        · exact ⟨.dead, by simp [watch], h1⟩

theorem rel_finish {s : St} {c : Watch} (jobs : Id → Option JobDef) (b : Bool) (h : Rel s c) :
    ∃ c', (finish jobs b s).2.2.foldlM watch c = some c' ∧ Rel (finish jobs b s).1 c' := by
  unfold finish
  cases hb : s.be with
  | none => exact ⟨c, rfl, h⟩
  | some t =>
    obtain ⟨j, e⟩ := t
    match e, hb with
    | none, hb => exact ⟨c, rfl, h⟩
    | some none, hb => exact ⟨c, rfl, h⟩
    | some (some v), hb =>
      dsimp only
      have hc : c = .over j v ∨ c = .free (some v) := by
        unfold Rel at h
        rw [hb] at h
        rcases h with h | h
        · exact h.2
        · exact .inr h.2
      have hw : ∀ i, [Event.recorded i v].foldlM watch c = some (.free (some v)) := by
        intro i
        rcases hc with rfl | rfl <;> simp [watch]
      have hr : ∀ s' : St, s'.be = some ⟨j, some (some v)⟩ → Rel s' (.free (some v)) := by
        intro s' hb'
        unfold Rel
        rw [hb']
        cases hl : s'.lock
        · exact .inr ⟨rfl, rfl⟩
        · exact .inl ⟨rfl, .inr rfl⟩
      unfold collect
      split
      · exact ⟨c, rfl, h⟩
      · cases s.current with
        | none => exact ⟨c, rfl, h⟩
        | some i =>
          dsimp only
          repeat' split
          all_goals first | exact ⟨c, rfl, h⟩ | exact ⟨_, hw i, hr _ hb⟩

theorem rel_step {s : St} {c : Watch} (jobs : Id → Option JobDef) (a : Op) (h : Rel s c) :
    ∃ c', (step jobs a s).2.2.foldlM watch c = some c' ∧ Rel (step jobs a s).1 c' := by
  cases a with
  | start o => exact rel_still h (start_still o s)
  | bootstrap p => exact rel_still h (bootstrap_still p s)
  | ask j => exact rel_still h (ask_still j s)
  | next k => exact rel_starts h (next_starts jobs k s)
  | wake => exact rel_starts h (wake_starts s)
  | ends o => exact rel_ends o h
  | monitor => exact rel_still h (monitor_still s)
  | whatsUp => exact rel_still h ⟨rfl, rfl, rfl⟩
  | progress => exact rel_still h (progress_still s)
  | password p => exact rel_still (r := ({ s with password := some p }, .ok, [])) h ⟨rfl, rfl, rfl⟩
  | finish b => exact rel_finish jobs b h
  | repr => exact rel_still h (repr_still s)
  | resume f o p l => exact rel_still h (resume_still jobs f o p l s)
  | finalize o => exact rel_still h (finalize_still o s)

theorem rel_run {s : St} {c : Watch} (jobs : Id → Option JobDef) (l : List Op) (h : Rel s c) :
    ∃ c', (run jobs l s).2.2.foldlM watch c = some c' ∧ Rel (run jobs l s).1 c' := by
  induction l generalizing s c with
  | nil => exact ⟨c, rfl, h⟩
  | cons a l ih =>
    obtain ⟨c1, h1, r1⟩ := rel_step jobs a h
    obtain ⟨c2, h2, r2⟩ := ih r1
    refine ⟨c2, ?_, r2⟩
    show List.foldlM watch c ((step jobs a s).2.2 ++ (run jobs l (step jobs a s).1).2.2) = _
    rw [List.foldlM_append, h1]
    exact h2

/-- C76: whatever the clients do, jobs run one at a time: a job is started only when no other job runs
and the result of the job before was given to the session; what is given to the session is always the
result of the job that ran last; and no job is started after running one raised. -/
theorem C76_one_at_a_time (jobs : Id → Option JobDef) (l : List Op) :
    ((run jobs l init).2.2.foldlM watch (.free none)).isSome := by
  obtain ⟨c, h, _⟩ := rel_run (s := init) (c := .free none) jobs l ⟨rfl, rfl⟩
  rw [h]; rfl

/-! ### The password -/

/-- The job does not need the password. -/
def Userless (jobs : Id → Option JobDef) (j : Id) : Prop := ∀ d, jobs j = some d → d.user = false

/-- No password was saved, and no call that waits is for a job that needs it. -/
def Unsaved (jobs : Id → Option JobDef) (s : St) : Prop := s.password = none ∧ ∀ j ∈ s.waiting, Userless jobs j

/-- Nothing that needs the password was started. -/
def Modest (jobs : Id → Option JobDef) (r : Out) : Prop :=
  Unsaved jobs r.1 ∧ ∀ j, Event.started j ∈ r.2.2 → Userless jobs j

theorem begin_modest {jobs : Id → Option JobDef} {j : Id} {s : St} (h : Unsaved jobs s) (hj : Userless jobs j) (r : Reply) :
    Modest jobs ((begin j s).1, r, (begin j s).2) := by
  unfold begin
  split
  · refine ⟨h, fun i hi => ?_⟩
    have : i = j := by simpa using hi
    rw [this]; exact hj
  · exact ⟨h, by simp⟩

theorem launch_modest {jobs : Id → Option JobDef} {k : Nat} {j : Id} {s : St} (h : Unsaved jobs s) (hj : Userless jobs j) :
    Modest jobs (launch k j s) := by
  unfold launch
  split
  · refine ⟨⟨h.1, fun i hi => ?_⟩, by simp⟩
    change i ∈ s.waiting ++ [j] at hi
    rcases List.mem_append.mp hi with hi | hi
    · exact h.2 i hi
    · have : i = j := by simpa using hi
      rw [this]; exact hj
  · exact begin_modest (s := { move k j .over s with phase := .running }) h hj _

theorem askPassword_modest {jobs : Id → Option JobDef} {k : Nat} {j : Id} {d : JobDef} {s : St} (h : Unsaved jobs s)
    (hd : jobs j = some d) : Modest jobs (askPassword k j d s) := by
  unfold askPassword
  split
  · exact ⟨h, by simp⟩
  · next hx =>
    refine launch_modest h (fun e he => ?_)
    rw [hd] at he
    obtain rfl := Option.some.inj he
    cases hu : d.user with
    | false => rfl
    | true => exact absurd ⟨hu, by rw [h.1]; rfl⟩ hx

theorem next_modest {jobs : Id → Option JobDef} (k : Nat) {s : St} (h : Unsaved jobs s) : Modest jobs (next jobs k s) := by
  have same : ∀ {t : St} {r : Reply}, Unsaved jobs t → Modest jobs (t, r, []) := fun h => ⟨h, by simp⟩
  unfold next
  cases s.gens[k]? with
  | none => exact same h
  | some g =>
    dsimp only
    cases g.pos with
    | fresh =>
      dsimp only
      unfold first
      dsimp only
      split
      · exact same h
      · split
        · exact same h
        · cases hd : jobs g.job with
          | none => exact same h
          | some d =>
            dsimp only
            split
            · exact same h
            · exact askPassword_modest (by exact h) hd
    | purpose =>
      dsimp only
      cases hd : jobs g.job with
      | none => exact same h
      | some d => exact askPassword_modest h hd
    | sudo =>
      dsimp only
      rw [h.1]
      exact same h
    | over => exact same h

theorem step_modest {jobs : Id → Option JobDef} (a : Op) (ha : ∀ p, a ≠ .password p) {s : St} (h : Unsaved jobs s) :
    Modest jobs (step jobs a s) := by
  have same : ∀ {t : St} {r : Reply}, Unsaved jobs t → Modest jobs (t, r, []) := fun h => ⟨h, by simp⟩
  cases a with
  | start o => unfold step start; dsimp only; repeat' split
               all_goals exact same h
  | bootstrap p => unfold step bootstrap; dsimp only; repeat' split
                   all_goals exact same h
  | ask j => unfold step ask; dsimp only; repeat' split
             all_goals exact same h
  | next k => exact next_modest k h
  | wake =>
    show Modest jobs (wake s)
    unfold wake
    cases hw : s.waiting with
    | nil => exact same h
    | cons j l =>
      dsimp only
      split
      · exact same h
      · exact begin_modest (s := { s with waiting := l }) ⟨h.1, fun i hi => h.2 i (by rw [hw]; exact List.mem_cons_of_mem _ hi)⟩
          (h.2 j (by rw [hw]; simp)) _
  | ends o =>
    show Modest jobs (ends o s)
    unfold ends
    repeat' split
    all_goals exact ⟨h, by simp⟩
  | monitor => unfold step monitor; dsimp only; repeat' split
               all_goals exact same h
  | whatsUp => exact same h
  | progress => unfold step progress; dsimp only; repeat' split
                all_goals exact same h
  | password p => exact absurd rfl (ha p)
  | finish b =>
    show Modest jobs (finish jobs b s)
    unfold finish
    cases s.be with
    | none => exact same h
    | some t =>
      obtain ⟨j, e⟩ := t
      match e with
      | none => exact same h
      | some none => exact same h
      | some (some v) =>
        dsimp only
        unfold collect
        split
        · exact same h
        · cases s.current with
          | none => exact same h
          | some i =>
            dsimp only
            repeat' split
            all_goals exact ⟨h, by simp⟩
  | repr => exact same h
  | resume f o p l =>
    show Modest jobs (resume jobs f o p l s)
    unfold resume
    dsimp only
    split
    · exact same h
    · split
      · exact same h
      · split
        · exact same h
        · cases l with
          | none => exact same h
          | some j =>
            dsimp only
            repeat' split
            all_goals exact same h
  | finalize o => unfold step finalize; dsimp only; repeat' split
                  all_goals exact same h

/-- C76: whatever the clients do, a job that has a `user` is not started before a client saved a password. -/
theorem C76_password (jobs : Id → Option JobDef) (l : List Op) (j : Id) (d : JobDef) (hd : jobs j = some d)
    (hu : d.user = true) (hs : Event.started j ∈ (run jobs l init).2.2) : ∃ p, Op.password p ∈ l := by
  have key : ∀ (l : List Op) (s : St), Unsaved jobs s → Event.started j ∈ (run jobs l s).2.2 → ∃ p, Op.password p ∈ l := by
    intro l
    induction l with
    | nil => intro s _ h; simp [run] at h
    | cons a l ih =>
      intro s h hs
      by_cases ha : ∃ p, a = .password p
      · obtain ⟨p, rfl⟩ := ha
        exact ⟨p, by simp⟩
      · have hm := step_modest a (fun p hp => ha ⟨p, hp⟩) h
        rcases List.mem_append.mp hs with hs | hs
        · have := hm.2 j hs d hd
          rw [hu] at this
          simp at this
        · obtain ⟨p, hp⟩ := ih _ hm.1 hs
          exact ⟨p, by simp [hp]⟩
  exact key l init ⟨rfl, by intro j hj; simp [init] at hj⟩ hs

/-! ### Results -/

theorem starts_noRecord {s : St} {r : Out} (h : Starts s r) : ∀ j v, Event.recorded j v ∉ r.2.2 := by
  rcases h with ⟨_, _, h⟩ | ⟨_, _, ⟨_, _, h⟩ | ⟨_, _, h⟩⟩ <;> rw [h] <;> simp

theorem resultAfter_none (old : Id → Option Verdict) (l : List Event) (h : ∀ j v, Event.recorded j v ∉ l) :
    resultAfter old l = old := by
  induction l with
  | nil => rfl
  | cons e l ih =>
    have ih' := ih (fun j v hm => h j v (List.mem_cons_of_mem _ hm))
    funext j
    cases e with
    | recorded i v => exact absurd List.mem_cons_self (h i v)
    | started i => exact congrFun ih' j
    | ended i v => exact congrFun ih' j
    | lost i => exact congrFun ih' j

theorem resultAfter_append (l m : List Event) (old : Id → Option Verdict) :
    resultAfter old (l ++ m) = resultAfter (resultAfter old l) m := by
  induction l generalizing old with
  | nil => rfl
  | cons e l ih =>
    funext j
    cases e with
    | recorded i v => exact congrFun (ih _) j
    | started i => exact congrFun (ih _) j
    | ended i v => exact congrFun (ih _) j
    | lost i => exact congrFun (ih _) j

/-- The operations that begin a session. -/
def Op.opens : Op → Bool
  | .bootstrap _ | .resume _ _ _ _ => true
  | _ => false

theorem begin_res (j : Id) (s : St) : (begin j s).1.res = s.res ∧ (begin j s).1.runList = s.runList ∧ (begin j s).1.count = s.count := by
  unfold begin; split <;> exact ⟨rfl, rfl, rfl⟩

theorem launch_res (k : Nat) (j : Id) (s : St) :
    (launch k j s).1.res = s.res ∧ (launch k j s).1.runList = s.runList ∧ (launch k j s).1.count = s.count := by
  unfold launch
  split
  · exact ⟨rfl, rfl, rfl⟩
  · exact begin_res j _

theorem askPassword_res (k : Nat) (j : Id) (d : JobDef) (s : St) :
    (askPassword k j d s).1.res = s.res ∧ (askPassword k j d s).1.runList = s.runList ∧ (askPassword k j d s).1.count = s.count := by
  unfold askPassword
  split
  · exact ⟨rfl, rfl, rfl⟩
  · exact launch_res k j s

theorem next_res (jobs : Id → Option JobDef) (k : Nat) (s : St) :
    (next jobs k s).1.res = s.res ∧ (next jobs k s).1.runList = s.runList ∧ (next jobs k s).1.count = s.count := by
  unfold next
  cases s.gens[k]? with
  | none => exact ⟨rfl, rfl, rfl⟩
  | some g =>
    dsimp only
    cases g.pos with
    | fresh =>
      dsimp only
      unfold first
      dsimp only
      split
      · exact ⟨rfl, rfl, rfl⟩
      · split
        · exact ⟨rfl, rfl, rfl⟩
        · cases jobs g.job with
          | none => exact ⟨rfl, rfl, rfl⟩
          | some d =>
            dsimp only
            split
            · exact ⟨rfl, rfl, rfl⟩
            · exact askPassword_res k g.job d _
    | purpose =>
      dsimp only
      cases jobs g.job with
      | none => exact ⟨rfl, rfl, rfl⟩
      | some d => exact askPassword_res k g.job d s
    | sudo =>
      dsimp only
      split
      · exact launch_res k g.job s
      · exact ⟨rfl, rfl, rfl⟩
    | over => exact ⟨rfl, rfl, rfl⟩

theorem res_finish (jobs : Id → Option JobDef) (b : Bool) (s : St) :
    (finish jobs b s).1.res = resultAfter s.res (finish jobs b s).2.2 ∧
      (finish jobs b s).1.runList = s.runList ∧ (finish jobs b s).1.count = s.count := by
  unfold finish
  cases s.be with
  | none => exact ⟨rfl, rfl, rfl⟩
  | some t =>
    obtain ⟨j, e⟩ := t
    match e with
    | none => exact ⟨rfl, rfl, rfl⟩
    | some none => exact ⟨rfl, rfl, rfl⟩
    | some (some v) =>
      dsimp only
      unfold collect
      split
      · exact ⟨rfl, rfl, rfl⟩
      · cases s.current with
        | none => exact ⟨rfl, rfl, rfl⟩
        | some i =>
          dsimp only
          repeat' split
          all_goals exact ⟨rfl, rfl, rfl⟩

theorem res_step (jobs : Id → Option JobDef) (a : Op) (s : St) (ha : a.opens = false) :
    (step jobs a s).1.res = resultAfter s.res (step jobs a s).2.2 ∧ (step jobs a s).1.runList = s.runList ∧ (step jobs a s).1.count = s.count := by
  cases a with
  | start o => unfold step start; dsimp only; repeat' split
               all_goals exact ⟨rfl, rfl, rfl⟩
  | bootstrap p => cases ha
  | ask j => unfold step ask; dsimp only; repeat' split
             all_goals exact ⟨rfl, rfl, rfl⟩
  | next k =>
    refine ⟨?_, (next_res jobs k s).2⟩
    exact (next_res jobs k s).1.trans (resultAfter_none _ _ (starts_noRecord (next_starts jobs k s))).symm
  | wake =>
    have h : (wake s).1.res = s.res ∧ (wake s).1.runList = s.runList ∧ (wake s).1.count = s.count := by
      unfold wake
      cases s.waiting with
      | nil => exact ⟨rfl, rfl, rfl⟩
      | cons j l =>
        dsimp only
        split
        · exact ⟨rfl, rfl, rfl⟩
        · exact begin_res j { s with waiting := l }
    refine ⟨?_, h.2⟩
    exact h.1.trans (resultAfter_none _ _ (starts_noRecord (wake_starts s))).symm
  | ends o =>
    show (ends o s).1.res = resultAfter s.res (ends o s).2.2 ∧ (ends o s).1.runList = s.runList ∧ (ends o s).1.count = s.count
    unfold ends
    repeat' split
    all_goals exact ⟨rfl, rfl, rfl⟩
  | monitor => unfold step monitor; dsimp only; repeat' split
               all_goals exact ⟨rfl, rfl, rfl⟩
  | whatsUp => exact ⟨rfl, rfl, rfl⟩
  | progress => unfold step progress; dsimp only; repeat' split
                all_goals exact ⟨rfl, rfl, rfl⟩
  | password p => exact ⟨rfl, rfl, rfl⟩
  | finish b => exact res_finish jobs b s
  | repr => exact ⟨rfl, rfl, rfl⟩
  | resume f o p l => cases ha
  | finalize o => unfold step finalize; dsimp only; repeat' split
                  all_goals exact ⟨rfl, rfl, rfl⟩

/-- C76: while a session goes on, its results are exactly those that were recorded: whatever the clients
do, a job has the result recorded for it last, or the one it had before. -/
theorem C76_results (jobs : Id → Option JobDef) (l : List Op) (s : St) (hl : ∀ a ∈ l, a.opens = false) :
    (run jobs l s).1.res = resultAfter s.res (run jobs l s).2.2 ∧ (run jobs l s).1.runList = s.runList := by
  induction l generalizing s with
  | nil => exact ⟨rfl, rfl⟩
  | cons a l ih =>
    have h1 := res_step jobs a s (hl a List.mem_cons_self)
    have h2 := ih (step jobs a s).1 (fun b hb => hl b (List.mem_cons_of_mem _ hb))
    refine ⟨?_, h2.2.trans h1.2.1⟩
    show (run jobs l (step jobs a s).1).1.res =
      resultAfter s.res ((step jobs a s).2.2 ++ (run jobs l (step jobs a s).1).2.2)
    rw [resultAfter_append, ← h1.1]
    exact h2.1

/-! ### A job that raises -/

/-- Running the job raised and nobody can give the lock back. -/
def Stuck (s : St) : Prop := s.lock = true ∧ ∃ j, s.be = some ⟨j, some none⟩

theorem stuck_step (jobs : Id → Option JobDef) (a : Op) (s : St) (h : Stuck s) :
    Stuck (step jobs a s).1 ∧ (step jobs a s).2.2 = [] := by
  obtain ⟨hl, j, hb⟩ := h
  have still : ∀ r : Out, Still s r → Stuck r.1 ∧ r.2.2 = [] := fun r hr =>
    ⟨⟨hr.2.1.trans hl, j, hr.1.trans hb⟩, hr.2.2⟩
  have starts : ∀ r : Out, Starts s r → Stuck r.1 ∧ r.2.2 = [] := fun r hr => by
    rcases hr with hr | hr
    · exact still r hr
    · exact absurd (hl.symm.trans hr.1) (by decide)
  cases a with
  | start o => exact still _ (start_still o s)
  | bootstrap p => exact still _ (bootstrap_still p s)
  | ask j => exact still _ (ask_still j s)
  | next k => exact starts _ (next_starts jobs k s)
  | wake => exact starts _ (wake_starts s)
  | ends o =>
    have : ends o s = (s, .ok, []) := by unfold ends; rw [hb]; rfl
    exact still _ (by show Still s (ends o s); rw [this]; exact ⟨rfl, rfl, rfl⟩)
  | monitor => exact still _ (monitor_still s)
  | whatsUp => exact still _ ⟨rfl, rfl, rfl⟩
  | progress => exact still _ (progress_still s)
  | password p => exact still ({ s with password := some p }, .ok, []) ⟨rfl, rfl, rfl⟩
  | finish b =>
    have : finish jobs b s = (s, .noneError, []) := by unfold finish; rw [hb]
    exact still _ (by show Still s (finish jobs b s); rw [this]; exact ⟨rfl, rfl, rfl⟩)
  | repr => exact still _ (repr_still s)
  | resume f o p l => exact still _ (resume_still jobs f o p l s)
  | finalize o => exact still _ (finalize_still o s)

theorem stuck_run (jobs : Id → Option JobDef) (l : List Op) (s : St) (h : Stuck s) :
    Stuck (run jobs l s).1 ∧ (run jobs l s).2.2 = [] := by
  induction l generalizing s with
  | nil => exact ⟨h, rfl⟩
  | cons a l ih =>
    obtain ⟨h1, e1⟩ := stuck_step jobs a s h
    obtain ⟨h2, e2⟩ := ih _ h1
    refine ⟨h2, ?_⟩
    show (step jobs a s).2.2 ++ (run jobs l (step jobs a s).1).2.2 = []
    rw [e1, e2]; rfl

/-! ## Clients that use one generator at a time -/

/-- The generator asked for last was begun and has not come to its end. -/
def pending (s : St) : Bool :=
  match s.gens.getLast? with
  | some g => g.pos = .purpose ∨ g.pos = .sudo
  | none => false

/-- What a careful client does: it advances only the generator it asked for last, while no job runs; it
collects the result of a running job; it ends a session while no job runs, resumes one
only at first or after the end of another, and keeps no generator that was begun for the next session.  The checkpoint of `finish_job` succeeds, and running a job does not raise. -/
def careful (s : St) : Op → Prop
  | .next k => s.phase = .bootstrapped ∧ k + 1 = s.gens.length
  | .finish b => s.phase = .running ∧ b = true
  | .ends o => o ≠ none
  | .bootstrap _ => pending s = false
  | .resume _ _ _ _ => s.phase = .idle ∧ pending s = false
  | .finalize _ => s.phase ≠ .running
  | _ => True

/-- A history of careful clients. -/
def Careful (jobs : Id → Option JobDef) : List Op → St → Prop
  | [], _ => True
  | a :: l, s => careful s a ∧ Careful jobs l (step jobs a s).1

/-- The index `run_job` computes. -/
def Indexed (s : St) : Prop := s.index = s.count - (todo s).length + 1

/-- What holds while a job runs. -/
structure Busy (jobs : Id → Option JobDef) (s : St) (c : Watch) (t : Thread) : Prop where
  be : s.be = some t
  lock : s.lock = true
  current : s.current = some t.job
  known : jobs t.job ≠ none
  indexed : Indexed s
  getJob : s.sa.allowed .getJob = true
  getTodo : s.sa.allowed .getDynamicTodo = true
  session : s.sa.session = true
  still : pending s = false
  watched : (t.ended = none ∧ s.sa.allowed .runJob = true ∧ c = .busy t.job) ∨
    ∃ v, t.ended = some (some v) ∧ s.sa.allowed .useResult = true ∧ c = .over t.job v

/-- The invariant of careful histories. -/
structure Inv (jobs : Id → Option JobDef) (s : St) (c : Watch) : Prop where
  nobody : s.waiting = []
  busy : s.phase = .running → ∃ t, Busy jobs s c t
  free : s.phase ≠ .running → s.lock = false ∧ ∃ l, c = .free l
  quiet : s.phase ≠ .running → ∀ t, s.be = some t → t.ended ≠ none
  ready : s.phase = .bootstrapped → Ready s.sa
  begun : s.phase = .bootstrapped → ∀ g, s.gens.getLast? = some g → (g.pos = .purpose ∨ g.pos = .sudo) →
    s.current = some g.job ∧ jobs g.job ≠ none ∧ Indexed s

theorem todo_ready {sa : Assistant.St} (h : Ready sa) : calls [(.getDynamicTodo, plain, .ok)] sa = (sa, true) := by
  rw [calls_todo, h.2.2.1, h.2.2.2]; rfl

theorem job_ready {sa : Assistant.St} (h : Ready sa) : calls [(.getJob, plain, .ok)] sa =
    ({ sa with allowed := Assistant.put .useResult true sa.allowed }, true) := by
  rw [calls_job, if_pos (by rw [h.2.1, h.2.2.2]; rfl)]

theorem getLast?_last {k : Nat} {l : List Gen} (h : k + 1 = l.length) : l.getLast? = l[k]? := by
  rw [List.getLast?_eq_getElem?]
  congr 1
  omega

theorem getLast?_set {k : Nat} {l : List Gen} (h : k + 1 = l.length) (g : Gen) : (l.set k g).getLast? = some g := by
  have : k + 1 = (l.set k g).length := by rw [List.length_set]; exact h
  rw [getLast?_last this, List.getElem?_set, if_pos rfl, if_pos (by omega)]

theorem pending_set {k : Nat} {l : List Gen} (h : k + 1 = l.length) (j : Id) (s : St)
    (hs : s.gens = l.set k ⟨j, .over⟩) : pending s = false := by
  unfold pending
  rw [hs, getLast?_set h]
  rfl

/-- Launching the job of the generator asked for last. -/
theorem inv_launch (jobs : Id → Option JobDef) {s : St} {c : Watch} {k : Nat} {j : Id}
    (hw : s.waiting = []) (hl : s.lock = false) (hc : ∃ l, c = .free l) (hr : Ready s.sa)
    (hk : k + 1 = s.gens.length) (hcur : s.current = some j) (hj : jobs j ≠ none) (hi : Indexed s) :
    (launch k j s).2.2.foldlM watchOwn c = some (.busy j) ∧ Inv jobs (launch k j s).1 (.busy j) := by
  obtain ⟨l, rfl⟩ := hc
  have e : launch k j s = ({ move k j .over s with phase := .running, lock := true, be := some ⟨j, none⟩ }, .stop,
      [.started j]) := by
    unfold launch
    rw [if_neg (by rw [hl]; decide)]
    unfold begin
    rw [if_pos (show (move k j .over s).sa.allowed .runJob = true from hr.1)]
  rw [e]
  refine ⟨rfl, ⟨hw, fun _ => ⟨⟨j, none⟩, ⟨rfl, rfl, hcur, hj, hi, hr.2.1, hr.2.2.1, hr.2.2.2, ?_, .inl ⟨rfl, hr.1, rfl⟩⟩⟩,
    fun h => absurd rfl h, fun h => absurd rfl h, fun h => (by cases h), fun h => (by cases h)⟩⟩
  exact pending_set hk j _ rfl

theorem inv_askPassword (jobs : Id → Option JobDef) {s : St} {c : Watch} {k : Nat} {j : Id} (d : JobDef)
    (hp : s.phase = .bootstrapped)
    (hw : s.waiting = []) (hl : s.lock = false) (hc : ∃ l, c = .free l) (hr : Ready s.sa)
    (hk : k + 1 = s.gens.length) (hcur : s.current = some j) (hj : jobs j ≠ none) (hi : Indexed s)
    (hq : ∀ t, s.be = some t → t.ended ≠ none) :
    ∃ c', (askPassword k j d s).2.2.foldlM watchOwn c = some c' ∧ Inv jobs (askPassword k j d s).1 c' := by
  unfold askPassword
  split
  · refine ⟨c, rfl, ⟨hw, fun h => ?_, fun _ => ⟨hl, hc⟩, fun _ => hq, fun _ => hr, fun _ g hg _ => ?_⟩⟩
    · exact absurd (hp.symm.trans h) (by decide)
    · have hg' : some (⟨j, .sudo⟩ : Gen) = some g := (getLast?_set hk _).symm.trans hg
      cases hg'
      exact ⟨hcur, hj, hi⟩
  · exact ⟨_, inv_launch jobs hw hl hc hr hk hcur hj hi⟩

theorem inv_first (jobs : Id → Option JobDef) {s : St} {c : Watch} {k : Nat} (j : Id) (h : Inv jobs s c)
    (hp : s.phase = .bootstrapped) (hk : k + 1 = s.gens.length) :
    ∃ c', (first jobs k j s).2.2.foldlM watchOwn c = some c' ∧ Inv jobs (first jobs k j s).1 c' := by
  have hr := h.ready hp
  have hf := h.free (by rw [hp]; decide)
  have hq := h.quiet (by rw [hp]; decide)
  unfold first
  rw [todo_ready hr, job_ready hr]
  dsimp only
  rw [if_neg (by decide), if_neg (by decide)]
  have hr' := ready_useful hr true
  cases hj : jobs j with
  | none =>
    refine ⟨c, rfl, ⟨h.nobody, fun h => ?_, fun _ => hf, fun _ => hq, fun _ => hr', fun _ g hg hpos => ?_⟩⟩
    · exact absurd (hp.symm.trans h) (by decide)
    · have hg' : some (⟨j, .over⟩ : Gen) = some g := (getLast?_set hk _).symm.trans hg
      cases hg'
      rcases hpos with h | h <;> cases h
  | some d =>
    have hj' : jobs j ≠ none := by rw [hj]; exact fun h => nomatch h
    dsimp only
    split
    · refine ⟨c, rfl, ⟨h.nobody, fun h => ?_, fun _ => hf, fun _ => hq, fun _ => hr', fun _ g hg _ => ?_⟩⟩
      · exact absurd (hp.symm.trans h) (by decide)
      · have hg' : some (⟨j, .purpose⟩ : Gen) = some g := (getLast?_set hk _).symm.trans hg
        cases hg'
        exact ⟨rfl, hj', rfl⟩
    · exact inv_askPassword jobs d hp h.nobody hf.1 hf.2 hr' hk rfl hj' rfl hq

theorem inv_next (jobs : Id → Option JobDef) {s : St} {c : Watch} {k : Nat} (h : Inv jobs s c)
    (hp : s.phase = .bootstrapped) (hk : k + 1 = s.gens.length) :
    ∃ c', (next jobs k s).2.2.foldlM watchOwn c = some c' ∧ Inv jobs (next jobs k s).1 c' := by
  have hr := h.ready hp
  have hf := h.free (by rw [hp]; decide)
  have hq := h.quiet (by rw [hp]; decide)
  have hb := h.begun hp
  rw [getLast?_last hk] at hb
  unfold next
  cases hg : s.gens[k]? with
  | none => exact ⟨c, rfl, h⟩
  | some g =>
    obtain ⟨j, p⟩ := g
    cases p with
    | fresh => exact inv_first jobs j h hp hk
    | purpose =>
      obtain ⟨h1, h2, h3⟩ := hb _ hg (.inl rfl)
      dsimp only at h1 h2 ⊢
      cases hj : jobs j with
      | none => exact absurd hj h2
      | some d => exact inv_askPassword jobs d hp h.nobody hf.1 hf.2 hr hk h1 h2 h3 hq
    | sudo =>
      obtain ⟨h1, h2, h3⟩ := hb _ hg (.inr rfl)
      dsimp only at h1 h2 ⊢
      split
      · exact ⟨_, inv_launch jobs h.nobody hf.1 hf.2 hr hk h1 h2 h3⟩
      · refine ⟨c, rfl, ⟨h.nobody, fun h => ?_, fun _ => hf, fun _ => hq, fun _ => hr, fun _ g hg hpos => ?_⟩⟩
        · exact absurd (hp.symm.trans h) (by decide)
        · have hg' : some (⟨j, .over⟩ : Gen) = some g := (getLast?_set hk _).symm.trans hg
          cases hg'
          rcases hpos with h | h <;> cases h
    | over => exact ⟨c, rfl, h⟩

theorem inv_ends (jobs : Id → Option JobDef) {s : St} {c : Watch} (v : Verdict) (h : Inv jobs s c) :
    ∃ c', (ends (some v) s).2.2.foldlM watchOwn c = some c' ∧ Inv jobs (ends (some v) s).1 c' := by
  by_cases hp : s.phase = .running
  · obtain ⟨t, b⟩ := h.busy hp
    rcases b.watched with ⟨h1, h2, rfl⟩ | ⟨w, h1, h2, rfl⟩
    · have e : ends (some v) s = ({ s with
              be := some ⟨t.job, some (some v)⟩
              sa := { s.sa with allowed := Assistant.put .useResult true (Assistant.put .runJob false s.sa.allowed) } },
            .ok, [.ended t.job v]) := by
        unfold ends
        rw [b.be]
        dsimp only
        rw [if_neg (show ¬ t.ended ≠ none from fun h => h h1), if_pos h2]
      rw [e]
      refine ⟨.over t.job v, by simp [watchOwn], ⟨h.nobody, fun _ => ⟨⟨t.job, some (some v)⟩, ?_⟩, fun h => absurd hp h,
        fun h => absurd hp h, fun h => ?_, fun h => ?_⟩⟩
      · exact ⟨rfl, b.lock, b.current, b.known, b.indexed, b.getJob, b.getTodo, b.session, b.still,
          .inr ⟨v, rfl, rfl, rfl⟩⟩
      · exact absurd (hp.symm.trans h) (by decide)
      · exact absurd (hp.symm.trans h) (by decide)
    · have e : ends (some v) s = (s, .ok, []) := by
        unfold ends
        rw [b.be]
        dsimp only
        rw [if_pos (by rw [h1]; exact fun h => nomatch h)]
      rw [e]
      exact ⟨_, rfl, h⟩
  · have hq := h.quiet hp
    have e : ends (some v) s = (s, .ok, []) := by
      unfold ends
      cases hb : s.be with
      | none => rfl
      | some t =>
        dsimp only
        rw [if_pos (hq t hb)]
    rw [e]
    exact ⟨c, rfl, h⟩

theorem use_ready {sa : Assistant.St} (h1 : sa.allowed .useResult = true) (h2 : sa.session = true) :
    calls [(.useResult, plain, .ok)] sa =
      ({ sa with allowed := Assistant.put .runJob true (Assistant.put .useResult false sa.allowed) }, true) := by
  rw [calls_use, if_pos (by rw [h1, h2]; rfl)]

theorem inv_finish (jobs : Id → Option JobDef) {s : St} {c : Watch} (h : Inv jobs s c) (hp : s.phase = .running) :
    ∃ c', (finish jobs true s).2.2.foldlM watchOwn c = some c' ∧ Inv jobs (finish jobs true s).1 c' := by
  obtain ⟨t, b⟩ := h.busy hp
  rcases b.watched with ⟨h1, h2, rfl⟩ | ⟨v, h1, h2, rfl⟩
  · have e : finish jobs true s = (s, .waits, []) := by
      unfold finish; rw [b.be]; dsimp only; rw [h1]
    rw [e]; exact ⟨_, rfl, h⟩
  · have e : finish jobs true s = collect jobs true v s := by
      unfold finish; rw [b.be]; dsimp only; rw [h1]
    rw [e]
    unfold collect
    rw [if_neg (by rw [h2]; decide), b.current]
    dsimp only
    rw [if_neg b.known, if_neg (by decide), use_ready h2 b.session]
    dsimp only
    have hr : Ready { s.sa with allowed := Assistant.put .runJob true (Assistant.put .useResult false s.sa.allowed) } :=
      ⟨rfl, b.getJob, b.getTodo, b.session⟩
    rw [if_neg (by decide), if_neg (by rw [b.lock]; decide), todo_ready hr]
    dsimp only
    rw [if_neg (by decide)]
    refine ⟨.free (some v), by simp [watchOwn], ?_⟩
    have hph : ∀ q : Phase, (q = .idle ∨ q = .bootstrapped) → q ≠ .running := by
      rintro q (rfl | rfl) <;> decide
    refine ⟨h.nobody, fun hh => absurd hh ?_, fun _ => ⟨rfl, _, rfl⟩, fun _ t' ht' => ?_, fun _ => hr, fun _ g hg hpos => ?_⟩
    · refine hph _ ?_
      dsimp only
      split
      · exact .inl rfl
      · exact .inr rfl
    · have : some t = some t' := b.be.symm.trans ht'
      cases this
      rw [h1]; exact fun h => nomatch h
    · have hs := b.still
      unfold pending at hs
      have hg' : s.gens.getLast? = some g := hg
      rw [hg'] at hs
      exact absurd hpos (by simpa using hs)

/-- An operation that changes neither the thread nor what belongs to the job. -/
theorem inv_sa (jobs : Id → Option JobDef) {s : St} {c : Watch} (sa : Assistant.St) (h : Inv jobs s c)
    (hs : sa.session = s.sa.session)
    (ha : ∀ d, d = .runJob ∨ d = .getJob ∨ d = .getDynamicTodo ∨ d = .useResult → s.sa.allowed d = true → sa.allowed d = true) :
    Inv jobs { s with sa := sa } c := by
  refine ⟨h.nobody, fun hp => ?_, h.free, h.quiet, fun hp => ?_, h.begun⟩
  · obtain ⟨t, b⟩ := h.busy hp
    refine ⟨t, ⟨b.be, b.lock, b.current, b.known, b.indexed, ha _ (.inr (.inl rfl)) b.getJob,
      ha _ (.inr (.inr (.inl rfl))) b.getTodo, hs.trans b.session, b.still, ?_⟩⟩
    rcases b.watched with ⟨h1, h2, h3⟩ | ⟨v, h1, h2, h3⟩
    · exact .inl ⟨h1, ha _ (.inl rfl) h2, h3⟩
    · exact .inr ⟨v, h1, ha _ (.inr (.inr (.inr rfl))) h2, h3⟩
  · obtain ⟨h1, h2, h3, h4⟩ := h.ready hp
    exact ⟨ha _ (.inl rfl) h1, ha _ (.inr (.inl rfl)) h2, ha _ (.inr (.inr (.inl rfl))) h3, hs.trans h4⟩

/-- Between sessions the assistant does not matter. -/
theorem inv_between (jobs : Id → Option JobDef) {s s' : St} {c : Watch} (h : Inv jobs s c) (hp : s.phase ≠ .running)
    (h' : s'.phase = .idle ∨ s'.phase = .started) (hw : s'.waiting = s.waiting) (hl : s'.lock = s.lock) (hb : s'.be = s.be) :
    Inv jobs s' c := by
  have hne : s'.phase ≠ .running := by rcases h' with h | h <;> rw [h] <;> decide
  have hne' : s'.phase ≠ .bootstrapped := by rcases h' with h | h <;> rw [h] <;> decide
  exact ⟨hw.trans h.nobody, fun hh => absurd hh hne, fun _ => ⟨hl.trans (h.free hp).1, (h.free hp).2⟩,
    fun _ => hb ▸ h.quiet hp, fun hh => absurd hh hne', fun hh => absurd hh hne'⟩

/-- A session begins. -/
theorem inv_open (jobs : Id → Option JobDef) {s s' : St} {c : Watch} (h : Inv jobs s c) (hp : s.phase ≠ .running)
    (hpen : pending s = false) (h' : s'.phase = .bootstrapped) (hw : s'.waiting = s.waiting) (hl : s'.lock = s.lock)
    (hb : s'.be = s.be) (hg : s'.gens = s.gens) (hr : Ready s'.sa) : Inv jobs s' c := by
  refine ⟨hw.trans h.nobody, fun hh => ?_, fun _ => ⟨hl.trans (h.free hp).1, (h.free hp).2⟩,
    fun _ => hb ▸ h.quiet hp, fun _ => hr, fun _ g hgl hpos => ?_⟩
  · exact absurd (h'.symm.trans hh) (by decide)
  · rw [hg] at hgl
    unfold pending at hpen
    rw [hgl] at hpen
    exact absurd hpos (by simpa using hpen)

theorem calls_three {x y z : Call × Args × Outcome} {sa : Assistant.St}
    (h : (calls [x, y, z] sa).2 = true) :
    ∃ sb, (Assistant.call y.1 y.2.1 y.2.2 sb).2.1 = .ok ∧
      calls [x, y, z] sa = calls [z] (Assistant.call y.1 y.2.1 y.2.2 sb).1 := by
  obtain ⟨c1, a1, o1⟩ := x
  obtain ⟨c2, a2, o2⟩ := y
  obtain ⟨c3, a3, o3⟩ := z
  rw [calls] at h
  by_cases h1 : (Assistant.call c1 a1 o1 sa).2.1 = .ok
  · rw [if_pos h1, calls] at h
    by_cases h2 : (Assistant.call c2 a2 o2 (Assistant.call c1 a1 o1 sa).1).2.1 = .ok
    · refine ⟨(Assistant.call c1 a1 o1 sa).1, h2, ?_⟩
      rw [calls, if_pos h1, calls, if_pos h2]
    · rw [if_neg h2] at h; cases h
  · rw [if_neg h1] at h; cases h

theorem calls_static (sa : Assistant.St) : (calls [(.getStaticTodo, plain, .ok)] sa).1 = sa := by
  unfold calls
  cases h1 : sa.allowed .getStaticTodo <;> cases h2 : sa.session <;>
    simp [Assistant.call, Assistant.need, Assistant.body, Assistant.fin, calls, h1, h2]

theorem inv_bootstrap (jobs : Id → Option JobDef) {s : St} {c : Watch} (p : Plan) (h : Inv jobs s c)
    (hpen : pending s = false) :
    ∃ c', (bootstrap p s).2.2.foldlM watchOwn c = some c' ∧ Inv jobs (bootstrap p s).1 c' := by
  unfold bootstrap
  by_cases hp : s.phase ≠ .started
  · rw [if_pos hp]; exact ⟨c, rfl, h⟩
  · rw [if_neg hp]
    have hp' : s.phase = .started := Decidable.not_not.mp hp
    have hne : s.phase ≠ .running := by rw [hp']; decide
    dsimp only
    split
    · rename_i hok
      refine ⟨c, rfl, inv_open jobs h hne hpen rfl rfl rfl rfl rfl ?_⟩
      obtain ⟨sb, h1, h2⟩ := calls_three hok
      show Ready (calls _ s.sa).1
      rw [h2, calls_static]
      exact boot_ready _ _ _ h1
    · exact ⟨c, rfl, inv_between jobs h hne (.inr hp') rfl rfl rfl⟩

theorem inv_resume (jobs : Id → Option JobDef) {s : St} {c : Watch} (f : Bool) (o : Outcome) (p : Plan) (last : Option Id)
    (h : Inv jobs s c) (hp : s.phase = .idle) (hpen : pending s = false) :
    ∃ c', (resume jobs f o p last s).2.2.foldlM watchOwn c = some c' ∧ Inv jobs (resume jobs f o p last s).1 c' := by
  have hne : s.phase ≠ .running := by rw [hp]; decide
  have hb : ∀ s' : St, s'.phase = s.phase → s'.waiting = s.waiting → s'.lock = s.lock → s'.be = s.be → Inv jobs s' c :=
    fun s' h1 h2 h3 h4 => inv_between jobs h hne (.inl (h1.trans hp)) h2 h3 h4
  unfold resume
  dsimp only
  split
  · exact ⟨c, rfl, h⟩
  · split
    · exact ⟨c, rfl, hb _ rfl rfl rfl rfl⟩
    · split
      · exact ⟨c, rfl, hb _ rfl rfl rfl rfl⟩
      · rename_i hok
        have hready : Ready (calls [(.resume, plain, o), (.selectTestPlan, plain, .ok),
            (.bootstrap, { plain with boots := p.boots }, p.o)]
            (calls [(.getResumable, { plain with found := f }, .ok)] s.sa).1).1 := by
          rw [Bool.not_eq_true, Bool.not_eq_false'] at hok
          generalize (calls [(.getResumable, { plain with found := f }, .ok)] s.sa).1 = sa at hok ⊢
          rw [show [(Call.resume, plain, o), (.selectTestPlan, plain, .ok), (.bootstrap, { plain with boots := p.boots }, p.o)] =
            [(Call.resume, plain, o), (.selectTestPlan, plain, .ok)] ++ [(.bootstrap, { plain with boots := p.boots }, p.o)] from rfl,
            calls_append] at hok ⊢
          split at hok
          · rename_i h2
            rw [if_pos h2]
            unfold calls at hok ⊢
            split at hok
            · rename_i h3
              rw [if_pos h3]
              exact boot_ready _ _ _ h3
            · cases hok
          · cases hok
        split
        · exact ⟨c, rfl, inv_open jobs h hne hpen rfl rfl rfl rfl rfl hready⟩
        · split
          · exact ⟨c, rfl, hb _ rfl rfl rfl rfl⟩
          · split
            · exact ⟨c, rfl, hb _ rfl rfl rfl rfl⟩
            · rename_i hu
              rw [Bool.not_eq_true, Bool.not_eq_false'] at hu
              refine ⟨c, rfl, inv_open jobs h hne hpen rfl rfl rfl rfl rfl ?_⟩
              show Ready (calls [(.useResult, plain, .ok)] _).1
              rw [calls_use] at hu ⊢
              split
              · exact ⟨rfl, hready.2.1, hready.2.2.1, hready.2.2.2⟩
              · exact hready

theorem finalize_keeps (a : Args) (o : Outcome) (sa : Assistant.St) (h : (Assistant.call .finalize a o sa).2.1 ≠ .ok) :
    (Assistant.call .finalize a o sa).1.allowed = sa.allowed ∧ (Assistant.call .finalize a o sa).1.session = sa.session := by
  unfold Assistant.call at h ⊢
  split
  · exact ⟨rfl, rfl⟩
  · split
    · exact ⟨rfl, rfl⟩
    · rename_i h1 h2
      rw [if_neg h1, if_neg h2] at h
      unfold Assistant.body at h ⊢
      dsimp only at h ⊢
      split
      · exact ⟨rfl, rfl⟩
      · split
        · exact ⟨rfl, rfl⟩
        · split
          · exact ⟨rfl, rfl⟩
          · rename_i h3 h4 h5
            rw [if_neg h3, if_neg h4, if_neg h5] at h
            exact absurd rfl h

theorem inv_finalize (jobs : Id → Option JobDef) {s : St} {c : Watch} (o : Outcome) (h : Inv jobs s c) (hp : s.phase ≠ .running) :
    ∃ c', (finalize o s).2.2.foldlM watchOwn c = some c' ∧ Inv jobs (finalize o s).1 c' := by
  unfold finalize
  dsimp only
  split
  · exact ⟨c, rfl, inv_between jobs h hp (.inl rfl) rfl rfl rfl⟩
  · rename_i hok
    have e : (Assistant.call .finalize plain o s.sa).2.1 ≠ .ok := by
      intro e
      apply hok
      unfold calls
      rw [if_pos e]
      rfl
    have e2 : (calls [(.finalize, plain, o)] s.sa).1 = (Assistant.call .finalize plain o s.sa).1 := by
      unfold calls
      rw [if_neg e]
    obtain ⟨h1, h2⟩ := finalize_keeps plain o s.sa e
    refine ⟨c, rfl, inv_sa jobs _ h ?_ ?_⟩
    · rw [e2]; exact h2
    · intro d _ hd
      rw [e2, h1]; exact hd

theorem calls_keep (l : List (Call × Args × Outcome)) (P : Assistant.St → Prop) (sa : Assistant.St)
    (h : ∀ x ∈ l, ∀ sb, P sb → P (Assistant.call x.1 x.2.1 x.2.2 sb).1) (h0 : P sa) : P (calls l sa).1 := by
  induction l generalizing sa with
  | nil => exact h0
  | cons x l ih =>
    obtain ⟨c, a, o⟩ := x
    have h1 := h _ List.mem_cons_self sa h0
    unfold calls
    split
    · exact ih _ (fun y hy => h y (List.mem_cons_of_mem _ hy)) h1
    · exact h1

theorem inv_repr (jobs : Id → Option JobDef) {s : St} {c : Watch} (h : Inv jobs s c) :
    ∃ c', (repr s).2.2.foldlM watchOwn c = some c' ∧ Inv jobs (repr s).1 c' := by
  refine ⟨c, rfl, ?_⟩
  have key := calls_keep [(.getJob, plain, .ok), (.getJobState, plain, .ok)]
    (fun sb => sb.session = s.sa.session ∧ ∀ d, s.sa.allowed d = true → sb.allowed d = true) s.sa ?_ ⟨rfl, fun _ h => h⟩
  · exact inv_sa jobs _ h key.1 (fun d _ hd => key.2 d hd)
  · intro x hx sb hsb
    simp only [List.mem_cons, List.not_mem_nil, or_false] at hx
    rcases hx with rfl | rfl
    · dsimp only
      unfold Assistant.call
      split
      · exact hsb
      · split
        · exact hsb
        · refine ⟨hsb.1, fun d hd => ?_⟩
          show Assistant.put .useResult true sb.allowed d = true
          unfold Assistant.put
          split
          · rfl
          · exact hsb.2 d hd
    · dsimp only
      unfold Assistant.call
      split
      · exact hsb
      · split
        · exact hsb
        · exact hsb

theorem inv_step (jobs : Id → Option JobDef) {s : St} {c : Watch} (a : Op) (h : Inv jobs s c) (ha : careful s a) :
    ∃ c', (step jobs a s).2.2.foldlM watchOwn c = some c' ∧ Inv jobs (step jobs a s).1 c' := by
  cases a with
  | start o =>
    show ∃ c', (start o s).2.2.foldlM watchOwn c = some c' ∧ Inv jobs (start o s).1 c'
    unfold start
    by_cases hp : s.phase ≠ .idle
    · rw [if_pos hp]; exact ⟨c, rfl, h⟩
    · rw [if_neg hp]
      have hp' : s.phase = .idle := Decidable.not_not.mp hp
      have hne : s.phase ≠ .running := by rw [hp']; decide
      dsimp only
      split
      · exact ⟨c, rfl, inv_between jobs h hne (.inr rfl) rfl rfl rfl⟩
      · exact ⟨c, rfl, inv_between jobs h hne (.inl hp') rfl rfl rfl⟩
  | bootstrap p => exact inv_bootstrap jobs p h ha
  | ask j =>
    show ∃ c', (ask j s).2.2.foldlM watchOwn c = some c' ∧ Inv jobs (ask j s).1 c'
    unfold ask
    split
    · exact ⟨c, rfl, h⟩
    · rename_i hp
      have hp' : s.phase = .bootstrapped := Decidable.not_not.mp hp
      have hne : s.phase ≠ .running := by rw [hp']; decide
      refine ⟨c, rfl, ⟨h.nobody, fun hh => absurd hh hne, h.free, h.quiet, h.ready, fun _ g hg hpos => ?_⟩⟩
      have hg' : (s.gens ++ [(⟨j, .fresh⟩ : Gen)]).getLast? = some g := hg
      rw [List.getLast?_concat] at hg'
      cases hg'
      rcases hpos with h | h <;> cases h
  | next k => exact inv_next jobs h ha.1 ha.2
  | wake =>
    have e : wake s = (s, .ok, []) := by unfold wake; rw [h.nobody]
    show ∃ c', (wake s).2.2.foldlM watchOwn c = some c' ∧ Inv jobs (wake s).1 c'
    rw [e]; exact ⟨c, rfl, h⟩
  | ends o =>
    cases o with
    | none => exact absurd rfl ha
    | some v => exact inv_ends jobs v h
  | monitor =>
    show ∃ c', (monitor s).2.2.foldlM watchOwn c = some c' ∧ Inv jobs (monitor s).1 c'
    unfold monitor
    repeat' split
    all_goals exact ⟨c, rfl, h⟩
  | whatsUp => exact ⟨c, rfl, h⟩
  | progress =>
    show ∃ c', (progress s).2.2.foldlM watchOwn c = some c' ∧ Inv jobs (progress s).1 c'
    unfold progress
    repeat' split
    all_goals exact ⟨c, rfl, h⟩
  | password p => exact ⟨c, rfl, ⟨h.nobody, fun hp => (h.busy hp).imp fun t b =>
      ⟨b.be, b.lock, b.current, b.known, b.indexed, b.getJob, b.getTodo, b.session, b.still, b.watched⟩,
      h.free, h.quiet, h.ready, h.begun⟩⟩
  | finish b => obtain ⟨hp, rfl⟩ := ha; exact inv_finish jobs h hp
  | repr => exact inv_repr jobs h
  | resume f o p l => exact inv_resume jobs f o p l h ha.1 ha.2
  | finalize o => exact inv_finalize jobs o h ha

theorem inv_run (jobs : Id → Option JobDef) {s : St} {c : Watch} (l : List Op) (h : Inv jobs s c) (hl : Careful jobs l s) :
    ∃ c', (run jobs l s).2.2.foldlM watchOwn c = some c' ∧ Inv jobs (run jobs l s).1 c' := by
  induction l generalizing s c with
  | nil => exact ⟨c, rfl, h⟩
  | cons a l ih =>
    obtain ⟨c1, h1, r1⟩ := inv_step jobs a h hl.1
    obtain ⟨c2, h2, r2⟩ := ih r1 hl.2
    refine ⟨c2, ?_, r2⟩
    show List.foldlM watchOwn c ((step jobs a s).2.2 ++ (run jobs l (step jobs a s).1).2.2) = _
    rw [List.foldlM_append, h1]
    exact h2

theorem inv_init (jobs : Id → Option JobDef) : Inv jobs init (.free none) :=
  ⟨rfl, fun h => (by cases h), fun _ => ⟨rfl, _, rfl⟩, fun _ t ht => (by cases ht), fun h => (by cases h), fun h => (by cases h)⟩

/-- C76: with careful clients every result is recorded once, for the job it is the result of, before the
next job is started. -/
theorem C76_own_partial (jobs : Id → Option JobDef) (l : List Op) (h : Careful jobs l init) :
    ((run jobs l init).2.2.foldlM watchOwn (.free none)).isSome := by
  obtain ⟨c, h, _⟩ := inv_run jobs l (inv_init jobs) h
  rw [h]; rfl

/-! ### Progress -/

theorem count_step (jobs : Id → Option JobDef) (a : Op) (s : St) (ha : ∀ f o p l, a ≠ .resume f o p l)
    (h : s.count = s.runList.length) : (step jobs a s).1.count = (step jobs a s).1.runList.length := by
  by_cases ho : a.opens = true
  · cases a with
    | bootstrap p =>
      show (bootstrap p s).1.count = (bootstrap p s).1.runList.length
      unfold bootstrap
      split
      · exact h
      · dsimp only
        split
        · rfl
        · exact h
    | resume f o p l => exact absurd rfl (ha f o p l)
    | _ => cases ho
  · obtain ⟨_, h2, h3⟩ := res_step jobs a s (Bool.not_eq_true _ ▸ ho)
    rw [h2, h3]; exact h

theorem count_run (jobs : Id → Option JobDef) (l : List Op) (s : St) (hl : ∀ f o p j, Op.resume f o p j ∉ l)
    (h : s.count = s.runList.length) : (run jobs l s).1.count = (run jobs l s).1.runList.length := by
  induction l generalizing s with
  | nil => exact h
  | cons a l ih =>
    refine ih _ (fun f o p j hm => hl f o p j (List.mem_cons_of_mem _ hm)) (count_step jobs a s ?_ h)
    rintro f o p j rfl
    exact hl f o p j List.mem_cons_self

theorem filter_split (l : List Id) (r : Id → Option Verdict) :
    (l.filter fun j => (r j).isNone).length + (l.filter fun j => (r j).isSome).length = l.length := by
  induction l with
  | nil => rfl
  | cons a l ih =>
    rw [List.filter_cons, List.filter_cons]
    cases r a <;> simp <;> omega

/-- What an observer knows about the job that occupies the service. -/
def Watch.job : Watch → Option Id
  | .busy j | .over j _ => some j
  | _ => none

/-- C76: with careful clients and a session that was not resumed `whats_up` tells, while a job is run or its
result waits to be collected, which job it is, how many jobs there are, and that it is the next one after
those that have a result. -/
theorem C76_whats_up_partial (jobs : Id → Option JobDef) (l : List Op) (h : Careful jobs l init)
    (hl : ∀ f o p j, Op.resume f o p j ∉ l) (s : St) (hs : s = (run jobs l init).1) (hp : s.phase = .running) :
    ∃ c j, (run jobs l init).2.2.foldlM watchOwn (.free none) = some c ∧ c.job = some j ∧
      (step jobs .whatsUp s).2.1 =
        .up .running (some ((s.runList.filter fun i => (s.res i).isSome).length + 1, s.runList.length, some j)) := by
  obtain ⟨c, h1, h2⟩ := inv_run jobs l (inv_init jobs) h
  have hc := count_run jobs l init hl rfl
  rw [← hs] at h2 hc
  obtain ⟨t, b⟩ := h2.busy hp
  refine ⟨c, t.job, h1, ?_, ?_⟩
  · rcases b.watched with ⟨_, _, rfl⟩ | ⟨v, _, _, rfl⟩ <;> rfl
  · show Reply.up s.phase (if s.phase = .running then some (s.index, s.count, s.current) else none) = _
    have hi : s.index = (s.runList.filter fun i => (s.res i).isSome).length + 1 := by
      have h3 := b.indexed
      unfold Indexed todo at h3
      have h4 := filter_split s.runList s.res
      omega
    rw [if_pos hp, hp, hc, b.current, hi]

/-- C76: `monitor_job` tells whether the job runs, and otherwise its outcome. -/
theorem C76_monitor_partial (jobs : Id → Option JobDef) (l : List Op) (h : Careful jobs l init) (s : St)
    (hs : s = (run jobs l init).1) :
    ∃ c, (run jobs l init).2.2.foldlM watchOwn (.free none) = some c ∧
      (∀ j, c = .busy j ↔ (step jobs .monitor s).2.1 = .runs ∧ s.current = some j) ∧
      (∀ j v, c = .over j v ↔ (step jobs .monitor s).2.1 = .done v ∧ s.current = some j) ∧
      ((∃ v, c = .free v) ↔ (step jobs .monitor s).2.1 = .wrongState) := by
  obtain ⟨c, h1, h2⟩ := inv_run jobs l (inv_init jobs) h
  rw [← hs] at h2
  refine ⟨c, h1, ?_⟩
  show (∀ j, c = .busy j ↔ (monitor s).2.1 = .runs ∧ s.current = some j) ∧
    (∀ j v, c = .over j v ↔ (monitor s).2.1 = .done v ∧ s.current = some j) ∧
    ((∃ v, c = .free v) ↔ (monitor s).2.1 = .wrongState)
  by_cases hp : s.phase = .running
  · obtain ⟨t, b⟩ := h2.busy hp
    rcases b.watched with ⟨e1, _, rfl⟩ | ⟨v, e1, _, rfl⟩
    · have e : monitor s = (s, .runs, []) := by
        unfold monitor
        rw [if_neg (fun h => h hp), b.be]; dsimp only; rw [e1]
      rw [e, b.current]
      refine ⟨fun j => ?_, fun j v => ?_, ?_⟩
      · constructor
        · intro h; cases h; exact ⟨rfl, rfl⟩
        · rintro ⟨_, h⟩; cases h; rfl
      · exact ⟨fun h => (by cases h), fun h => (by cases h.1)⟩
      · exact ⟨fun ⟨v, h⟩ => (by cases h), fun h => (by cases h)⟩
    · have e : monitor s = (s, .done v, []) := by
        unfold monitor
        rw [if_neg (fun h => h hp), b.be]; dsimp only; rw [e1]
      rw [e, b.current]
      refine ⟨fun j => ?_, fun j w => ?_, ?_⟩
      · exact ⟨fun h => (by cases h), fun h => (by cases h.1)⟩
      · constructor
        · intro h; cases h; exact ⟨rfl, rfl⟩
        · rintro ⟨h, h'⟩; cases h; cases h'; rfl
      · exact ⟨fun ⟨v, h⟩ => (by cases h), fun h => (by cases h)⟩
  · obtain ⟨_, w, rfl⟩ := h2.free hp
    have e : monitor s = (s, .wrongState, []) := by
      unfold monitor
      rw [if_pos hp]
    rw [e]
    exact ⟨fun j => ⟨fun h => (by cases h), fun h => (by cases h.1)⟩,
      fun j v => ⟨fun h => (by cases h), fun h => (by cases h.1)⟩, ⟨fun _ => rfl, fun _ => ⟨w, rfl⟩⟩⟩

/-! ### A whole session -/

/-- What a client does for a job: ask for it, advance the generator, send the password, advance it again, and
collect the result once the job is over. -/
def jobOps (p : String) (f : Id → Verdict) (n : Nat) (j : Id) : List Op :=
  [.ask j, .next n, .password p, .next n, .ends (some (f j)), .finish true]

/-- The same for one job after the other. -/
def sessionOps (p : String) (f : Id → Verdict) : List Id → Nat → List Op
  | [], _ => []
  | j :: l, n => jobOps p f n j ++ sessionOps p f l (n + 1)

theorem run_append (jobs : Id → Option JobDef) (l m : List Op) (s : St) :
    (run jobs (l ++ m) s).1 = (run jobs m (run jobs l s).1).1 ∧
      (run jobs (l ++ m) s).2.2 = (run jobs l s).2.2 ++ (run jobs m (run jobs l s).1).2.2 := by
  induction l generalizing s with
  | nil => exact ⟨rfl, rfl⟩
  | cons a l ih =>
    refine ⟨(ih _).1, ?_⟩
    show (step jobs a s).2.2 ++ (run jobs (l ++ m) (step jobs a s).1).2.2 =
      ((step jobs a s).2.2 ++ (run jobs l (step jobs a s).1).2.2) ++ (run jobs m (run jobs l (step jobs a s).1).1).2.2
    rw [(ih _).2, List.append_assoc]

/-- The service waits for a job. -/
structure Waits (s : St) : Prop where
  phase : s.phase = .bootstrapped
  lock : s.lock = false
  ready : Ready s.sa

/-- The job of `j` has been started. -/
structure Launched (j : Id) (s0 s : St) : Prop where
  phase : s.phase = .running
  lock : s.lock = true
  be : s.be = some ⟨j, none⟩
  current : s.current = some j
  ready : Ready s.sa
  runList : s.runList = s0.runList
  res : s.res = s0.res
  gens : s.gens.length = s0.gens.length + 1
  over : s.gens[s0.gens.length]? = some ⟨j, .over⟩

/-- A generator for `j` was begun. -/
structure Begun (j : Id) (s0 s : St) : Prop where
  waits : Waits s
  current : s.current = some j
  runList : s.runList = s0.runList
  res : s.res = s0.res
  gens : s.gens.length = s0.gens.length + 1
  pos : s.gens[s0.gens.length]? = some ⟨j, .purpose⟩ ∨ s.gens[s0.gens.length]? = some ⟨j, .sudo⟩

theorem launch_launched {j : Id} {s0 s : St} (h : Waits s) (hc : s.current = some j) (hr : s.runList = s0.runList)
    (he : s.res = s0.res) (hg : s.gens.length = s0.gens.length + 1) :
    (launch s0.gens.length j s).2.2 = [.started j] ∧ Launched j s0 (launch s0.gens.length j s).1 := by
  have e : launch s0.gens.length j s = ({ move s0.gens.length j .over s with
      phase := .running, lock := true, be := some ⟨j, none⟩ }, .stop, [.started j]) := by
    unfold launch
    rw [if_neg (by rw [h.lock]; decide)]
    unfold begin
    rw [if_pos (show (move s0.gens.length j .over s).sa.allowed .runJob = true from h.ready.1)]
  rw [e]
  refine ⟨rfl, ⟨rfl, rfl, rfl, hc, h.ready, hr, he, ?_, ?_⟩⟩
  · show (s.gens.set _ _).length = _
    rw [List.length_set]; exact hg
  · show (s.gens.set _ _)[_]? = _
    rw [List.getElem?_set, if_pos rfl, if_pos (by omega)]

/-- Asking for a job and advancing the generator once. -/
theorem begun_or_launched (jobs : Id → Option JobDef) {j : Id} {s : St} (h : Waits s) (hj : jobs j ≠ none) :
    (Begun j s (run jobs [.ask j, .next s.gens.length] s).1 ∧ (run jobs [.ask j, .next s.gens.length] s).2.2 = []) ∨
      (Launched j s (run jobs [.ask j, .next s.gens.length] s).1 ∧
        (run jobs [.ask j, .next s.gens.length] s).2.2 = [.started j]) := by
  have e1 : ask j s = ({ s with gens := s.gens ++ [⟨j, .fresh⟩] }, .gen s.gens.length, []) := by
    unfold ask
    rw [if_neg (fun hh => hh h.phase)]
  have e2 : run jobs [.ask j, .next s.gens.length] s =
      ((next jobs s.gens.length (ask j s).1).1, [(ask j s).2.1, (next jobs s.gens.length (ask j s).1).2.1],
        (ask j s).2.2 ++ ((next jobs s.gens.length (ask j s).1).2.2 ++ [])) := rfl
  rw [e2, e1]
  dsimp only
  rw [List.append_nil, List.nil_append]
  have e3 : next jobs s.gens.length { s with gens := s.gens ++ [⟨j, .fresh⟩] } =
      first jobs s.gens.length j { s with gens := s.gens ++ [⟨j, .fresh⟩] } := by
    unfold next
    dsimp only
    rw [List.getElem?_concat_length]
  rw [e3]
  unfold first
  dsimp only
  rw [todo_ready h.ready, job_ready h.ready]
  dsimp only
  rw [if_neg (by decide), if_neg (by decide)]
  have hlen : ∀ g : Gen, ((s.gens ++ [(⟨j, .fresh⟩ : Gen)]).set s.gens.length g).length = s.gens.length + 1 := by
    intro g; rw [List.length_set, List.length_append]; rfl
  have hget : ∀ g : Gen, ((s.gens ++ [(⟨j, .fresh⟩ : Gen)]).set s.gens.length g)[s.gens.length]? = some g := by
    intro g
    rw [List.getElem?_set, if_pos rfl, if_pos (by rw [List.length_append]; exact Nat.lt_succ_self _)]
  have hr := ready_useful h.ready true
  cases hd : jobs j with
  | none => exact absurd hd hj
  | some d =>
    dsimp only
    split
    · exact .inl ⟨⟨⟨h.phase, h.lock, hr⟩, rfl, rfl, rfl, hlen _, .inl (hget _)⟩, rfl⟩
    · unfold askPassword
      split
      · exact .inl ⟨⟨⟨h.phase, h.lock, hr⟩, rfl, rfl, rfl, hlen _, .inr (hget _)⟩, rfl⟩
      · have hh := launch_launched (j := j) (s0 := s)
          (s := { s with gens := s.gens ++ [(⟨j, .fresh⟩ : Gen)]
                         index := s.count - (todo { s with gens := s.gens ++ [(⟨j, .fresh⟩ : Gen)] }).length + 1
                         current := some j
                         sa := { s.sa with allowed := Assistant.put .useResult true s.sa.allowed } })
          ⟨h.phase, h.lock, hr⟩ rfl rfl rfl (by rw [List.length_append]; rfl)
        exact .inr ⟨hh.2, hh.1⟩

/-- Sending the password and advancing the generator again. -/
theorem then_launched (jobs : Id → Option JobDef) {j : Id} {s0 s : St} (p : String) (hp : p ≠ "") (hj : jobs j ≠ none)
    (h : Begun j s0 s) :
    Launched j s0 (run jobs [.password p, .next s0.gens.length] s).1 ∧
      (run jobs [.password p, .next s0.gens.length] s).2.2 = [.started j] := by
  have e : run jobs [.password p, .next s0.gens.length] s =
      ((next jobs s0.gens.length { s with password := some p }).1,
        [.ok, (next jobs s0.gens.length { s with password := some p }).2.1],
        [] ++ ((next jobs s0.gens.length { s with password := some p }).2.2 ++ [])) := rfl
  rw [e]
  dsimp only
  rw [List.append_nil, List.nil_append]
  have hl := launch_launched (j := j) (s0 := s0) (s := { s with password := some p })
    ⟨h.waits.phase, h.waits.lock, h.waits.ready⟩ h.current h.runList h.res h.gens
  have e2 : next jobs s0.gens.length { s with password := some p } = launch s0.gens.length j { s with password := some p } := by
    unfold next
    rcases h.pos with hg | hg
    · rw [show ({ s with password := some p } : St).gens[s0.gens.length]? = some ⟨j, .purpose⟩ from hg]
      dsimp only
      cases hd : jobs j with
      | none => exact absurd hd hj
      | some d =>
        dsimp only
        unfold askPassword
        rw [if_neg (fun hh => hp hh.2)]
    · rw [show ({ s with password := some p } : St).gens[s0.gens.length]? = some ⟨j, .sudo⟩ from hg]
      rfl
  rw [e2]
  exact ⟨hl.2, hl.1⟩

/-- A generator that came to its end. -/
theorem still_launched (jobs : Id → Option JobDef) {j : Id} {s0 s : St} (p : String) (h : Launched j s0 s) :
    Launched j s0 (run jobs [.password p, .next s0.gens.length] s).1 ∧
      (run jobs [.password p, .next s0.gens.length] s).2.2 = [] := by
  have e : next jobs s0.gens.length { s with password := some p } = ({ s with password := some p }, .stop, []) := by
    unfold next
    rw [show ({ s with password := some p } : St).gens[s0.gens.length]? = some ⟨j, .over⟩ from h.over]
  have e2 : run jobs [.password p, .next s0.gens.length] s =
      ((next jobs s0.gens.length { s with password := some p }).1,
        [.ok, (next jobs s0.gens.length { s with password := some p }).2.1],
        [] ++ ((next jobs s0.gens.length { s with password := some p }).2.2 ++ [])) := rfl
  rw [e2, e]
  exact ⟨⟨h.phase, h.lock, h.be, h.current, h.ready, h.runList, h.res, h.gens, h.over⟩, rfl⟩

/-- The results with one more. -/
def withResult (j : Id) (v : Verdict) (r : Id → Option Verdict) : Id → Option Verdict := fun i => if i = j then some v else r i

/-- The job ends and its result is collected. -/
theorem collected (jobs : Id → Option JobDef) {j : Id} {s0 s : St} (v : Verdict) (hj : jobs j ≠ none) (h : Launched j s0 s) :
    (run jobs [.ends (some v), .finish true] s).2.2 = [.ended j v, .recorded j v] ∧
      ∃ s', (run jobs [.ends (some v), .finish true] s).1 = s' ∧
        s'.phase = (if (s0.runList.filter fun i => (withResult j v s0.res i).isNone) = [] then .idle else .bootstrapped) ∧
        s'.lock = false ∧ Ready s'.sa ∧ s'.runList = s0.runList ∧ s'.res = withResult j v s0.res ∧
        s'.gens.length = s0.gens.length + 1 := by
  have e1 : ends (some v) s = ({ s with
      be := some ⟨j, some (some v)⟩
      sa := { s.sa with allowed := Assistant.put .useResult true (Assistant.put .runJob false s.sa.allowed) } },
      .ok, [.ended j v]) := by
    unfold ends
    rw [h.be]
    dsimp only
    rw [if_neg (fun hh => hh rfl), if_pos h.ready.1]
  have e2 : run jobs [.ends (some v), .finish true] s =
      ((finish jobs true (ends (some v) s).1).1, [(ends (some v) s).2.1, (finish jobs true (ends (some v) s).1).2.1],
        (ends (some v) s).2.2 ++ ((finish jobs true (ends (some v) s).1).2.2 ++ [])) := rfl
  rw [e2, e1]
  unfold finish
  dsimp only
  unfold collect
  dsimp only
  rw [if_neg (show ¬ (!Assistant.put .useResult true (Assistant.put .runJob false s.sa.allowed) .useResult) = true from
    fun hh => (by cases hh)), h.current]
  dsimp only
  have hu := use_ready (sa := { s.sa with allowed := Assistant.put .useResult true (Assistant.put .runJob false s.sa.allowed) })
    rfl h.ready.2.2.2
  rw [if_neg hj, if_neg (by decide), hu]
  dsimp only
  have hr : Ready { s.sa with allowed := Assistant.put .runJob true (Assistant.put .useResult false
      (Assistant.put .useResult true (Assistant.put .runJob false s.sa.allowed))) } :=
    ⟨rfl, h.ready.2.1, h.ready.2.2.1, h.ready.2.2.2⟩
  rw [if_neg (by decide), if_neg (by rw [h.lock]; decide), todo_ready hr]
  dsimp only
  rw [if_neg (by decide)]
  refine ⟨rfl, _, rfl, ?_, rfl, hr, h.runList, ?_, h.gens⟩
  · unfold todo record
    dsimp only
    rw [h.runList, h.res]
    rfl
  · unfold record
    dsimp only
    rw [h.res]
    rfl

theorem job_run (jobs : Id → Option JobDef) {j : Id} {s : St} (p : String) (f : Id → Verdict) (hp : p ≠ "") (hj : jobs j ≠ none)
    (h : Waits s) :
    (run jobs (jobOps p f s.gens.length j) s).2.2 = [.started j, .ended j (f j), .recorded j (f j)] ∧
      ∃ s', (run jobs (jobOps p f s.gens.length j) s).1 = s' ∧
        s'.phase = (if (s.runList.filter fun i => (withResult j (f j) s.res i).isNone) = [] then .idle else .bootstrapped) ∧
        s'.lock = false ∧ Ready s'.sa ∧ s'.runList = s.runList ∧ s'.res = withResult j (f j) s.res ∧
        s'.gens.length = s.gens.length + 1 := by
  have hsplit : jobOps p f s.gens.length j = [.ask j, .next s.gens.length] ++ ([.password p, .next s.gens.length] ++
      [.ends (some (f j)), .finish true]) := rfl
  rw [hsplit, (run_append jobs _ _ _).1, (run_append jobs _ _ _).1, (run_append jobs _ _ _).2, (run_append jobs _ _ _).2]
  rcases begun_or_launched jobs h hj with ⟨h1, e1⟩ | ⟨h1, e1⟩
  · obtain ⟨h2, e2⟩ := then_launched jobs p hp hj h1
    obtain ⟨e3, h3⟩ := collected jobs (f j) hj h2
    rw [e1, e2, e3]
    exact ⟨rfl, h3⟩
  · obtain ⟨h2, e2⟩ := still_launched jobs p h1
    obtain ⟨e3, h3⟩ := collected jobs (f j) hj h2
    rw [e1, e2, e3]
    exact ⟨rfl, h3⟩

/-- C76: a client that asks for the jobs that are left, in any order, one after the other, gets all of them run and
recorded; the service accepts every call and is idle after the last one. -/
theorem C76_session (jobs : Id → Option JobDef) (p : String) (f : Id → Verdict) (hp : p ≠ "") (l : List Id) (s : St)
    (h : Waits s) (hj : ∀ j ∈ l, jobs j ≠ none) (hne : l ≠ [])
    (hl : ∀ j, j ∈ l ↔ j ∈ s.runList ∧ s.res j = none) (hd : l.Nodup) :
    (run jobs (sessionOps p f l s.gens.length) s).2.2 = l.flatMap (fun j => [.started j, .ended j (f j), .recorded j (f j)]) ∧
      (run jobs (sessionOps p f l s.gens.length) s).1.phase = .idle ∧
      ∀ j, (run jobs (sessionOps p f l s.gens.length) s).1.res j = if j ∈ l then some (f j) else s.res j := by
  induction l generalizing s with
  | nil => exact absurd rfl hne
  | cons j l ih =>
    obtain ⟨e, s', hs', hph, hlk, hr, hrl, hres, hg⟩ := job_run jobs p f hp (hj j List.mem_cons_self) h
    have hops : sessionOps p f (j :: l) s.gens.length = jobOps p f s.gens.length j ++ sessionOps p f l (s.gens.length + 1) := rfl
    rw [hops, (run_append jobs _ _ _).1, (run_append jobs _ _ _).2, hs', ← hg, e, List.flatMap_cons]
    have hjl : j ∉ l := (List.nodup_cons.mp hd).1
    have hl' : ∀ i, i ∈ l ↔ i ∈ s'.runList ∧ s'.res i = none := by
      intro i
      rw [hrl, hres]
      unfold withResult
      by_cases hij : i = j
      · subst hij
        rw [if_pos rfl]
        exact ⟨fun hm => absurd hm hjl, fun hm => nomatch hm.2⟩
      · rw [if_neg hij, ← hl i, List.mem_cons]
        exact ⟨.inr, fun hm => hm.resolve_left hij⟩
    by_cases hnil : l = []
    · subst hnil
      have hz : (s.runList.filter fun i => (withResult j (f j) s.res i).isNone) = [] := by
        rw [List.filter_eq_nil_iff]
        intro i hi hn
        have := (hl' i).mpr ⟨hrl ▸ hi, hres ▸ Option.isNone_iff_eq_none.mp hn⟩
        cases this
      rw [if_pos hz] at hph
      refine ⟨rfl, hph, fun i => ?_⟩
      show s'.res i = _
      rw [hres]
      unfold withResult
      by_cases hij : i = j
      · rw [if_pos hij, if_pos (by rw [hij]; exact List.mem_cons_self), hij]
      · rw [if_neg hij, if_neg (by rw [List.mem_singleton]; exact hij)]
    · have hz : (s.runList.filter fun i => (withResult j (f j) s.res i).isNone) ≠ [] := by
        intro hz
        cases l with
        | nil => exact hnil rfl
        | cons i l =>
          have := (hl' i).mp List.mem_cons_self
          rw [List.filter_eq_nil_iff] at hz
          exact hz i (hrl ▸ this.1) (by rw [← hres, this.2]; rfl)
      rw [if_neg hz] at hph
      obtain ⟨g1, g2, g3⟩ := ih s' ⟨hph, hlk, hr⟩ (fun i hi => hj i (List.mem_cons_of_mem _ hi)) hnil hl' (List.nodup_cons.mp hd).2
      refine ⟨by rw [g1], g2, fun i => ?_⟩
      rw [g3 i, hres]
      unfold withResult
      by_cases hij : i = j
      · subst hij
        rw [if_neg hjl, if_pos rfl, if_pos List.mem_cons_self]
      · rw [if_neg hij]
        by_cases hil : i ∈ l
        · rw [if_pos hil, if_pos (List.mem_cons_of_mem _ hil)]
        · rw [if_neg hil, if_neg (by rw [List.mem_cons]; exact fun hm => hm.elim hij hil)]

/-! ## Examples -/

/-- Two jobs with a purpose to show, one that needs the password, one that needs nothing. -/
def jobsEx : Id → Option JobDef := fun j =>
  if j = "a" ∨ j = "b" then some ⟨true, false⟩
  else if j = "r" then some ⟨false, true⟩
  else if j = "x" then some ⟨false, false⟩
  else none

def planEx : Plan := ⟨[], .ok, ["a", "b", "r"], fun _ => none⟩

/-- The service after a session was started and bootstrapped. -/
def bootedEx : St := (run jobsEx [.start .ok, .bootstrap planEx] init).1

example : Waits bootedEx ∧ bootedEx.runList = ["a", "b", "r"] ∧ bootedEx.gens = [] :=
  ⟨⟨by decide +kernel, by decide +kernel, by unfold Ready; decide +kernel⟩, by decide +kernel, by decide +kernel⟩

/-- The three jobs are run in some order. -/
example : (run jobsEx (sessionOps "secret" (fun j => if j = "b" then "fail" else "pass") ["r", "a", "b"] 0) bootedEx).2.2 =
    [.started "r", .ended "r" "pass", .recorded "r" "pass", .started "a", .ended "a" "pass", .recorded "a" "pass",
      .started "b", .ended "b" "fail", .recorded "b" "fail"] := by decide +kernel

/-- A careful history with a password, a job that is given up and a question about progress. -/
def carefulEx : List Op :=
  [.start .ok, .bootstrap planEx, .ask "r", .next 0, .whatsUp, .password "secret", .next 0, .ends (some "pass"), .monitor,
    .finish true, .ask "a", .next 1, .ask "b", .next 2, .next 2]

instance (s : St) (a : Op) : Decidable (careful s a) := by
  cases a <;> unfold careful <;> infer_instance

instance decCareful (jobs : Id → Option JobDef) : (l : List Op) → (s : St) → Decidable (Careful jobs l s)
  | [], _ => isTrue trivial
  | a :: l, s =>
    match (inferInstance : Decidable (careful s a)), decCareful jobs l (step jobs a s).1 with
    | isTrue h, isTrue h' => isTrue ⟨h, h'⟩
    | isFalse h, _ => isFalse fun hh => h hh.1
    | _, isFalse h => isFalse fun hh => h hh.2

example : Careful jobsEx carefulEx init ∧
    (run jobsEx carefulEx init).2.1 = [.ok, .ok, .gen 0, .sudo, .up .bootstrapped none, .ok, .stop, .ok, .done "pass", .ok,
      .gen 1, .purpose, .gen 2, .purpose, .stop] ∧
    (run jobsEx carefulEx init).1.phase = .running ∧
    (step jobsEx .whatsUp (run jobsEx carefulEx init).1).2.1 = .up .running (some (2, 3, some "b")) := by
  decide +kernel

example : jobsEx "r" = some ⟨false, true⟩ ∧ Event.started "r" ∈ (run jobsEx carefulEx init).2.2 ∧
    Event.started "r" ∉ (run jobsEx [.start .ok, .bootstrap planEx, .ask "r", .next 0, .next 0] init).2.2 := by
  decide +kernel

/-! ## Where the service differs -/

/-- Two generators that are advanced in turn: the result of one job is recorded for the other. -/
theorem C76_own_violated :
    ∃ l, (run jobsEx l bootedEx).2.2 = [.started "a", .ended "a" "pass", .recorded "b" "pass"] ∧
      (run jobsEx l bootedEx).2.1.getLast? = some .ok :=
  ⟨[.ask "a", .ask "b", .next 0, .next 0, .next 1, .ends (some "pass"), .finish true], by decide +kernel⟩

/-- A result that is collected twice becomes the result of a job that was never run. -/
theorem C76_twice_violated :
    ∃ l, (run jobsEx l bootedEx).2.2 =
        [.started "a", .ended "a" "pass", .recorded "a" "pass", .recorded "b" "pass"] ∧
      (run jobsEx l bootedEx).2.1.getLast? = some .unlocked :=
  ⟨[.ask "a", .next 0, .next 0, .ends (some "pass"), .finish true, .ask "b", .next 1, .finish true], by decide +kernel⟩

/-- C76: once running a job raised, nothing is run or recorded any more, in this session or another,
whatever the clients do. -/
theorem C76_raised_violated (jobs : Id → Option JobDef) (l m : List Op) (s : St) (hs : s = (run jobs l init).1) (t : Thread)
    (hb : s.be = some t) (ht : t.ended = none) : (run jobs (.ends none :: m) s).2.2 = [.lost t.job] := by
  obtain ⟨c, _, hr⟩ := rel_run (s := init) (c := .free none) jobs l ⟨rfl, rfl⟩
  rw [← hs] at hr
  have hl : s.lock = true := by
    obtain ⟨j, e⟩ := t
    cases ht
    unfold Rel at hr
    rw [hb] at hr
    exact hr.1
  have e : ends none s = ({ s with be := some ⟨t.job, some none⟩ }, .ok, [.lost t.job]) := by
    unfold ends
    rw [hb]
    dsimp only
    rw [if_neg (fun h => h ht)]
  show (ends none s).2.2 ++ (run jobs m (ends none s).1).2.2 = _
  rw [e]
  dsimp only
  rw [(stuck_run jobs m { s with be := some ⟨t.job, some none⟩ } ⟨hl, _, rfl⟩).2]
  rfl

example : (run jobsEx [.ask "a", .next 0, .next 0] bootedEx).1.be = some ⟨"a", none⟩ := by decide +kernel

/-- A session that is ended while a job runs keeps the lock: the next session cannot run a job, even if the
running job comes to its end. -/
theorem C76_finalize_violated :
    ∃ l, (run jobsEx l bootedEx).2.1.getLast? = some .blocked ∧
      (run jobsEx l bootedEx).2.2 = [.started "a", .lost "a"] ∧
      ∀ m, (run jobsEx m (run jobsEx l bootedEx).1).2.2 = [] := by
  refine ⟨[.ask "a", .next 0, .next 0, .finalize .ok, .ends (some "pass"), .start .ok, .bootstrap planEx, .ask "b", .next 1,
    .next 1], by decide +kernel, by decide +kernel, fun m => ?_⟩
  exact (stuck_run jobsEx m _ ⟨by decide +kernel, "a", by decide +kernel⟩).2

/-- After its last job the service says that it is idle, but the next session can only be started after
`finalize_session`. -/
theorem C76_idle_violated :
    ∃ s, s = (run jobsEx (sessionOps "p" (fun _ => "pass") ["a", "b", "r"] 0) bootedEx).1 ∧ s.phase = .idle ∧
      (step jobsEx (.start .ok) s).2.1 = .assistant ∧
      (run jobsEx [.finalize .ok, .start .ok] s).2.1 = [.ok, .ok] :=
  ⟨_, rfl, by decide +kernel⟩

/-- The number of jobs of a resumed session is that of the session before, at first zero. -/
theorem C76_resumed_violated :
    ∃ l s, s = (run jobsEx l init).1 ∧ Careful jobsEx l init ∧ s.runList.length = 3 ∧
      (step jobsEx .whatsUp s).2.1 = .up .running (some (-1, 0, some "b")) :=
  ⟨[.resume true .ok planEx (some "a"), .ask "b", .next 0, .next 0], _, rfl, by decide +kernel⟩

/-- C76: `get_session_progress` lists the jobs that are left, but never those that are completed. -/
theorem C76_progress_violated (jobs : Id → Option JobDef) (s : St) (dn td : List Id)
    (h : (step jobs .progress s).2.1 = .progress dn td) : dn = [] ∧ td = s.runList.filter fun j => s.res j = none := by
  have h' : (progress s).2.1 = .progress dn td := h
  unfold progress at h'
  split at h'
  · cases h'
    refine ⟨rfl, ?_⟩
    unfold todo
    congr 1
    funext j
    cases s.res j <;> rfl
  · cases h'

example : (step jobsEx .progress (run jobsEx (jobOps "p" (fun _ => "pass") 0 "a") bootedEx).1).2.1 =
    .progress [] ["b", "r"] := by decide +kernel

/-! ## The output -/

/-- Output arrives, or a client reads it. -/
inductive Io
  | line (l : List UInt8) | read

/-- What the clients read, one after the other, and the interface at the end. -/
def reads (dec : List UInt8 → Option String) : List Io → UI → List String × UI
  | [], u => ([], u)
  | .line x :: l, u => reads dec l (u.got dec x).1
  | .read :: l, u => ((u.get).2 :: (reads dec l u.get.1).1, (reads dec l u.get.1).2)

/-- The lines that arrived and can be decoded. -/
def Io.texts (dec : List UInt8 → Option String) : List Io → List String
  | [] => []
  | .line x :: l => (dec x).toList ++ Io.texts dec l
  | .read :: l => Io.texts dec l

theorem foldl_append (l : List String) (a : String) : l.foldl (· ++ ·) a = a ++ l.foldl (· ++ ·) "" := by
  induction l generalizing a with
  | nil => simp
  | cons b l ih => rw [List.foldl_cons, List.foldl_cons, ih, ih ("" ++ b), String.empty_append, String.append_assoc]

/-- All the texts of a list, one after the other. -/
def glue (l : List String) : String := l.foldl (· ++ ·) ""

theorem glue_append (l m : List String) : glue (l ++ m) = glue l ++ glue m := by
  unfold glue
  rw [List.foldl_append, foldl_append]

/-- C76: what the clients read, and what is left to be read, is the whole output in its order, each line
once, as far as it can be decoded. -/
theorem C76_output (dec : List UInt8 → Option String) (l : List Io) (u : UI) :
    glue (reads dec l u).1 ++ glue (reads dec l u).2.queue = glue u.queue ++ glue (Io.texts dec l) := by
  induction l generalizing u with
  | nil => simp [reads, Io.texts, glue]
  | cons a l ih =>
    cases a with
    | line x =>
      show glue (reads dec l (u.got dec x).1).1 ++ glue (reads dec l (u.got dec x).1).2.queue =
        glue u.queue ++ glue ((dec x).toList ++ Io.texts dec l)
      rw [ih]
      unfold UI.got
      cases dec x with
      | none => rfl
      | some t =>
        dsimp only [Option.toList]
        rw [glue_append, glue_append, String.append_assoc]
    | read =>
      show glue ((u.get).2 :: (reads dec l u.get.1).1) ++ glue (reads dec l u.get.1).2.queue = glue u.queue ++ glue (Io.texts dec l)
      rw [show (u.get).2 :: (reads dec l u.get.1).1 = [(u.get).2] ++ (reads dec l u.get.1).1 from rfl, glue_append,
        String.append_assoc, ih]
      have e1 : glue [(u.get).2] = glue u.queue := by
        show "" ++ glue u.queue = _
        exact String.empty_append
      have e2 : glue u.get.1.queue = "" := rfl
      rw [e1, e2, String.empty_append]

example : (reads (fun l => some (toString l.length)) [.line [1], .line [2, 3], .read, .line [], .read, .read] UI.clear).1 =
    ["12", "0", ""] := by decide +kernel

/-- C76: `whole_output` raises as soon as there was any output. -/
theorem C76_whole_violated (dec : List UInt8 → Option String) (x : List UInt8) (l : List (List UInt8))
    (hx : (dec x).isSome) : (UI.all ((x :: l).foldl (fun u y => (u.got dec y).1) UI.clear)).2 = none := by
  have key : ∀ (m : List (List UInt8)) (u : UI), u.whole ≠ [] → (m.foldl (fun u y => (u.got dec y).1) u).whole ≠ [] := by
    intro m
    induction m with
    | nil => exact fun u h => h
    | cons y m ih =>
      intro u h
      refine ih _ ?_
      show ((u.got dec y).1).whole ≠ []
      unfold UI.got
      cases dec y with
      | none => exact h
      | some t => exact fun hh => h (List.append_eq_nil_iff.mp hh).1
  have h0 : ((UI.clear.got dec x).1).whole ≠ [] := by
    unfold UI.got
    cases hd : dec x with
    | none => rw [hd] at hx; cases hx
    | some t => exact fun hh => nomatch hh
  have h1 := key l _ h0
  rw [List.foldl_cons]
  unfold UI.all
  cases hw : (l.foldl (fun u y => (u.got dec y).1) (UI.clear.got dec x).1).whole with
  | nil => exact absurd hw h1
  | cons y m => rfl

end Verif.Remote
