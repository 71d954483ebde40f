import Verif.Model.Runner

/-!
# C38 and C48: outcomes of commands, and log files

* `C38_exact`: what the result of an automatic job says, in all circumstances.  `C38_partial`: the
  property when no exception is swallowed while the command is started.  `C38_crash_violated` and
  `C38_permission`: the code says `crash` although no program was executed.
* `C38_dry`, `C38_dry_runs`: dry runs.  `C38_undecided`: jobs that need verification.  `C38_unknown`:
  kinds of jobs the runner does not know.  `C38_qml`: qml jobs.
* `C48_partial`, `C48_collision`, `C48_violated`: which jobs share log files.
-/

namespace Verif.Runner
open Verif

/-- The jobs whose outcome follows from the command alone. -/
def Automatic (j : Job) : Prop :=
  j.plugin = some "shell".toList ∨ j.plugin = some "attachment".toList ∨
  j.plugin = some "user-interact".toList ∨
    (j.plugin = some "resource".toList ∧ "cachable".toList ∉ j.flags)

/-- Jobs that a runner in this mode executes. -/
def Active (dry : Bool) (j : Job) : Prop :=
  dry = false ∨ j.plugin = some "resource".toList ∨ j.plugin = some "attachment".toList

/-- A program ended in this way during the run. -/
def Ended (ev : List Event) (e : Wait) : Prop := .executed e ∈ ev

/-- Signals have positive numbers. -/
def Wait.Valid : Wait → Prop
  | .exited _ => True
  | .killed n => 0 < n

theorem methodOf_plugin (m : Method) :
    methodOf (m.plugin.map fun c => if c = '-' then '_' else c) = some m := by
  cases m <;> decide +kernel

theorem runJob_method (dry : Bool) (w : World) (j : Job) (m : Method) (h : j.plugin = some m.plugin) :
    runJob dry w j = if dry ∧ m.plugin ∉ dryRunPlugins then ([], .ok ⟨.skip, none, none⟩)
      else m.run w j := by
  simp only [runJob, h, methodOf_plugin]

theorem plugin_inj (m m' : Method) (h : m.plugin = m'.plugin) : m = m' := by
  have := methodOf_plugin m
  rw [h, methodOf_plugin] at this
  exact (Option.some.inj this).symm

/-- The method of an automatic job. -/
theorem automatic_method (j : Job) (ha : Automatic j) : ∃ m : Method, j.plugin = some m.plugin ∧
    ∀ w, m.run w j = justRunCommand w j := by
  rcases ha with h | h | h | ⟨h, hc⟩
  · exact ⟨.shell, h, fun w => by rw [Method.run, if_neg (fun hh => hh h)]⟩
  · exact ⟨.attachment, h, fun w => by rw [Method.run, if_neg (fun hh => hh h)]⟩
  · exact ⟨.userInteract, h, fun w => by rw [Method.run, if_neg (fun hh => hh h)]⟩
  · exact ⟨.resource, h, fun w => by
      rw [Method.run, if_neg (fun hh => hh h)]; simp only [runResource, if_neg hc]⟩

theorem active_plugin (dry : Bool) (j : Job) (m : Method) (h : j.plugin = some m.plugin)
    (hd : Active dry j) : ¬ (dry = true ∧ m.plugin ∉ dryRunPlugins) := by
  rintro ⟨h1, h2⟩
  rcases hd with rfl | hd | hd
  · cases h1
  all_goals
    rw [h] at hd
    apply h2
    rw [Option.some.inj hd]
    decide

theorem runJob_automatic (dry : Bool) (w : World) (j : Job) (ha : Automatic j) (hd : Active dry j) :
    runJob dry w j = justRunCommand w j := by
  obtain ⟨m, h1, h2⟩ := automatic_method j ha
  rw [runJob_method dry w j m h1, if_neg (active_plugin dry j m h1 hd), h2]

/-- Whether the command's exception was swallowed: no return code although the job was started. -/
def Swallowed (w : World) (j : Job) : Prop :=
  w.noTemp = false ∧
    (w.launch = .permission ∨
      w.noCleanup = true ∧ (w.launch = .raised ∨
        ("noreturn".toList ∈ j.flags ∧ w.interrupted = true ∧ ∃ e, w.launch = .ended e)))

/-- What a returned result of an automatic job says. -/
theorem justRunCommand_result (w : World) (j : Job) (ev : List Event) (r : Result)
    (h : justRunCommand w j = (ev, .ok r)) :
    (w.supported = false ∧ ev = [] ∧ r = ⟨.notSupported, none, none⟩) ∨
    (w.supported = true ∧ ((∃ e, w.launch = .ended e ∧ .executed e ∈ ev
        ∧ (∀ e', .executed e' ∈ ev → e' = e) ∧ r.returnCode = some e.returncode ∧
        r.outcome = if e.returncode = 0 then .pass else if e.returncode < 0 then .crash else .fail)
      ∨ (Swallowed w j ∧ r.returnCode = some (-1) ∧ r.outcome = .crash ∧
          ((∀ e, .executed e ∉ ev) ∨ ∃ e, w.launch = .ended e)))) := by
  unfold justRunCommand at h
  cases hs : w.supported with
  | false =>
    simp only [hs, Bool.not_false, if_true, Prod.mk.injEq, Except.ok.injEq] at h
    exact .inl ⟨rfl, h.1.symm, h.2.symm⟩
  | true =>
    refine .inr ⟨rfl, ?_⟩
    simp only [hs, Bool.not_true, Bool.false_eq_true, if_false] at h
    unfold runCommand at h
    cases hc : j.command with
    | none => simp [hc] at h
    | some cmd =>
      simp only [hc, reduceCtorEq, if_false] at h
      unfold executeJob temporaryCwd at h
      cases ht : w.noTemp with
      | true => simp [ht] at h
      | false =>
        simp only [ht, Bool.false_eq_true, if_false] at h
        unfold execBody at h
        cases hl : w.launch with
        | permission =>
          simp only [hl, true_or, if_true, Option.getD_none] at h
          right
          have h1 := congrArg (·.1) h
          have h2 := congrArg (·.2) h
          simp only [Except.ok.injEq] at h1 h2
          subst h1 h2
          exact ⟨⟨ht, .inl hl⟩, by simp, by simp, .inl (by simp)⟩
        | raised =>
          cases hn : w.noCleanup with
          | false => simp [hl, hn] at h
          | true =>
            simp only [hl, hn, or_true, if_true, Option.getD_none] at h
            have h1 := congrArg (·.1) h
            have h2 := congrArg (·.2) h
            simp only [Except.ok.injEq] at h1 h2
            subst h1 h2
            exact .inr ⟨⟨ht, .inr ⟨hn, .inl hl⟩⟩, by simp, by simp, .inl (by simp)⟩
        | ended e =>
          by_cases hi : "noreturn".toList ∈ j.flags ∧ w.interrupted = true
          · cases hn : w.noCleanup with
            | false => simp only [hl, hi, hn] at h; simp at h
            | true =>
              simp only [hl, if_pos hi, hn, or_true, if_true, Option.getD_none] at h
              have h2 := congrArg (·.2) h
              simp only [Except.ok.injEq] at h2
              subst h2
              exact .inr ⟨⟨ht, .inr ⟨hn, .inr ⟨hi.1, hi.2, e, hl⟩⟩⟩, by simp, by simp, .inr ⟨e, rfl⟩⟩
          · simp only [hl, if_neg hi, Option.getD_some] at h
            have h1 := congrArg (·.1) h
            have h2 := congrArg (·.2) h
            simp only [Except.ok.injEq] at h1 h2
            subst h1 h2
            exact .inl ⟨e, rfl, by simp, by simp, rfl, rfl⟩

/-- The documented meaning of the end of a program. -/
def Says : Wait → Outcome
  | .exited 0 => .pass
  | .exited (_ + 1) => .fail
  | .killed _ => .crash

theorem says_eq (e : Wait) (h : e.Valid) : Says e =
    if e.returncode = 0 then .pass else if e.returncode < 0 then .crash else .fail := by
  cases e with
  | exited n => cases n with
    | zero => rfl
    | succ n =>
      rw [if_neg (by simp only [Wait.returncode]; omega), if_neg (by simp only [Wait.returncode]; omega)]
      rfl
  | killed n =>
    simp only [Wait.Valid] at h
    rw [if_neg (by simp only [Wait.returncode]; omega), if_pos (by simp only [Wait.returncode]; omega)]
    rfl

/-- **C38**, exactly: for every automatic job, mode and circumstances, a result says what the end of
the program means, or `not-supported` when nothing was executed for lack of a controller, or `crash`
with return code -1 when an exception was swallowed on the way. -/
theorem C38_exact (dry : Bool) (w : World) (j : Job) (ha : Automatic j) (hd : Active dry j)
    (hw : ∀ e, w.launch = .ended e → e.Valid) (ev : List Event) (r : Result)
    (h : runJob dry w j = (ev, .ok r)) :
    (w.supported = false ∧ (∀ e, ¬ Ended ev e) ∧ r.outcome = .notSupported) ∨
    (w.supported = true ∧ (∃ e, w.launch = .ended e ∧ (∀ e', Ended ev e' ↔ e' = e) ∧ r.outcome = Says e))
      ∨ (w.supported = true ∧ Swallowed w j ∧ r.returnCode = some (-1) ∧ r.outcome = .crash) := by
  rw [runJob_automatic dry w j ha hd] at h
  rcases justRunCommand_result w j ev r h with ⟨h0, h1, h2⟩ | ⟨h0, ⟨e, hl, h1, hu, _, h2⟩ | ⟨hs, h1, h2, _⟩⟩
  · subst h1 h2
    exact .inl ⟨h0, by simp [Ended], rfl⟩
  · exact .inr (.inl ⟨h0, e, hl, fun e' => ⟨hu e', fun he => he ▸ h1⟩, by rw [h2, says_eq e (hw e hl)]⟩)
  · exact .inr (.inr ⟨h0, hs, h1, h2⟩)

/-- **C38**, when no exception is swallowed: the outcome is `pass` iff a program was executed and
exited with 0, `crash` iff it was killed by a signal, `fail` iff it exited with something else, and
`not-supported` iff nothing was executed.  (Full statement: the same without the hypothesis; see
`C38_crash_violated`.) -/
theorem C38_partial (dry : Bool) (w : World) (j : Job) (ha : Automatic j) (hd : Active dry j)
    (hw : ∀ e, w.launch = .ended e → e.Valid) (hs : ¬ Swallowed w j) (ev : List Event) (r : Result)
    (h : runJob dry w j = (ev, .ok r)) :
    (r.outcome = .pass ↔ Ended ev (.exited 0)) ∧
    (r.outcome = .crash ↔ ∃ n, Ended ev (.killed n)) ∧
    (r.outcome = .fail ↔ ∃ n, n ≠ 0 ∧ Ended ev (.exited n)) ∧
    (r.outcome = .notSupported ↔ ∀ e, ¬ Ended ev e) := by
  rcases C38_exact dry w j ha hd hw ev r h with ⟨_, h1, h2⟩ | ⟨_, e, _, h1, h2⟩ | ⟨_, h1, _⟩
  · simp [h1, h2]
  · rw [h2]
    simp only [h1]
    rcases e with (_ | n) | n
    · simp [Says]
    · simp [Says]
    · simp [Says]
  · exact absurd h1 hs

/-- **C38** `pass` is never said without reason, whatever happens. -/
theorem C38_pass_sound (dry : Bool) (w : World) (j : Job) (ha : Automatic j) (hd : Active dry j)
    (hw : ∀ e, w.launch = .ended e → e.Valid) (ev : List Event) (r : Result)
    (h : runJob dry w j = (ev, .ok r)) (hp : r.outcome = .pass) : Ended ev (.exited 0) := by
  rcases C38_exact dry w j ha hd hw ev r h with ⟨_, _, h2⟩ | ⟨_, e, _, h1, h2⟩ | ⟨_, _, _, h2⟩
  · rw [hp] at h2; cases h2
  · rw [h1]
    rw [hp] at h2
    rcases e with (_ | n) | n
    · rfl
    · cases h2
    · cases h2
  · rw [hp] at h2; cases h2

/-- A shell job. -/
def demoJob : Job := ⟨"ns::job".toList, some "shell".toList, [], some "true".toList⟩

/-- Ordinary circumstances. -/
def demoWorld (l : Launch) : World := ⟨"/logs".toList, true, false, l, false, false, .nothing, none, false⟩

/-- **C38** does not hold: when starting the program fails for lack of permission the outcome is
`crash`, although no program was executed. -/
theorem C38_crash_violated : ∃ w j ev r, Automatic j ∧ runJob false w j = (ev, .ok r) ∧
    r.outcome = .crash ∧ ∀ e, ¬ Ended ev e :=
  ⟨demoWorld .permission, demoJob, [.opened ⟨"/logs".toList, "ns__job.record.gz".toList⟩,
    .opened ⟨"/logs".toList, "ns__job.stdout".toList⟩, .opened ⟨"/logs".toList, "ns__job.stderr".toList⟩],
    ⟨.crash, some (-1), some ⟨"/logs".toList, "ns__job.record.gz".toList⟩⟩, .inl rfl,
    by decide +kernel, rfl, by simp [Ended]⟩

/-- The same for any job and circumstances: a `PermissionError` is reported as `crash`. -/
theorem C38_permission (dry : Bool) (w : World) (j : Job) (ha : Automatic j) (hd : Active dry j)
    (hs : w.supported = true) (ht : w.noTemp = false) (hc : j.command ≠ none)
    (hl : w.launch = .permission) :
    ∃ ev r, runJob dry w j = (ev, .ok r) ∧ r.outcome = .crash ∧ ∀ e, ¬ Ended ev e := by
  rw [runJob_automatic dry w j ha hd]
  refine ⟨[.opened (recordPath w.dir j), .opened (stdoutPath w.dir j), .opened (stderrPath w.dir j)],
    ⟨.crash, some (-1), some (recordPath w.dir j)⟩, ?_, rfl, by simp [Ended]⟩
  simp [justRunCommand, hs, runCommand, hc, executeJob, temporaryCwd, ht, execBody, hl]

/-- **C38**, dry runs: nothing is executed and no file is opened, except for resource and attachment
jobs; jobs of a known kind are skipped. -/
theorem C38_dry (w : World) (j : Job) (h1 : j.plugin ≠ some "resource".toList)
    (h2 : j.plugin ≠ some "attachment".toList) :
    (runJob true w j).1 = [] ∧ (∀ m : Method, j.plugin = some m.plugin →
      runJob true w j = ([], .ok ⟨.skip, none, none⟩)) := by
  have key : ∀ p, j.plugin = some p → p ∉ dryRunPlugins := by
    intro p hp hm
    simp only [dryRunPlugins, List.mem_cons, List.not_mem_nil, or_false] at hm
    rcases hm with rfl | rfl
    · exact h1 hp
    · exact h2 hp
  constructor
  · unfold runJob
    cases hp : j.plugin with
    | none => rfl
    | some p =>
      simp only
      split
      · rfl
      · rw [if_pos ⟨trivial, key p hp⟩]
  · intro m hm
    rw [runJob_method true w j m hm, if_pos ⟨rfl, key _ hm⟩]

/-- **C38**, dry runs: resource and attachment jobs run as they do otherwise. -/
theorem C38_dry_runs (w : World) (j : Job) (h : j.plugin = some "resource".toList ∨
    j.plugin = some "attachment".toList) : runJob true w j = runJob false w j := by
  rcases h with h | h
  · rw [runJob_method true w j .resource h, runJob_method false w j .resource h,
      if_neg (active_plugin true j .resource h (.inr (.inl h))), if_neg (by simp)]
  · rw [runJob_method true w j .attachment h, runJob_method false w j .attachment h,
      if_neg (active_plugin true j .attachment h (.inr (.inr h))), if_neg (by simp)]

/-- Jobs a person has to decide about. -/
def NeedsPerson (j : Job) : Prop :=
  j.plugin = some "manual".toList ∨ j.plugin = some "user-verify".toList ∨
    j.plugin = some "user-interact-verify".toList

/-- **C38**: jobs that need verification come back undecided, whatever their command did; manual jobs
execute nothing. -/
theorem C38_undecided (w : World) (j : Job) (hj : NeedsPerson j) (ev : List Event) (r : Result)
    (h : runJob false w j = (ev, .ok r)) :
    r.outcome = .undecided ∧ (j.plugin = some "manual".toList → ev = []) := by
  have hv : ∀ m : Method, j.plugin = some m.plugin → m.run w j = runVerify w j →
      r.outcome = .undecided := by
    intro m hm hrun
    rw [runJob_method false w j m hm, if_neg (by simp), hrun] at h
    unfold runVerify at h
    split at h
    · cases h
    · cases h; rfl
  rcases hj with hj | hj | hj
  · rw [runJob_method false w j .manual hj, if_neg (by simp), Method.run,
      if_neg (fun hh => hh hj)] at h
    cases h
    exact ⟨rfl, fun _ => rfl⟩
  · refine ⟨hv .userVerify hj (by rw [Method.run, if_neg (fun hh => hh hj)]), fun hm => ?_⟩
    rw [hj] at hm
    exact absurd (plugin_inj .userVerify .manual (Option.some.inj hm)) (by decide)
  · refine ⟨hv .userInteractVerify hj (by rw [Method.run, if_neg (fun hh => hh hj)]), fun hm => ?_⟩
    rw [hj] at hm
    exact absurd (plugin_inj .userInteractVerify .manual (Option.some.inj hm)) (by decide)

/-- **C38**: kinds of jobs the runner does not know are reported as not implemented, without doing
anything, in every mode. -/
theorem C38_unknown (dry : Bool) (w : World) (j : Job) (p : Str) (hp : j.plugin = some p)
    (hu : ∀ m : Method, (m.plugin.map fun c => if c = '-' then '_' else c) ≠
      p.map fun c => if c = '-' then '_' else c) :
    runJob dry w j = ([], .ok ⟨.notImplemented, none, none⟩) := by
  have : methodOf (p.map fun c => if c = '-' then '_' else c) = none := by
    have hs := hu
    generalize (p.map fun c => if c = '-' then '_' else c) = q at hs
    unfold methodOf
    rw [if_neg (fun h => hs .shell (by rw [h]; decide)),
      if_neg (fun h => hs .attachment (by rw [h]; decide)),
      if_neg (fun h => hs .resource (by rw [h]; decide)),
      if_neg (fun h => hs .manual (by rw [h]; decide)),
      if_neg (fun h => hs .userInteract (by rw [h]; decide)),
      if_neg (fun h => hs .userVerify (by rw [h]; decide)),
      if_neg (fun h => hs .userInteractVerify (by rw [h]; decide)),
      if_neg (fun h => hs .qml (by rw [h]; decide))]
  simp only [runJob, hp, this]

/-- **C38**: a qml job passes only if its program exited with 0 and said so. -/
theorem C38_qml (w : World) (j : Job) (hj : j.plugin = some "qml".toList)
    (hw : ∀ e, w.launch = .ended e → e.Valid) (ev : List Event) (r : Result)
    (h : runJob false w j = (ev, .ok r)) :
    (w.supported = false ∧ r.outcome = .notSupported ∧ ev = []) ∨
    ∃ e, Ended ev e ∧ (r.outcome = .fail ∧ (e ≠ .exited 0 ∨ w.report = .nothing) ∨
      e = .exited 0 ∧ w.report = .outcome r.outcome) := by
  rw [runJob_method false w j .qml hj, if_neg (by simp), Method.run, if_neg (fun hh => hh hj)] at h
  unfold runQml at h
  cases hs : w.supported with
  | false =>
    simp only [hs, Bool.not_false, if_true, Prod.mk.injEq, Except.ok.injEq] at h
    obtain ⟨h1, h2⟩ := h
    subst h2
    exact .inl ⟨rfl, rfl, h1.symm⟩
  | true =>
    right
    simp only [hs, Bool.not_true, Bool.false_eq_true, if_false] at h
    unfold executeWithResult executeJob temporaryCwd execBody at h
    cases ht : w.noTemp with
    | true => simp [ht] at h
    | false =>
      cases hl : w.launch with
      | permission => simp [ht, hl] at h
      | raised => cases hn : w.noCleanup <;> simp [ht, hl, hn] at h
      | ended e =>
        by_cases hi : "noreturn".toList ∈ j.flags ∧ w.interrupted = true
        · cases hn : w.noCleanup <;> simp only [ht, hl, if_pos hi, hn] at h <;> simp at h
        · simp only [ht, hl, if_neg hi, Bool.false_eq_true, if_false] at h
          have h1 := congrArg (·.1) h
          have h2 := congrArg (·.2) h
          simp only at h1 h2
          refine ⟨e, by rw [← h1]; simp [Ended], ?_⟩
          by_cases hz : e.returncode = 0
          · have he : e = .exited 0 := by
              cases e with
              | exited n => simp only [Wait.returncode] at hz; congr; omega
              | killed n =>
                have := hw _ hl
                simp only [Wait.Valid, Wait.returncode] at this hz
                omega
            rw [if_neg (fun hh => hh hz)] at h2
            cases hr : w.report with
            | nothing => simp only [hr, Except.ok.injEq] at h2; subst h2; exact .inl ⟨rfl, .inr rfl⟩
            | outcome o => simp only [hr, Except.ok.injEq] at h2; subst h2; exact .inr ⟨he, rfl⟩
            | noOutcome => simp [hr] at h2
            | notObject => simp [hr] at h2
          · rw [if_pos hz] at h2
            simp only [Except.ok.injEq] at h2
            subst h2
            exact .inl ⟨rfl, .inl fun he => hz (by rw [he]; rfl)⟩

example : ∃ ev r, runJob false (demoWorld (.ended (.exited 0))) demoJob = (ev, .ok r) ∧
    r.outcome = .pass := ⟨_, _, rfl, by decide +kernel⟩
example : ∃ ev r, runJob false (demoWorld (.ended (.exited 3))) demoJob = (ev, .ok r) ∧
    r.outcome = .fail := ⟨_, _, rfl, by decide +kernel⟩
example : ∃ ev r, runJob false (demoWorld (.ended (.killed 9))) demoJob = (ev, .ok r) ∧
    r.outcome = .crash ∧ Ended ev (.killed 9) := ⟨_, _, rfl, by decide +kernel, by
      show _ ∈ _; decide +kernel⟩
example : runJob true (demoWorld (.ended (.exited 0))) demoJob = ([], .ok ⟨.skip, none, none⟩) := by
  decide +kernel
example : ¬ Swallowed (demoWorld (.ended (.killed 9))) demoJob := by simp [Swallowed, demoWorld]

/-! ## C48 -/

/-- Letters and digits of ASCII, dash and dot, by their code points. -/
def Distinct (c : Char) : Prop :=
  (97 ≤ c.toNat ∧ c.toNat ≤ 122) ∨ (65 ≤ c.toNat ∧ c.toNat ≤ 90) ∨ (48 ≤ c.toNat ∧ c.toNat ≤ 57) ∨
    c.toNat = 45 ∨ c.toNat = 46

/-- Two characters that are the same in the names of log files. -/
def Alike (a b : Char) : Prop := a = b ∨ (¬ Distinct a ∧ ¬ Distinct b)

theorem slugChar_iff (c : Char) : slugChar c = true ↔ Distinct c ∨ c = '_' := by
  have e : ∀ d : Char, c = d ↔ c.toNat = d.toNat := fun d =>
    ⟨fun h => h ▸ rfl, fun h => Char.ext (UInt32.toNat_inj.1 h)⟩
  simp only [slugChar, Distinct, Bool.or_eq_true, Bool.and_eq_true, decide_eq_true_eq, e, Char.le_def,
    UInt32.le_iff_toNat_le, ← Char.toNat_val]
  have h1 : ('-'.toNat) = 45 := rfl
  have h2 : ('_'.toNat) = 95 := rfl
  have h3 : ('.'.toNat) = 46 := rfl
  have h4 : ('a'.toNat) = 97 := rfl
  have h5 : ('z'.toNat) = 122 := rfl
  have h6 : ('A'.toNat) = 65 := rfl
  have h7 : ('Z'.toNat) = 90 := rfl
  have h8 : ('0'.toNat) = 48 := rfl
  have h9 : ('9'.toNat) = 57 := rfl
  simp only [Char.toNat_val, h1, h2, h3, h4, h5, h6, h7, h8, h9]
  omega

theorem slug_char (a b : Char) :
    ((if slugChar a then a else '_') = if slugChar b then b else '_') ↔ Alike a b := by
  have hu : ¬ Distinct '_' := by unfold Distinct; decide
  have ha := slugChar_iff a
  have hb := slugChar_iff b
  unfold Alike
  by_cases h1 : Distinct a <;> by_cases h2 : Distinct b
  · simp [h1, h2, ha.2 (.inl h1), hb.2 (.inl h2)]
  · have : (if slugChar b then b else '_') = '_' := by
      split
      · rename_i h; exact ((hb.1 h).resolve_left h2)
      · rfl
    rw [this, if_pos (ha.2 (.inl h1))]
    constructor
    · rintro rfl; exact absurd h1 hu
    · rintro (rfl | ⟨h, _⟩)
      · exact absurd h1 h2
      · exact absurd h1 h
  · have : (if slugChar a then a else '_') = '_' := by
      split
      · rename_i h; exact ((ha.1 h).resolve_left h1)
      · rfl
    rw [this, if_pos (hb.2 (.inl h2))]
    constructor
    · rintro rfl; exact absurd h2 hu
    · rintro (rfl | ⟨_, h⟩)
      · exact absurd h2 h1
      · exact absurd h2 h
  · have h3 : (if slugChar a then a else '_') = '_' := by
      split
      · rename_i h; exact ((ha.1 h).resolve_left h1)
      · rfl
    have h4 : (if slugChar b then b else '_') = '_' := by
      split
      · rename_i h; exact ((hb.1 h).resolve_left h2)
      · rfl
    rw [h3, h4]
    simp [h1, h2]

/-- **C48**, exactly: two job ids share their log files iff they have the same length and are alike
at every place. -/
theorem C48_collision (a b : Str) : slugify a = slugify b ↔
    a.length = b.length ∧ ∀ p ∈ a.zip b, Alike p.1 p.2 := by
  induction a generalizing b with
  | nil => cases b <;> simp [slugify]
  | cons x xs ih =>
    cases b with
    | nil => simp [slugify]
    | cons y ys =>
      have := ih ys
      simp only [slugify, List.map_cons, List.cons.injEq, slug_char, List.length_cons,
        Nat.add_right_cancel_iff, List.zip_cons_cons, List.mem_cons, forall_eq_or_imp] at this ⊢
      rw [this]
      constructor
      · rintro ⟨h1, h2, h3⟩; exact ⟨h2, h1, h3⟩
      · rintro ⟨h2, h1, h3⟩; exact ⟨h1, h2, h3⟩

/-- The files a run writes to. -/
theorem runJob_files (dry : Bool) (w : World) (j : Job) (f : File)
    (h : .opened f ∈ (runJob dry w j).1) :
    f = recordPath w.dir j ∨ f = stdoutPath w.dir j ∨ f = stderrPath w.dir j := by
  have hex : ∀ f, .opened f ∈ (executeJob w j).1 → f = stdoutPath w.dir j ∨ f = stderrPath w.dir j := by
    intro f hf
    unfold executeJob temporaryCwd at hf
    split at hf
    · simp at hf
    · unfold execBody at hf
      cases hl : w.launch <;> simp only [hl] at hf
      · split at hf <;> (rename_i heq; rw [← congrArg Prod.fst heq] at hf; simpa using hf)
      · simpa using hf
      · simpa using hf
  have hjust : .opened f ∈ (justRunCommand w j).1 →
      f = recordPath w.dir j ∨ f = stdoutPath w.dir j ∨ f = stderrPath w.dir j := by
    intro hf
    unfold justRunCommand at hf
    split at hf
    · simp at hf
    · have hr : .opened f ∈ (runCommand w j).1 := by
        split at hf <;> (rename_i heq; rw [heq]; exact hf)
      unfold runCommand at hr
      split at hr
      · simp at hr
      · split at hr <;> (rename_i heq; simp only [List.mem_cons, Event.opened.injEq] at hr
                         rcases hr with hr | hr
                         · exact .inl hr
                         · exact .inr (hex f (by rw [heq]; exact hr)))
  unfold runJob at h
  split at h
  · simp at h
  · split at h
    · simp at h
    · split at h
      · simp at h
      · rename_i m _ _
        unfold Method.run at h
        split at h
        · simp at h
        · cases m with
          | shell => exact hjust h
          | attachment => exact hjust h
          | userInteract => exact hjust h
          | manual => simp at h
          | resource =>
            simp only [runResource] at h
            split at h
            · split at h
              · simp at h
              · split at h <;> (rename_i heq; exact hjust (by rw [heq]; exact h))
            · exact hjust h
          | userVerify =>
            simp only [runVerify] at h
            split at h <;> (rename_i heq; exact hjust (by rw [heq]; exact h))
          | userInteractVerify =>
            simp only [runVerify] at h
            split at h <;> (rename_i heq; exact hjust (by rw [heq]; exact h))
          | qml =>
            simp only [runQml] at h
            split at h
            · simp at h
            · have hq : .opened f ∈ Event.opened (recordPath w.dir j) :: (executeWithResult w j).1 := by
                split at h <;> (rename_i heq; rw [heq]; exact h)
              simp only [List.mem_cons, Event.opened.injEq] at hq
              rcases hq with hq | hq
              · exact .inl hq
              · refine .inr (hex f ?_)
                unfold executeWithResult at hq
                split at hq <;> (rename_i heq; rw [heq]; exact hq)

/-- The three suffixes tell the files of different kinds apart. -/
theorem suffix_inj (a b s t : Str) (hs : s ∈ [".record.gz".toList, ".stdout".toList, ".stderr".toList])
    (ht : t ∈ [".record.gz".toList, ".stdout".toList, ".stderr".toList]) (h : a ++ s = b ++ t) :
    a = b := by
  have key : ∀ x ∈ [".record.gz".toList, ".stdout".toList, ".stderr".toList],
      ∀ y ∈ [".record.gz".toList, ".stdout".toList, ".stderr".toList],
        (x.reverse.take 2 = y.reverse.take 2) → x = y := by decide +kernel
  have hlen : ∀ x ∈ [".record.gz".toList, ".stdout".toList, ".stderr".toList], 2 ≤ x.reverse.length := by
    decide +kernel
  have h2 := congrArg (fun l => l.reverse.take 2) h
  simp only [List.reverse_append] at h2
  rw [List.take_append_of_le_length (hlen s hs), List.take_append_of_le_length (hlen t ht)] at h2
  have := key s hs t ht h2
  subst this
  exact List.append_cancel_right h

/-- **C48**, what holds: two jobs whose ids are not alike (in particular ids that differ in a letter,
digit, dash or dot, or in length) never write to the same file, whatever the mode and circumstances.
(Full statement: the same for all pairs of different ids.) -/
theorem C48_partial (dry : Bool) (w w' : World) (j j' : Job)
    (hdiff : ¬ (j.id.length = j'.id.length ∧ ∀ p ∈ j.id.zip j'.id, Alike p.1 p.2)) (f : File)
    (h : .opened f ∈ (runJob dry w j).1) : .opened f ∉ (runJob dry w' j').1 := by
  intro h'
  rw [← C48_collision] at hdiff
  apply hdiff
  have key : ∀ (w : World) (j : Job), .opened f ∈ (runJob dry w j).1 →
      ∃ s ∈ [".record.gz".toList, ".stdout".toList, ".stderr".toList], f.name = slugify j.id ++ s := by
    intro w j hf
    rcases runJob_files dry w j f hf with rfl | rfl | rfl
    · exact ⟨_, by simp, rfl⟩
    · exact ⟨_, List.mem_cons_of_mem _ List.mem_cons_self, rfl⟩
    · exact ⟨_, List.mem_cons_of_mem _ (List.mem_cons_of_mem _ List.mem_cons_self), rfl⟩
  obtain ⟨s, hs, e⟩ := key w j h
  obtain ⟨t, ht, e'⟩ := key w' j' h'
  exact suffix_inj _ _ s t hs ht (e ▸ e')

/-- **C48**: log files stay in their directory: their names contain no slash. -/
theorem C48_inside (dry : Bool) (w : World) (j : Job) (f : File)
    (h : .opened f ∈ (runJob dry w j).1) : f.dir = w.dir ∧ '/' ∉ f.name := by
  have hs : '/' ∉ slugify j.id := by
    intro hm
    obtain ⟨c, _, hc⟩ := List.mem_map.1 hm
    split at hc
    · subst hc; rename_i h; revert h; decide
    · revert hc; decide
  rcases runJob_files dry w j f h with rfl | rfl | rfl
  · exact ⟨rfl, by simp only [recordPath, List.mem_append, hs, false_or]; decide⟩
  · exact ⟨rfl, by simp only [stdoutPath, List.mem_append, hs, false_or]; decide⟩
  · exact ⟨rfl, by simp only [stderrPath, List.mem_append, hs, false_or]; decide⟩

/-- **C48** does not hold: the jobs `disk/read` and `disk_read` of a namespace write to the same
files. -/
theorem C48_violated : ∃ w j j' f, j.id ≠ j'.id ∧ .opened f ∈ (runJob false w j).1 ∧
    .opened f ∈ (runJob false w j').1 :=
  ⟨demoWorld (.ended (.exited 0)), { demoJob with id := "ns::disk/read".toList },
    { demoJob with id := "ns::disk_read".toList }, ⟨"/logs".toList, "ns__disk_read.record.gz".toList⟩,
    by decide +kernel, by decide +kernel, by decide +kernel⟩

example : ¬ (("ns::a".toList).length = ("ns::b".toList).length ∧
    ∀ p ∈ ("ns::a".toList).zip "ns::b".toList, Alike p.1 p.2) := by
  rw [← C48_collision]; decide +kernel

end Verif.Runner
