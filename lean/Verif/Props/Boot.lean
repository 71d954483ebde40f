import Verif.Model.Boot
import Verif.Props.Restart

/-! # C151: when the application is started at the next boot -/

namespace Verif.Boot

/-- What there should be for the application of a process: a file with the command just while a job runs that asks for it. -/
def Due (w : World) : Prop := ∀ p, w.proc = some p → p.strategy = true →
  match p.phase with
  | .running true => ∃ args, p.command = some args ∧ w.files p.app = some (Restart.restartCmd args)
  | .fresh => True
  | _ => w.files p.app = none

/-- The steps of a process that resumed a session, without exceptions in `run_job`. -/
def Plain : Step → Prop
  | .start _ | .finish | .off => True
  | _ => False

theorem step_due {w w' : World} {s : Step} (hs : Plain s) (h : step w s = some w') (hw : Due w) : Due w' := by
  obtain ⟨files, proc⟩ := w
  intro q hq hst
  cases s with
  | launch => exact absurd hs (by simp [Plain])
  | new => exact absurd hs (by simp [Plain])
  | resume => exact absurd hs (by simp [Plain])
  | fail => exact absurd hs (by simp [Plain])
  | off => simp only [step, Option.some.injEq] at h; subst h; cases hq
  | start a =>
    cases proc with
    | none => simp [step] at h
    | some p =>
      simp only [step] at h
      split at h
      · rename_i hp
        have hd := hw p rfl
        rw [hp] at hd
        split at h
        · rename_i hsa
          rw [Bool.and_eq_true] at hsa
          split at h
          · rename_i args ha
            cases h
            cases hq
            dsimp only
            rw [hsa.2]
            exact ⟨args, ha, by simp [put]⟩
          · cases h
            cases hq
            rw [hp]
            exact hd hst
        · rename_i hsa
          cases h
          cases hq
          have : a = false := by
            cases a with
            | false => rfl
            | true => rw [show p.strategy = true from hst] at hsa; simp at hsa
          rw [this]
          exact hd hst
      · cases h
  | finish =>
    cases proc with
    | none => simp [step] at h
    | some p =>
      simp only [step] at h
      split at h
      · rename_i a hp
        have hd := hw p rfl
        rw [hp] at hd
        cases h
        cases hq
        dsimp only
        have hst' : p.strategy = true := hst
        cases a with
        | true => simp [hst', put]
        | false =>
          simp only [Bool.and_false, Bool.false_eq_true, if_false]
          exact hd hst
      · cases h

theorem steps_due : ∀ (l : List Step) {w w' : World}, (∀ s ∈ l, Plain s) → steps w l = some w' → Due w → Due w'
  | [], w, w', _, h, hw => by cases h; exact hw
  | s :: l, w, w', hl, h, hw => by
    rw [steps] at h
    split at h
    · rename_i w1 h1
      exact steps_due l (fun s hs => hl s (List.mem_cons_of_mem _ hs)) h (step_due (hl s (List.mem_cons_self ..)) h1 hw)
    · cases h

theorem resume_due {w w' : World} (h : step w .resume = some w') : Due w' := by
  intro q hq hst
  simp only [step] at h
  split at h
  · split at h
    · cases h
      cases hq
      have hst' := hst
      dsimp only at hst' ⊢
      rw [if_pos hst']
      simp [put]
    · cases h
  · cases h

theorem due_after (w w' : World) (l : List Step) (hd : Due w) (hf : ∀ p, w.proc = some p → p.phase ≠ .fresh) (hl : ∀ s ∈ l, Plain s)
    (h : steps w l = some w') (p : Proc) (hp : w'.proc = some p) (hs : p.strategy = true) :
    (p.phase = .running true → ∃ args c, p.command = some args ∧ w'.files p.app = some c ∧ Restart.split c = some args) ∧
    (p.phase ≠ .running true → w'.files p.app = none) := by
  have hd := steps_due l hl h hd p hp hs
  constructor
  · intro hph
    rw [hph] at hd
    obtain ⟨args, h1, h2⟩ := hd
    exact ⟨args, _, h1, h2, Restart.C52_quote args⟩
  · intro hph
    have hnf : p.phase ≠ .fresh := by
      have key : ∀ (l : List Step) (w w' : World), (∀ s ∈ l, Plain s) → (∀ p, w.proc = some p → p.phase ≠ .fresh) →
          steps w l = some w' → ∀ p, w'.proc = some p → p.phase ≠ .fresh := by
        intro l
        induction l with
        | nil => intro w w' _ hw h p hp; cases h; exact hw p hp
        | cons s l ih =>
          intro w w' hl hw h p hp
          rw [steps] at h
          split at h
          · rename_i w1 h1
            refine ih w1 w' (fun s hs => hl s (List.mem_cons_of_mem _ hs)) (fun q hq => ?_) h p hp
            have hps := hl s (List.mem_cons_self ..)
            cases s with
            | launch => exact absurd hps (by simp [Plain])
            | new => exact absurd hps (by simp [Plain])
            | resume => exact absurd hps (by simp [Plain])
            | fail => exact absurd hps (by simp [Plain])
            | off => simp only [step, Option.some.injEq] at h1; subst h1; cases hq
            | start a =>
              simp only [step] at h1
              repeat' split at h1
              all_goals first
                | (cases h1; cases hq; simp; done)
                | (cases h1; exact hw q hq)
                | cases h1
            | finish =>
              simp only [step] at h1
              repeat' split at h1
              all_goals first
                | (cases h1; cases hq; simp; done)
                | cases h1
          · cases h
      exact key l w w' hl hf h p hp
    cases hph' : p.phase with
    | fresh => exact absurd hph' hnf
    | idle => rw [hph'] at hd; exact hd
    | running a =>
      rw [hph'] at hd hph
      cases a with
      | true => exact absurd rfl hph
      | false => exact hd

/-- **C151_once_partial**: after a session was resumed, for jobs that run one after the other without exceptions: the application is
started at the next boot just while a job runs that asks for it, with the command of the callback. -/
theorem C151_once_partial (w w' w'' : World) (l : List Step) (hr : step w .resume = some w') (hl : ∀ s ∈ l, Plain s)
    (h : steps w' l = some w'') (p : Proc) (hp : w''.proc = some p) (hs : p.strategy = true) :
    (p.phase = .running true → ∃ args c, p.command = some args ∧ w''.files p.app = some c ∧ Restart.split c = some args) ∧
    (p.phase ≠ .running true → w''.files p.app = none) := by
  refine due_after w' w'' l (resume_due hr) (fun q hq => ?_) hl h p hp hs
  simp only [step] at hr
  repeat' split at hr
  all_goals first
    | (cases hr; cases hq; simp; done)
    | cases hr

/-- **C151_new_partial**: the same after a new session was made, if the application was not to be started at boot before. -/
theorem C151_new_partial (w w' w'' : World) (l : List Step) (hr : step w .new = some w')
    (hn : ∀ p, w.proc = some p → w.files p.app = none) (hl : ∀ s ∈ l, Plain s)
    (h : steps w' l = some w'') (p : Proc) (hp : w''.proc = some p) (hs : p.strategy = true) :
    (p.phase = .running true → ∃ args c, p.command = some args ∧ w''.files p.app = some c ∧ Restart.split c = some args) ∧
    (p.phase ≠ .running true → w''.files p.app = none) := by
  simp only [step] at hr
  split at hr
  · rename_i q hq
    split at hr
    · cases hr
      refine due_after _ w'' l (fun r hr _ => ?_) (fun r hr => ?_) hl h p hp hs
      · cases hr
        exact hn q hq
      · cases hr
        simp
    · cases hr
  · cases hr

/-- Histories over any number of boots, without exceptions in `run_job`, where new sessions are made only by applications that are not
to be started at boot. -/
inductive History : World → Prop
  | init (files : Nat → Option Str) : History ⟨files, none⟩
  | launch {w w' : World} (app : Nat) (strategy : Bool) (command : Option (List Str)) :
      History w → step w (.launch app strategy command) = some w' → History w'
  | new {w w' : World} : History w → (∀ p, w.proc = some p → w.files p.app = none) → step w .new = some w' → History w'
  | resume {w w' : World} : History w → step w .resume = some w' → History w'
  | plain {w w' : World} (s : Step) : Plain s → History w → step w s = some w' → History w'

theorem history_due {w : World} (h : History w) : Due w := by
  induction h with
  | init files => intro p hp; cases hp
  | launch app strategy command _ h _ =>
    intro p hp _
    simp only [step] at h
    split at h
    · cases h
      cases hp
      trivial
    · cases h
  | new _ hn h _ =>
    intro p hp _
    simp only [step] at h
    split at h
    · rename_i q hq
      split at h
      · cases h
        cases hp
        exact hn q hq
      · cases h
    · cases h
  | resume _ h _ => exact resume_due h
  | plain s hs _ h ih => exact step_due hs h ih

/-- **C151_boots_partial**: over any number of boots, while an application has a session: it is started at the next boot just while a
job runs that asks for it, with the command of the callback. -/
theorem C151_boots_partial (w : World) (h : History w) (p : Proc) (hp : w.proc = some p) (hs : p.strategy = true)
    (hf : p.phase ≠ .fresh) :
    (p.phase = .running true → ∃ args c, p.command = some args ∧ w.files p.app = some c ∧ Restart.split c = some args) ∧
    (p.phase ≠ .running true → w.files p.app = none) :=
  due_after w w [] (history_due h) (fun q hq => by rw [hp] at hq; cases hq; exact hf) (fun _ hx => absurd hx (by simp)) rfl p hp hs

example : ∃ w, History w ∧ w.proc.map (·.phase) = some (.running true) ∧ w.files 3 = some "'a b'".toList ∧ w.files 4 = none :=
  ⟨_, .plain (.start true) trivial (.resume (.launch 3 true (some ["a b".toList]) (.plain .off trivial (.plain (.start true) trivial
    (.new (.launch 3 true (some ["a b".toList]) (.init fun _ => none) rfl) (fun _ _ => rfl) rfl) rfl) rfl) rfl) rfl) rfl, rfl, rfl, rfl⟩

/-- **C151_interrupted**: if the machine is turned off while a job runs that asks for it, the application is started at the next
boot; when it then resumes the session, it is not started again at the boot after that. -/
theorem C151_interrupted (w w1 w2 w3 w4 : World) (p q : Proc) (hp : w.proc = some p) (hs : p.strategy = true)
    (h1 : step w (.start true) = some w1) (hn : p.command.isSome) (h2 : step w1 .off = some w2)
    (h3 : step w2 (.launch p.app q.strategy q.command) = some w3) (hq : q.strategy = true) (h4 : step w3 .resume = some w4) :
    (w2.files p.app).isSome ∧ w4.files p.app = none := by
  obtain ⟨args, ha⟩ := Option.isSome_iff_exists.mp hn
  simp only [step, hp, hs, ha, Bool.true_and, if_true] at h1
  split at h1
  · cases h1
    simp only [step, Option.some.injEq] at h2
    subst h2
    simp only [step, Option.some.injEq] at h3
    subst h3
    simp only [step, if_true, hq, Option.some.injEq] at h4
    subst h4
    simp [put]
  · cases h1

/-- **C151_others**: whether other applications are started never changes. -/
theorem C151_others (w w' : World) (s : Step) (h : step w s = some w') (a : Nat) (ha : ∀ p, w.proc = some p → p.app ≠ a) :
    w'.files a = w.files a := by
  have hne : ∀ p, w.proc = some p → ∀ c, put w.files p.app c a = w.files a := by
    intro p hp c
    simp [put, Ne.symm (ha p hp)]
  cases s <;> simp only [step] at h
  all_goals repeat' split at h
  all_goals first
    | (cases h; done)
    | (cases h; rfl)
    | (cases h; exact hne _ (by assumption) _)

/-- **C151_files**: with the XDG strategy applications are started independently: what one does leaves the files of others. -/
theorem C151_files (w w' : World) (s : Step) (h : step w s = some w') (a b : Nat) (hab : a ≠ b)
    (hp : ∀ p, w.proc = some p → p.app = fileOf false b) : w'.files (fileOf false a) = w.files (fileOf false a) :=
  C151_others w w' s h _ fun p hq he => hab (by have := (hp p hq).symm.trans he; simp [fileOf] at this; exact this.symm)

example : ((step ⟨fun _ => some "old".toList, some ⟨fileOf false 7, true, none, .fresh⟩⟩ .resume).map fun w =>
    (w.files (fileOf false 7), w.files (fileOf false 8))) = some (none, some "old".toList) := rfl

/-- **C151_snappy_violated**: with the Snappy strategy, an application that was interrupted is not started at boot after any other
application resumed a session. -/
theorem C151_snappy_violated (a b : Nat) (c d : List Str) : ∃ w w', steps ⟨fun _ => none, none⟩ [.launch (fileOf true a) true (some c),
    .resume, .start true, .off] = some w ∧ (w.files (fileOf true a)).isSome ∧
    steps w [.launch (fileOf true b) true (some d), .resume] = some w' ∧ w'.files (fileOf true a) = none :=
  ⟨_, _, rfl, rfl, rfl, rfl⟩

/-- **C151_new_violated**: the application was started at boot, and starts a new session instead: it is started at all further boots. -/
theorem C151_new_violated : ∃ (w w' : World) (c : List Str), w.files = (fun _ => none) ∧
    steps w [.launch 0 true (some c), .new, .start true, .off, .launch 0 true (some c), .new, .start false, .finish, .off] = some w' ∧
    (w'.files 0).isSome :=
  ⟨⟨fun _ => none, none⟩, _, ["app".toList], rfl, rfl, rfl⟩

/-- **C151_fail_violated**: `run_job` ends with an exception: no job runs, and the application is started at the next boot. -/
theorem C151_fail_violated : ∃ (w w' : World) (c : List Str), w.files = (fun _ => none) ∧
    steps w [.launch 0 true (some c), .resume, .start true, .fail, .start false, .finish, .off] = some w' ∧ (w'.files 0).isSome :=
  ⟨⟨fun _ => none, none⟩, _, ["app".toList], rfl, rfl, rfl⟩

/-- **C151_callback_violated**: with a strategy of its own and no callback, an application cannot run jobs that ask to be started
again: the call raises, and nothing runs. -/
theorem C151_callback_violated (w : World) (p : Proc) (hp : w.proc = some p) (hi : p.phase = .idle) (hs : p.strategy = true)
    (hc : p.command = none) : step w (.start true) = some w := by
  simp [step, hp, hi, hs, hc]

-- a new session on a machine where nothing is set up
example : (steps ⟨fun _ => none, none⟩ [.launch 3 true (some ["a b".toList]), .new, .start false, .finish, .start true]).bind
    (fun w => w.files 3) = some "'a b'".toList := rfl
-- a job that restarts the machine, after the session was resumed; then one that does not ask for it
example : (steps ⟨fun _ => some "old".toList, none⟩ [.launch 3 true (some ["my app".toList, "--resume".toList]), .resume,
    .start true]).bind (fun w => w.files 3) = some "'my app' --resume".toList := rfl
example : (steps ⟨fun _ => some "old".toList, none⟩ [.launch 3 true (some ["my app".toList]), .resume, .start true, .finish,
    .start false]).map (fun w => (w.files 3, w.files 4)) = some (none, some "old".toList) := rfl
example : (steps ⟨fun _ => none, none⟩ [.launch 3 true (some ["a".toList]), .resume, .start true, .off,
    .launch 3 true (some ["a".toList]), .resume]).map (fun w => w.files 3) = some none := rfl
example : ∃ w, (step ⟨fun _ => none, some ⟨3, true, none, .idle⟩⟩ (.start true)) = some w ∧
    w.proc = some ⟨3, true, none, .idle⟩ := ⟨_, rfl, rfl⟩

end Verif.Boot
