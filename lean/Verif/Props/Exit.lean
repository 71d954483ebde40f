import Verif.Model.Exit
import Verif.Props.Runner

/-! # C94: what the exit status of a command tells -/

namespace Verif.Exit

open Verif.Runner (Wait World Job Event Result Automatic Active Swallowed)

/-! ## Specification -/

/-- What `wait` can say: statuses are bytes, signals have numbers from 1 to 127. -/
def Proper : Wait → Prop
  | .exited n => n < 256
  | .killed n => 0 < n ∧ n < 128

/-- The program did not fail. -/
def Succeeded (w : Wait) : Prop := w = .exited 0

/-- A command says by these that it did what it was asked to do. -/
def Fine : Out → Prop
  | .ok .none | .ok (.int 0) | .error (.systemExit .none) | .error (.systemExit (.int 0)) => True
  | _ => False

/-- Return values that a process can have as an exit status, or minus the number of a signal. -/
def Small : Out → Prop
  | .ok (.int n) | .error (.systemExit (.int n)) => -256 < n ∧ n < 256
  | _ => True

/-- The command was interrupted, or what reads its output has gone. -/
def Disturbed : Out → Prop
  | .error .keyboardInterrupt | .error (.ioError true) => True
  | _ => False

/-- How the end of a program appears when a tool returns it: the status, or 256 minus the number of the signal. -/
def passedOn : Wait → Wait
  | .exited n => .exited n
  | .killed n => .exited (256 - n)

/-! ## Lemmas -/

theorem sysExit_code {w : Wait} (h : Proper w) : sysExit (.int w.returncode) = passedOn w := by
  cases w with
  | exited n =>
    simp only [Proper] at h
    simp only [sysExit, Wait.returncode, passedOn, Wait.exited.injEq]
    omega
  | killed n =>
    simp only [Proper] at h
    simp only [sysExit, Wait.returncode, passedOn, Wait.exited.injEq]
    omega

theorem passedOn_zero {w : Wait} (h : Proper w) : Succeeded (passedOn w) ↔ Succeeded w := by
  cases w with
  | exited n => rfl
  | killed n =>
    simp only [Proper] at h
    simp only [Succeeded, passedOn, Wait.exited.injEq, reduceCtorEq, iff_false]
    omega

theorem sysExit_zero (v : Value) : Succeeded (sysExit v) ↔ v = .none ∨ ∃ n, v = .int n ∧ (256 : Int) ∣ n := by
  cases v with
  | none => simp [Succeeded, sysExit]
  | other => simp [Succeeded, sysExit]
  | int n =>
    simp only [Succeeded, sysExit, Wait.exited.injEq, reduceCtorEq, Value.int.injEq, false_or, exists_eq_left']
    omega

/-! ## Tools -/

/-- **C94, part 1.** The exit status of a tool is zero in just these cases. -/
theorem C94_zero (init : Except Exc Ns) (command : Option Out) :
    Succeeded (status init command) ↔
      init = .error .keyboardInterrupt ∨
      (∃ v, init = .error (.systemExit v) ∧ Succeeded (sysExit v)) ∨
      ∃ ns o, init = .ok ns ∧ command = some o ∧
        ((∃ v, (o = .ok v ∨ o = .error (.systemExit v)) ∧ (v = .none ∨ ∃ n, v = .int n ∧ (256 : Int) ∣ n)) ∨
          o = .error (.ioError true) ∨ o = .error .keyboardInterrupt ∧ ns.debugInterrupt = false) := by
  unfold status
  cases init with
  | error e =>
    cases e <;> simp [main, interpreter, Succeeded, sysExit]
  | ok ns =>
    cases command with
    | none => simp [main, dispatch, dispatchCommand, interpreter, Succeeded, sysExit]
    | some o =>
      obtain ⟨p, d⟩ := ns
      rcases o with (v | b | - | -) | v
      · simp [main, dispatch, dispatchCommand, interpreter, sysExit_zero]
      · cases b <;> simp [main, dispatch, dispatchCommand, interpreter, action, Succeeded, sysExit]
      · cases d <;> simp [main, dispatch, dispatchCommand, interpreter, action, Succeeded, sysExit]
      · cases p <;> simp [main, dispatch, dispatchCommand, interpreter, action, Succeeded, sysExit]
      · simp [main, dispatch, dispatchCommand, interpreter, sysExit_zero]

/-- **C94, part 2.** Unless it was disturbed, the exit status of a command is zero just when it says that it did what it
was asked to do. (Otherwise see `C94_interrupted_violated` and `C94_pipe_violated`.) -/
theorem C94_tool_partial (ns : Ns) (o : Out) (hs : Small o) (hd : ¬ Disturbed o) :
    Succeeded (status (.ok ns) (some o)) ↔ Fine o := by
  rw [C94_zero]
  have small : ∀ n : Int, (-256 < n ∧ n < 256) → ((256 : Int) ∣ n ↔ n = 0) := by intro n; omega
  rcases o with (v | b | - | -) | v
  · cases v with
    | int n =>
      have := small n hs
      by_cases h : n = 0
      · subst h; simp [Fine]
      · simp only [Fine]
        simp [this, h]
    | _ => simp [Fine]
  · cases b
    · simp [Fine]
    · exact absurd trivial hd
  · exact absurd trivial hd
  · simp [Fine]
  · cases v with
    | int n =>
      have := small n hs
      by_cases h : n = 0
      · subst h; simp [Fine]
      · simp only [Fine]
        simp [this, h]
    | _ => simp [Fine]

/-- Without a command the status is that of a usage error, as it is for other errors of the command line. -/
theorem C94_usage (ns : Ns) : status (.ok ns) none = .exited 2 := rfl

/-! ## Commands that run programs -/

/-- **C94, part 3.** `manage.py build` and `clean` end as the program that they ran, and so with zero just when it did. -/
theorem C94_build (ns : Ns) (w : Wait) (h : Proper w) :
    status (.ok ns) (some (build (some ()) w)) = passedOn w ∧ status (.ok ns) (some (clean w)) = passedOn w ∧
      (Succeeded (passedOn w) ↔ Succeeded w) ∧ Succeeded (status (.ok ns) (some (build none w))) :=
  ⟨sysExit_code h, sysExit_code h, passedOn_zero h, rfl⟩

/-- **C94, part 4.** `plainbox script` ends as the command of the job: with zero just when there is such a job, it has a
command and that ended with zero. -/
theorem C94_script (ns : Ns) (job : Option (Option Unit)) (w : Wait) (h : Proper w) :
    (Succeeded (status (.ok ns) (some (script job (.ok w.returncode)))) ↔ job = some (some ()) ∧ Succeeded w) ∧
      (job = some (some ()) → status (.ok ns) (some (script job (.ok w.returncode))) = passedOn w) := by
  rcases job with _ | _ | ⟨⟩
  · simp [script, status, main, dispatch, dispatchCommand, interpreter, sysExit, Succeeded]
  · simp [script, status, main, dispatch, dispatchCommand, interpreter, sysExit, Succeeded]
  · have : status (.ok ns) (some (script (some (some ())) (.ok w.returncode))) = passedOn w := sysExit_code h
    refine ⟨?_, fun _ => this⟩
    rw [this, passedOn_zero h]
    simp

/-- **C94, part 5.** `manage.py develop` ends with zero just when there is a provider file afterwards and it was made by
it, or there is none and it was to be removed. -/
theorem C94_develop (ns : Ns) (uninstall force file : Bool) :
    Succeeded (status (.ok ns) (some (develop uninstall force file).1)) ↔
      if uninstall then (develop uninstall force file).2 = false
      else (develop uninstall force file).2 = true ∧ (file = false ∨ force = true) := by
  cases uninstall <;> cases force <;> cases file <;>
    simp [develop, status, main, dispatch, dispatchCommand, interpreter, sysExit, Succeeded]

/-- **C94, part 6.** The trusted launcher ends with zero just when it was asked to warm up, or all that it was asked to
run is known and succeeded. -/
theorem C94_launcher (r : Request) (ht : ∀ w, r.target = some w → Proper w)
    (hg : ∀ w, r.generator = some (some w) → Proper w) :
    Succeeded (interpreter (launcher r)) ↔
      r.warmup = true ∨ (∃ w, r.target = some w ∧ Succeeded w) ∧
        (r.generator = none ∨ ∃ w, r.generator = some (some w) ∧ Succeeded w) := by
  obtain ⟨wu, g, t⟩ := r
  simp only at ht hg
  have tgt : Succeeded (interpreter (launcher.target ⟨wu, g, t⟩)) ↔ ∃ w, t = some w ∧ Succeeded w := by
    cases t with
    | none => simp [launcher.target, interpreter, sysExit, Succeeded]
    | some w =>
      simp only [launcher.target, interpreter]
      rw [sysExit_code (ht w rfl), passedOn_zero (ht w rfl)]
      simp
  cases wu
  · rcases g with _ | _ | w
    · simp only [launcher, Bool.false_eq_true, if_false]
      rw [tgt]
      simp
    · simp [launcher, interpreter, sysExit, Succeeded]
    · simp only [launcher, Bool.false_eq_true, if_false]
      have hw : w.returncode = 0 ↔ Succeeded w := by
        have := hg w rfl
        cases w with
        | exited n =>
          simp only [Wait.returncode, Succeeded, Wait.exited.injEq]
          omega
        | killed n =>
          simp only [Proper] at this
          simp only [Wait.returncode, Succeeded, reduceCtorEq, iff_false]
          omega
      by_cases h : Succeeded w
      · rw [if_pos (hw.2 h), tgt]
        simp [h]
      · rw [if_neg (fun e => h (hw.1 e))]
        simp only [Succeeded] at h
        simp [interpreter, Succeeded, h]
  · simp [launcher, interpreter, sysExit, Succeeded]

/-- **C94, part 7.** A job that runs through the trusted launcher has passed just when its command ended with zero. -/
theorem C94_launched (dry : Bool) (w : World) (j : Job) (ha : Automatic j) (hd : Active dry j) (hs : ¬ Swallowed w j)
    (c : Wait) (hc : Proper c) (hl : w.launch = .ended (interpreter (launcher ⟨false, none, some c⟩)))
    (hsup : w.supported = true) (ev : List Event) (r : Result) (h : Runner.runJob dry w j = (ev, .ok r)) :
    r.outcome = .pass ↔ Succeeded c := by
  have hp : interpreter (launcher ⟨false, none, some c⟩) = passedOn c := sysExit_code hc
  rw [hp] at hl
  have hv : ∀ e, w.launch = .ended e → e.Valid := by
    intro e he
    rw [hl] at he
    cases he
    cases c <;> trivial
  rcases Runner.C38_exact dry w j ha hd hv ev r h with ⟨h0, -⟩ | ⟨-, e, he, -, ho⟩ | ⟨-, h1, -⟩
  · rw [hsup] at h0; cases h0
  · rw [hl] at he
    cases he
    rw [← passedOn_zero hc, ho]
    cases c with
    | exited n =>
      cases n <;> simp [passedOn, Runner.Says, Succeeded]
    | killed n =>
      simp only [Proper] at hc
      obtain ⟨k, hk⟩ : ∃ k, 256 - n = k + 1 := ⟨255 - n, by omega⟩
      simp [passedOn, hk, Runner.Says, Succeeded]
  · exact absurd h1 hs

/-! ## Examples -/

example : status (.ok ⟨false, false⟩) (some (build (some ()) (.exited 2))) = .exited 2 ∧
    status (.ok ⟨false, false⟩) (some (clean (.killed 15))) = .exited 241 := by decide +kernel

example : status (.ok ⟨false, false⟩) (some (script (some (some ())) (.ok (Wait.killed 9).returncode))) = .exited 247 ∧
    status (.ok ⟨false, false⟩) (some (script (some none) (.ok 0))) = .exited 125 := by decide +kernel

example : Small (.ok (.int 3)) ∧ ¬ Disturbed (.ok (.int 3)) ∧ ¬ Fine (.ok (.int 3)) := by
  simp [Small, Disturbed, Fine]

example : status (.ok ⟨true, false⟩) (some (.error .other)) = .exited 1 ∧
    (main (.ok ⟨true, false⟩) (some (.error .other))).2 = true := by decide +kernel

example : (develop false false true).1 = .ok (.int 1) ∧ (develop true false true).2 = false := by decide +kernel

example : interpreter (launcher ⟨false, some (some (.exited 0)), some (.exited 3)⟩) = .exited 3 ∧
    interpreter (launcher ⟨false, some (some (.exited 1)), some (.exited 0)⟩) = .exited 1 ∧
    interpreter (launcher ⟨false, none, none⟩) = .exited 1 := by decide +kernel

/-- **C94, part 8.** The debugger is started just when the command was interrupted and that was asked for, or when it ended with an
error that is not one of the operating system and that was asked for; the exit status is then one. -/
theorem C94_debugger_partial (init : Except Exc Ns) (command : Option Out) :
    ((main init command).2 = true ↔ ∃ ns, init = .ok ns ∧
      (command = some (.error .keyboardInterrupt) ∧ ns.debugInterrupt = true ∨ command = some (.error .other) ∧ ns.pdb = true)) ∧
    ((main init command).2 = true → status init command = .exited 1) := by
  unfold status
  rcases init with e | ⟨p, d⟩
  · cases e <;> simp [main]
  · rcases command with _ | (e | v)
    · simp [main, dispatch, dispatchCommand]
    · rcases e with v | b | _ | _
      · simp [main, dispatch, dispatchCommand]
      · cases b <;> simp [main, dispatch, dispatchCommand, action]
      · cases d <;> simp [main, dispatch, dispatchCommand, action, interpreter, sysExit]
      · cases p <;> simp [main, dispatch, dispatchCommand, action, interpreter, sysExit]
    · simp [main, dispatch, dispatchCommand]

example : main (.ok ⟨false, true⟩) (some (.error .keyboardInterrupt)) = (.ok (.int 1), true) ∧
    main (.ok ⟨true, false⟩) (some (.error .keyboardInterrupt)) = (.ok (.int 0), false) := by decide

/-! ## Where it fails -/

/-- A command that is interrupted ends with zero, whatever it was doing; also when it is interrupted before it starts. -/
theorem C94_interrupted_violated (pdb : Bool) (command : Option Out) :
    Succeeded (status (.ok ⟨pdb, false⟩) (some (.error .keyboardInterrupt))) ∧
      Succeeded (status (.error .keyboardInterrupt) command) := ⟨rfl, rfl⟩

/-- A command whose output nobody reads ends with zero, in the middle of what it was doing. -/
theorem C94_pipe_violated (ns : Ns) : Succeeded (status (.ok ns) (some (.error (.ioError true)))) := rfl

/-- The debugger that was asked for is not started for errors of the operating system. -/
theorem C94_pdb_violated (di : Bool) :
    (main (.ok ⟨true, di⟩) (some (.error (.ioError false)))).2 = false ∧
      (main (.ok ⟨true, di⟩) (some (.error .other))).2 = true := ⟨rfl, rfl⟩

/-- `manage.py i18n` ends with zero, no matter how the programs that it ran ended. -/
theorem C94_i18n_violated (ns : Ns) (ended : List Wait) : Succeeded (status (.ok ns) (some (i18n true ended))) := rfl

/-- But it does not without a domain. -/
theorem C94_i18n_domain (ns : Ns) (ended : List Wait) : ¬ Succeeded (status (.ok ns) (some (i18n false ended))) := by
  rw [show i18n false ended = .ok (.int 1) from rfl]
  cases ns
  unfold Succeeded
  decide +revert

/-- A command that ends with 126 cannot be told from a job that does not exist, nor 125 from one without a command. -/
theorem C94_script_violated (ns : Ns) (ran : Except Exc Int) :
    status (.ok ns) (some (script (some (some ())) (.ok (Wait.exited 126).returncode))) =
      status (.ok ns) (some (script none ran)) ∧
    status (.ok ns) (some (script (some (some ())) (.ok (Wait.exited 125).returncode))) =
      status (.ok ns) (some (script (some none) ran)) := ⟨rfl, rfl⟩

/-- A job that runs through the trusted launcher and whose command was killed by a signal has not crashed but failed. -/
theorem C94_killed_violated (dry : Bool) (w : World) (j : Job) (ha : Automatic j) (hd : Active dry j)
    (hs : ¬ Swallowed w j) (n : Nat) (hn : Proper (.killed n))
    (hl : w.launch = .ended (interpreter (launcher ⟨false, none, some (.killed n)⟩))) (hsup : w.supported = true)
    (ev : List Event) (r : Result) (h : Runner.runJob dry w j = (ev, .ok r)) : r.outcome = .fail := by
  have hp : interpreter (launcher ⟨false, none, some (.killed n)⟩) = passedOn (.killed n) := sysExit_code hn
  rw [hp] at hl
  have hv : ∀ e, w.launch = .ended e → e.Valid := by
    intro e he
    rw [hl] at he
    cases he
    trivial
  rcases Runner.C38_exact dry w j ha hd hv ev r h with ⟨h0, -⟩ | ⟨-, e, he, -, ho⟩ | ⟨-, h1, -⟩
  · rw [hsup] at h0; cases h0
  · rw [hl] at he
    cases he
    rw [ho]
    simp only [Proper] at hn
    obtain ⟨k, hk⟩ : ∃ k, 256 - n = k + 1 := ⟨255 - n, by omega⟩
    simp [passedOn, hk, Runner.Says]
  · exact absurd h1 hs

/-- The same command killed by the same signal, without and with the launcher. -/
example : ∃ ev ev' r r', Runner.runJob false (Runner.demoWorld (.ended (.killed 9))) Runner.demoJob = (ev, .ok r) ∧
    r.outcome = .crash ∧
    Runner.runJob false (Runner.demoWorld (.ended (interpreter (launcher ⟨false, none, some (.killed 9)⟩))))
      Runner.demoJob = (ev', .ok r') ∧ r'.outcome = .fail :=
  ⟨_, _, _, _, rfl, rfl, rfl, rfl⟩

end Verif.Exit
