import Verif.Model.WarmUp
import Verif.Props.Ctrl
import Mathlib.Data.List.Count
import Mathlib.Data.List.Nodup

/-!
# C124: passwords are asked for before the jobs are run

The specification does not use the model's loop: a function is *needed* by a list of jobs if the
controller chosen for one of them asks for it.
-/

namespace Verif.WarmUp

open Verif.Ctrl

/-- A job of the list needs the function. -/
def Needed {J C F : Type} (chosen : J → Except Exc C) (need : C → J → Option F) (jobs : List J) (f : F) :
    Prop :=
  ∃ j ∈ jobs, ∃ c, chosen j = .ok c ∧ need c j = some f

private theorem add_mem {J C F : Type} [DecidableEq F] (chosen : J → Except Exc C)
    (need : C → J → Option F) (l : List F) (j : J) (f : F) :
    f ∈ add chosen need l j ↔ f ∈ l ∨ ∃ c, chosen j = .ok c ∧ need c j = some f := by
  unfold add
  cases hc : chosen j with
  | error e => simp
  | ok c =>
    cases hn : need c j with
    | none => simp [hn]
    | some g =>
      simp only [Except.ok.injEq, exists_eq_left', hn, Option.some.injEq]
      split
      · constructor
        · exact .inl
        · rintro (h | rfl) <;> assumption
      · simp [eq_comm]

private theorem add_ext {J C F : Type} [DecidableEq F] (chosen : J → Except Exc C)
    (need : C → J → Option F) (l : List F) (j : J) : l <+: add chosen need l j := by
  unfold add
  cases chosen j with
  | error e => exact List.prefix_refl _
  | ok c =>
    dsimp only
    cases need c j with
    | none => exact List.prefix_refl _
    | some g =>
      dsimp only
      split
      · exact List.prefix_refl _
      · exact List.prefix_append _ _

private theorem add_nodup {J C F : Type} [DecidableEq F] (chosen : J → Except Exc C)
    (need : C → J → Option F) (l : List F) (j : J) (h : l.Nodup) : (add chosen need l j).Nodup := by
  unfold add
  cases chosen j with
  | error e => exact h
  | ok c =>
    dsimp only
    cases need c j with
    | none => exact h
    | some g =>
      dsimp only
      split
      · exact h
      · rename_i hg
        rw [List.nodup_append]
        refine ⟨h, by simp, ?_⟩
        intro a ha b hb e
        simp only [List.mem_singleton] at hb
        subst hb e
        exact hg ha

private theorem fold_mem {J C F : Type} [DecidableEq F] (chosen : J → Except Exc C)
    (need : C → J → Option F) (jobs : List J) (l : List F) (f : F) :
    f ∈ jobs.foldl (add chosen need) l ↔ f ∈ l ∨ Needed chosen need jobs f := by
  induction jobs generalizing l with
  | nil => simp [Needed]
  | cons j js ih =>
    rw [List.foldl_cons, ih, add_mem]
    simp only [Needed, List.mem_cons, exists_eq_or_imp, or_assoc]

private theorem fold_ext {J C F : Type} [DecidableEq F] (chosen : J → Except Exc C)
    (need : C → J → Option F) (jobs : List J) (l : List F) : l <+: jobs.foldl (add chosen need) l := by
  induction jobs generalizing l with
  | nil => exact List.prefix_refl _
  | cons j js ih => exact (add_ext chosen need l j).trans (ih _)

private theorem fold_nodup {J C F : Type} [DecidableEq F] (chosen : J → Except Exc C)
    (need : C → J → Option F) (jobs : List J) (l : List F) (h : l.Nodup) :
    (jobs.foldl (add chosen need) l).Nodup := by
  induction jobs generalizing l with
  | nil => exact h
  | cons j js ih => exact ih _ (add_nodup chosen need l j h)

/-- C124, the sequence: it has exactly the functions that are needed, each once, and those that are
needed by the first jobs come first.  For all jobs, controllers and functions. -/
theorem C124_sequence {J C F : Type} [DecidableEq F] (chosen : J → Except Exc C)
    (need : C → J → Option F) (jobs : List J) :
    (sequence chosen need jobs).Nodup ∧
    (∀ f, f ∈ sequence chosen need jobs ↔ Needed chosen need jobs f) ∧
    ∀ pre post, jobs = pre ++ post → sequence chosen need pre <+: sequence chosen need jobs := by
  refine ⟨fold_nodup _ _ _ _ List.nodup_nil, fun f => ?_, ?_⟩
  · unfold sequence
    rw [fold_mem]
    simp
  · rintro pre post rfl
    unfold sequence
    rw [List.foldl_append]
    exact fold_ext _ _ _ _

/-- A job that runs as root, from a secure provider. -/
def exRoot : Job :=
  { plugin := "shell".toList, user := some "root".toList, provider := { secure := true } }

/-- A job that runs as root, from a provider that is not secure. -/
def exLocal : Job := { exRoot with provider := {} }

/-- A job that runs as the user. -/
def exUser : Job := { plugin := "shell".toList }

/-- A desktop where the trusted launcher is installed and sudo may be used. -/
def exWorld : World := ⟨.linux, 1000, false, false, true, true⟩

example : warmUps exWorld (runnerCtrls .linux) [exUser, exLocal, exRoot, exLocal] = [.sudo, .launcher] := by
  decide +kernel

/-- C124, the functions: what is run to warm up does not run any job: the trusted launcher does nothing
with `--warmup`, whatever jobs there are, and sudo runs true(1). -/
theorem C124_harmless (w : Launcher.World) :
    ∃ args, command .launcher = "pkexec".toList :: "plainbox-trusted-launcher-1".toList :: args ∧
      (Launcher.main w args).runs = [] ∧ (Launcher.main w args).ended = .warm ∧
      command .sudo = ["sudo".toList, "-S".toList, "true".toList] := by
  refine ⟨["--warmup".toList], rfl, ?_, ?_, rfl⟩
  · have h : Launcher.parseArgs ["--warmup".toList] = .ok { warmup := true } := by decide +kernel
    unfold Launcher.main
    rw [h]
    rfl
  · have h : Launcher.parseArgs ["--warmup".toList] = .ok { warmup := true } := by decide +kernel
    unfold Launcher.main
    rw [h]
    rfl

/-- Whether a job is run by the trusted launcher, on Linux in a process that is not root. -/
def ByLauncher (w : World) (j : Job) : Prop :=
  j.user ≠ none ∧ "win32".toList ∉ j.flags ∧ j.plugin ≠ "qml".toList ∧ j.provider.isProvider1 = true ∧
    j.provider.secure = true ∧ w.ssh = false ∧ w.snap = false ∧ w.ptl1Supported = true

/-- Whether a job is run with sudo, on Linux in a process that is not root. -/
def BySudo (w : World) (j : Job) : Prop :=
  j.user ≠ none ∧ "win32".toList ∉ j.flags ∧ j.plugin ≠ "qml".toList ∧ w.canSudo = true ∧
    ¬ (j.provider.isProvider1 = true ∧ j.provider.secure = true ∧ w.ssh = false ∧ w.snap = false ∧
      w.ptl1Supported = true)

private theorem mem_runner (c : Ctrl) : c ∈ runnerCtrls .linux ↔ c ≠ .sudoWithPass := by
  cases c <;> decide

private theorem chosen_ptl1 (w : World) (j : Job)
    (h : choose (score w j) (runnerCtrls .linux) = .ok .ptl1) (hu : j.user ≠ none) :
    ByLauncher w j := by
  obtain ⟨-, h0, hm⟩ := C36_best _ _ _ h
  have h1 := hm .pkexec (by decide)
  have h2 := hm .qml (by decide)
  simp only [score, ptl1Score, pkexecScore, qmlScore] at h0 h1 h2
  clear hm h
  unfold ByLauncher
  generalize "win32".toList = win at *
  generalize "qml".toList = q at *
  rw [if_pos hu] at h1
  by_cases a1 : j.provider.isProvider1 = true
  · by_cases a2 : j.provider.secure = true
    · by_cases a3 : w.ssh = true
      · simp [a1, a2, a3] at h0
      · by_cases a4 : win ∈ j.flags
        · simp [a1, a2, a3, a4] at h0
        · by_cases a5 : w.snap = true
          · simp [a1, a2, a3, a4, a5] at h0
          · by_cases a6 : w.ptl1Supported = true
            · by_cases a7 : j.plugin = q
              · simp [a1, a2, a3, a4, a5, a6, a7, hu] at h2
              · simp_all
            · simp [a1, a2, a3, a4, a5, a6] at h1
    · simp [a1, a2] at h0
  · simp [a1] at h0

private theorem chosen_sudo (w : World) (j : Job)
    (h : choose (score w j) (runnerCtrls .linux) = .ok .sudo) : BySudo w j := by
  obtain ⟨-, h0, hm⟩ := C36_best _ _ _ h
  have h1 := hm .ptl1 (by decide)
  have h2 := hm .qml (by decide)
  simp only [score, ptl1Score, sudoScore, qmlScore] at h0 h1 h2
  unfold BySudo
  generalize "win32".toList = win at *
  generalize "qml".toList = q at *
  grind

private theorem choose_of (w : World) (j : Job) (c : Ctrl) (hc : c ∈ runnerCtrls .linux)
    (h0 : 0 ≤ score w j c) (hm : ∀ d ∈ runnerCtrls .linux, d ≠ c → score w j d < score w j c) :
    choose (score w j) (runnerCtrls .linux) = .ok c := by
  obtain ⟨pre, post, hl⟩ := List.append_of_mem hc
  refine ((C36_choice _ _).1 c).2 ⟨h0, pre, post, hl, ?_, ?_⟩
  · intro d hd
    by_cases e : d = c
    · rw [e]; exact Int.le_refl _
    · exact Int.le_of_lt (hm d (by rw [hl]; simp [hd]) e)
  · intro d hd
    have hn : (runnerCtrls .linux).Nodup := by decide
    refine hm d (by rw [hl]; simp [hd]) ?_
    rintro rfl
    rw [hl, List.nodup_append] at hn
    exact (List.nodup_cons.1 hn.2.1).1 hd

private theorem ptl1_chosen (w : World) (j : Job) (huid : w.uid ≠ 0) (h : ByLauncher w j) :
    choose (score w j) (runnerCtrls .linux) = .ok .ptl1 := by
  obtain ⟨hu, hw, hq, h1, h2, h3, h4, h5⟩ := h
  have hs : score w j .ptl1 = 3 := by
    simp only [score, ptl1Score, h1, h2, h3, h4, h5, hw]
    simp [hu]
  refine choose_of w j _ (by decide) (by rw [hs]; decide) ?_
  intro d hd hne
  rw [hs]
  cases d with
  | ptl1 => exact absurd rfl hne
  | pkexec => simp only [score, pkexecScore]; grind
  | «sudo» => simp only [score, sudoScore]; grind
  | sudoWithPass => exact absurd hd (by decide)
  | user => simp only [score, userScore]; grind
  | qml => simp only [score, qmlScore]; grind

private theorem sudo_chosen (w : World) (j : Job) (huid : w.uid ≠ 0) (h : BySudo w j) :
    choose (score w j) (runnerCtrls .linux) = .ok .sudo := by
  obtain ⟨hu, hw, hq, h1, h2⟩ := h
  have hs : score w j .sudo = 2 := by
    simp only [score, sudoScore, h1, hw]
    simp [hu]
  refine choose_of w j _ (by decide) (by rw [hs]; decide) ?_
  intro d hd hne
  rw [hs]
  cases d with
  | ptl1 => simp only [score, ptl1Score]; grind
  | pkexec => simp only [score, pkexecScore]; grind
  | «sudo» => exact absurd rfl hne
  | sudoWithPass => exact absurd hd (by decide)
  | user => simp only [score, userScore]; grind
  | qml => simp only [score, qmlScore]; grind

/-- C124, who is asked: on Linux, in a process that is not root and with the runner's own controllers,
the trusted launcher is warmed up exactly if one of the jobs is run by it, and sudo exactly if one of
the jobs is run with it. -/
theorem C124_linux (w : World) (huid : w.uid ≠ 0) (jobs : List Job) :
    (.launcher ∈ warmUps w (runnerCtrls .linux) jobs ↔ ∃ j ∈ jobs, ByLauncher w j) ∧
    (.sudo ∈ warmUps w (runnerCtrls .linux) jobs ↔ ∃ j ∈ jobs, BySudo w j) := by
  have hs := (C124_sequence (fun j => choose (score w j) (runnerCtrls .linux)) need jobs).2.1
  constructor
  · rw [warmUps, hs]
    constructor
    · rintro ⟨j, hj, c, hc, hn⟩
      refine ⟨j, hj, ?_⟩
      cases c with
      | ptl1 =>
        simp only [need] at hn
        split at hn
        · exact absurd hn (by decide)
        · exact chosen_ptl1 w j hc ‹_›
      | «sudo» => exact absurd hn (by simp [need])
      | pkexec | sudoWithPass | user | qml => exact absurd hn (by simp [need])
    · rintro ⟨j, hj, h⟩
      exact ⟨j, hj, .ptl1, ptl1_chosen w j huid h, by simp [need, h.1]⟩
  · rw [warmUps, hs]
    constructor
    · rintro ⟨j, hj, c, hc, hn⟩
      refine ⟨j, hj, ?_⟩
      cases c with
      | ptl1 =>
        simp only [need] at hn
        split at hn <;> exact absurd hn (by decide)
      | «sudo» => exact chosen_sudo w j hc
      | pkexec | sudoWithPass | user | qml => exact absurd hn (by simp [need])
    · rintro ⟨j, hj, h⟩
      exact ⟨j, hj, .sudo, sudo_chosen w j huid h, rfl⟩

example : exWorld.uid ≠ 0 ∧ ByLauncher exWorld exRoot ∧ BySudo exWorld exLocal ∧
    ¬ ByLauncher exWorld exUser ∧ ¬ BySudo exWorld exUser := by
  unfold ByLauncher BySudo
  decide +kernel

/-- C124, nobody is asked: with the controllers that come with the library, nothing is warmed up if no
job asks for another user, or if the process already runs as root. -/
theorem C124_quiet (w : World) (l : List Ctrl) (hl : Stock w l) (jobs : List Job)
    (h : (∀ j ∈ jobs, j.user = none) ∨ w.uid = 0) : warmUps w l jobs = [] := by
  rw [List.eq_nil_iff_forall_not_mem]
  intro f hf
  obtain ⟨j, hj, c, hc, hn⟩ := ((C124_sequence _ _ _).2.1 f).1 hf
  rcases h with h | h
  · have := C36_ordinary w j l hl (h j hj) c hc
    cases c <;> first | exact this trivial | (simp [need] at hn)
  · by_cases hu : j.user = none
    · have := C36_ordinary w j l hl hu c hc
      cases c <;> first | exact this trivial | (simp [need] at hn)
    obtain ⟨hm, h0, hb⟩ := C36_best _ _ _ hc
    have key : w.platform = .linux → False := by
      intro hp
      have hb := hb .user (by rcases hl with rfl | rfl <;> rw [hp] <;> decide)
      cases c with
      | pkexec | sudoWithPass | user | qml => simp [need] at hn
      | ptl1 =>
        simp only [score, ptl1Score, userScore] at h0 hb
        generalize "win32".toList = win at *
        grind
      | «sudo» =>
        simp only [score, sudoScore, userScore] at h0 hb
        generalize "win32".toList = win at *
        grind
    cases hp : w.platform with
    | linux => exact key hp
    | win32 =>
      have : l = [.user] := by rcases hl with rfl | rfl <;> rw [hp] <;> rfl
      subst this
      simp only [List.mem_singleton] at hm
      subst hm
      simp [need] at hn
    | other =>
      have : l = [] := by rcases hl with rfl | rfl <;> rw [hp] <;> rfl
      subst this
      simp at hm

example : Stock exWorld (runnerCtrls .linux) ∧ warmUps exWorld (runnerCtrls .linux) [exUser, exUser] = [] ∧
    warmUps { exWorld with uid := 0 } (runnerCtrls .linux) [exRoot, exLocal] = [] :=
  ⟨.inr rfl, by decide +kernel, by decide +kernel⟩

/-- C124, `plainbox run`, partial: every job of the run list that is run by a controller that elevates
privileges, other than pkexec and sudo with a given password, is run after the function its controller
needs has been called, and this function is called once.  Not said: jobs that are run with pkexec
(`C124_pkexec_violated`), jobs that are added later (`C124_added_violated`). -/
theorem C124_before_partial (w : World) (ctrls : List Ctrl) (runList ran : List Job) (j : Job) (c : Ctrl)
    (pre post : List Event) (h : runCommand w ctrls runList ran = pre ++ .run j c :: post)
    (hj : j ∈ runList) (he : Elevates c) (hc : c ≠ .pkexec ∧ c ≠ .sudoWithPass)
    (hu : j.user ≠ none) :
    ∃ f, (c = .ptl1 ∧ f = .launcher ∨ c = .sudo ∧ f = .sudo) ∧
      .warm f ∈ pre ∧ pre.count (.warm f) = 1 ∧ .warm f ∉ post ∧ .header ∈ pre := by
  have hruns : ∀ e ∈ ran.flatMap (runOne w ctrls), ∃ j c, e = .run j c ∧
      choose (score w j) ctrls = .ok c := by
    intro e he
    obtain ⟨j, -, hj⟩ := List.mem_flatMap.1 he
    unfold runOne at hj
    split at hj
    · simp at hj
    · simp only [List.mem_singleton] at hj
      exact ⟨j, _, hj, ‹_›⟩
  have hsplit : ∃ warms : List Event, (∀ e ∈ warms, ∀ j c, e ≠ .run j c) ∧
      runCommand w ctrls runList ran = warms ++ ran.flatMap (runOne w ctrls) ∧
      ∀ f, f ∈ warmUps w ctrls runList → warms.count (.warm f) = 1 ∧ .header ∈ warms := by
    unfold runCommand
    cases hl : warmUps w ctrls runList with
    | nil => exact ⟨[], by simp, rfl, by simp⟩
    | cons g gs =>
      refine ⟨.header :: (g :: gs).map .warm, by simp, rfl, ?_⟩
      intro f hf
      have hn : (g :: gs).Nodup := by rw [← hl]; exact (C124_sequence _ _ _).1
      refine ⟨?_, by simp⟩
      rw [List.count_cons]
      have hinj : Function.Injective Event.warm := fun a b h => by injection h
      rw [List.count_map_of_injective _ _ hinj, List.count_eq_one_of_mem hn hf]
      simp
  obtain ⟨warms, hw, heq, hcount⟩ := hsplit
  rw [heq] at h
  rcases List.append_eq_append_iff.1 h with ⟨as, h1, h2⟩ | ⟨bs, h1, h2⟩
  · have hch : choose (score w j) ctrls = .ok c := by
      obtain ⟨j', c', e, hc'⟩ := hruns (.run j c) (by rw [h2]; simp)
      injection e with e1 e2
      subst e1 e2
      exact hc'
    have fin : ∀ f, need c j = some f → .warm f ∈ pre ∧ pre.count (.warm f) = 1 ∧ .warm f ∉ post ∧
        .header ∈ pre := by
      intro f hf
      obtain ⟨hc1, hc2⟩ := hcount f (((C124_sequence _ _ _).2.1 f).2 ⟨j, hj, c, hch, hf⟩)
      have hno : ∀ e ∈ as ++ .run j c :: post, e ≠ .warm f := by
        rintro e he rfl
        obtain ⟨_, _, e', _⟩ := hruns _ (by rw [h2]; exact he)
        exact absurd e' (by simp)
      have h0 : as.count (.warm f) = 0 := List.count_eq_zero.2 fun hm => hno _ (by simp [hm]) rfl
      have hcnt : pre.count (.warm f) = 1 := by rw [h1, List.count_append, hc1, h0]
      exact ⟨List.count_pos_iff.1 (by omega), hcnt, fun hm => hno _ (by simp [hm]) rfl,
        by rw [h1]; simp [hc2]⟩
    cases c with
    | ptl1 => exact ⟨.launcher, .inl ⟨rfl, rfl⟩, fin _ (by simp [need, hu])⟩
    | «sudo» => exact ⟨.sudo, .inr ⟨rfl, rfl⟩, fin _ rfl⟩
    | pkexec => exact absurd rfl hc.1
    | sudoWithPass => exact absurd rfl hc.2
    | user | qml => exact absurd he (by simp [Elevates])
  · cases bs with
    | nil =>
      simp only [List.nil_append, List.append_nil] at h1 h2
      subst h1
      have h2' := h2.symm
      have hch : choose (score w j) ctrls = .ok c := by
        obtain ⟨j', c', e, hc'⟩ := hruns (.run j c) (by rw [h2']; simp)
        injection e with e1 e2
        subst e1 e2
        exact hc'
      have fin : ∀ f, need c j = some f → .warm f ∈ warms ∧ warms.count (.warm f) = 1 ∧ .warm f ∉ post ∧
          .header ∈ warms := by
        intro f hf
        obtain ⟨hc1, hc2⟩ := hcount f (((C124_sequence _ _ _).2.1 f).2 ⟨j, hj, c, hch, hf⟩)
        refine ⟨List.count_pos_iff.1 (by omega), hc1, fun hm => ?_, hc2⟩
        obtain ⟨_, _, e', _⟩ := hruns (.warm f) (by rw [h2']; simp [hm])
        exact absurd e' (by simp)
      cases c with
      | ptl1 => exact ⟨.launcher, .inl ⟨rfl, rfl⟩, fin _ (by simp [need, hu])⟩
      | «sudo» => exact ⟨.sudo, .inr ⟨rfl, rfl⟩, fin _ rfl⟩
      | pkexec => exact absurd rfl hc.1
      | sudoWithPass => exact absurd rfl hc.2
      | user | qml => exact absurd he (by simp [Elevates])
    | cons b bs =>
      simp only [List.cons_append, List.cons.injEq] at h2
      exact absurd h2.1.symm (hw b (by rw [h1]; simp) j c)

example : runCommand exWorld (runnerCtrls .linux) [exUser, exRoot, exLocal] [exUser, exRoot, exLocal] =
    [.header, .warm .launcher, .warm .sudo, .run exUser .user] ++ .run exRoot .ptl1 ::
      [.run exLocal .sudo] := by
  decide +kernel

/-- C124 violated: a job that is run with pkexec asks for the password in the middle of the run, on a
machine whose user may not use sudo. -/
theorem C124_pkexec_violated :
    ∃ (w : World) (jobs : List Job) (j : Job), j ∈ jobs ∧ w.uid ≠ 0 ∧
      .run j .pkexec ∈ runCommand w (runnerCtrls .linux) jobs jobs ∧
      ∀ f, .warm f ∉ runCommand w (runnerCtrls .linux) jobs jobs :=
  ⟨{ exWorld with canSudo := false }, [exUser, exLocal], exLocal, by decide +kernel, by decide,
    by decide +kernel, by rintro (_ | _) <;> decide +kernel⟩

/-- C124 violated: for a job that is added while the jobs are run (by a job that makes others), the
password is asked for when it is run. -/
theorem C124_added_violated :
    ∃ (w : World) (runList ran : List Job) (j : Job), List.Sublist runList ran ∧
      .run j .ptl1 ∈ runCommand w (runnerCtrls .linux) runList ran ∧
      ∀ f, .warm f ∉ runCommand w (runnerCtrls .linux) runList ran :=
  ⟨exWorld, [exUser], [exUser, exRoot], exRoot, by decide +kernel, by decide +kernel,
    by rintro (_ | _) <;> decide +kernel⟩

/-- C124, applications: a function that one of the jobs on the run list needs is called before every
single job, whether or not that job needs it: as often as jobs are run. -/
theorem C124_again (w : World) (ctrls : List Ctrl) (runList ran : List Job) (f : Fn)
    (h : Needed (fun j => choose (score w j) ctrls) need runList f) :
    (assistant w ctrls (ran.map fun j => (runList, j))).count (.warm f) = ran.length := by
  have hw : ∀ j, (runOne w ctrls j).count (.warm f) = 0 := by
    intro j
    unfold runOne
    split <;> simp
  have h1 : (warmUps w ctrls runList).count f = 1 :=
    List.count_eq_one_of_mem (C124_sequence _ _ _).1 (((C124_sequence _ _ _).2.1 f).2 h)
  have hinj : Function.Injective Event.warm := fun a b h => by injection h
  unfold assistant
  induction ran with
  | nil => rfl
  | cons j js ih =>
    rw [List.map_cons, List.flatMap_cons, List.count_append, ih, List.count_append,
      List.count_map_of_injective _ _ hinj, h1, hw, List.length_cons]
    omega

example : Needed (fun j => choose (score exWorld j) (runnerCtrls .linux)) need [exUser, exLocal] .sudo :=
  ⟨exLocal, by decide +kernel, .sudo, by decide +kernel, rfl⟩

/-- C124 violated: an application that runs two jobs asks for the password twice, the second time
although all that is left is a job that does not need it. -/
theorem C124_again_violated :
    ∃ (w : World) (runList : List Job), 
      assistant w (runnerCtrls .linux) (runList.map fun j => (runList, j)) =
        [.warm .sudo, .run exLocal .sudo, .warm .sudo, .run exUser .user] :=
  ⟨exWorld, [exLocal, exUser], by decide +kernel⟩

/-- C124 violated: an application may run any job of the session, but nothing is warmed up for a job
that is not on the run list. -/
theorem C124_outside_violated :
    ∃ (w : World) (j : Job), w.uid ≠ 0 ∧
      assistant w (runnerCtrls .linux) [([exUser], j)] = [.run j .ptl1] :=
  ⟨exWorld, exRoot, by decide, by decide +kernel⟩

end Verif.WarmUp
