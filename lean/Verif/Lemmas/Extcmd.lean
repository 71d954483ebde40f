import Verif.Model.Extcmd

/-! Invariants of the threads of `ExternalCommandWithDelegate.call`. -/

namespace Verif.Extcmd

/-- The reader can still do something. -/
def Rd.alive : Rd → Bool
  | .running | .holding _ => true
  | _ => false

/-- The worker can still do something. -/
def Wk.alive : Wk → Bool
  | .waiting | .holding _ _ => true
  | _ => false

@[simp] theorem upd_same {α : Type} (f : Stream → α) (s : Stream) (a : α) : upd f s a s = a := by
  simp [upd]

theorem upd_apply {α : Type} (f : Stream → α) (s t : Stream) (a : α) :
    upd f s a t = if t = s then a else f t := rfl

/-- The steps, one by one. -/
inductive Tr (c : Cfg) (st : St) : St → Prop
  | beginOk (hp : st.pc = .begin) (hr : c.raises st.log .begin = false) :
      Tr c st { st with log := st.log ++ [.begin], pc := .popen }
  | beginRaise (hp : st.pc = .begin) (hr : c.raises st.log .begin = true) :
      Tr c st { st with log := st.log ++ [.begin], pc := .raised }
  /-- an exception before the threads are joined -/
  | abort (hp : st.pc = .popen ∨ st.pc = .startW ∨ st.pc = .startO ∨ st.pc = .startE ∨ st.pc = .wait ∨
        st.pc = .signalled) : Tr c st { st with pc := .cleanup }
  /-- an exception that leaves the threads alone -/
  | bail (hp : st.pc ≠ .wait ∧ st.pc ≠ .signalled ∧ ∀ rc, st.pc ≠ .returned rc) :
      Tr c st { st with pc := .raised }
  | popen (hp : st.pc = .popen) : Tr c st { st with spawned := true, pc := .startW }
  | startW (hp : st.pc = .startW) : Tr c st { st with wk := .waiting, pc := .startO }
  | startO (hp : st.pc = .startO) : Tr c st { st with rd := upd st.rd .out .running, pc := .startE }
  | startE (hp : st.pc = .startE) : Tr c st { st with rd := upd st.rd .err .running, pc := .wait }
  | wait (rc : Int) (hp : st.pc = .wait) (he : st.exited = some rc) :
      Tr c st { st with pc := .joinO false }
  | signalled (hp : st.pc = .wait) : Tr c st { st with pc := .signalled }
  | notify (hp : st.pc = .signalled) (hr : c.raises st.log .interrupt = false) :
      Tr c st { st with log := st.log ++ [.interrupt], pc := .wait }
  | notifyRaise (hp : st.pc = .signalled) (hr : c.raises st.log .interrupt = true) :
      Tr c st { st with log := st.log ++ [.interrupt], pc := .cleanup }
  | cleanup (hp : st.pc = .cleanup) : Tr c st { st with pc := .joinO true }
  | joinO (exn : Bool) (hp : st.pc = .joinO exn) (hr : (st.rd .out).alive = false) :
      Tr c st { st with pc := .joinE exn }
  | joinE (exn : Bool) (hp : st.pc = .joinE exn) (hr : (st.rd .err).alive = false) :
      Tr c st { st with pc := .putNone exn }
  | putNone (exn : Bool) (hp : st.pc = .putNone exn) (hs : st.spawned = true) :
      Tr c st { st with queue := st.queue ++ [none], pc := .joinW exn }
  | noWorker (exn : Bool) (hp : st.pc = .putNone exn) (hs : st.spawned = false) :
      Tr c st { st with pc := .joinW exn }
  | joinW (hp : st.pc = .joinW false) (hw : st.wk.alive = false) : Tr c st { st with pc := .after }
  | joinWExn (hp : st.pc = .joinW true) (hw : st.wk.alive = false) :
      Tr c st { st with pc := .raised }
  | after (rc : Int) (hp : st.pc = .after) (he : st.exited = some rc)
      (hr : c.raises st.log (endEv c.sudo rc) = false) :
      Tr c st { st with log := st.log ++ [endEv c.sudo rc], pc := .returned rc }
  | afterRaise (rc : Int) (hp : st.pc = .after) (he : st.exited = some rc)
      (hr : c.raises st.log (endEv c.sudo rc) = true) :
      Tr c st { st with log := st.log ++ [endEv c.sudo rc], pc := .raised }
  | eof (s : Stream) (hr : st.rd s = .running)
      (hd : readData c.chunked (st.closed s) (st.pipe s) = some []) :
      Tr c st { st with rd := upd st.rd s .finished }
  | read (s : Stream) (d : Bytes) (hr : st.rd s = .running)
      (hd : readData c.chunked (st.closed s) (st.pipe s) = some d) (hne : d ≠ []) :
      Tr c st { st with rd := upd st.rd s (.holding d),
                        pipe := upd st.pipe s ((st.pipe s).drop d.length) }
  | put (s : Stream) (d : Bytes) (hr : st.rd s = .holding d) :
      Tr c st { st with rd := upd st.rd s .running, queue := st.queue ++ [some (s, d)] }
  | getNone (q : List (Option (Stream × Bytes))) (hw : st.wk = .waiting) (hq : st.queue = none :: q) :
      Tr c st { st with wk := .dead, queue := q }
  | get (s : Stream) (d : Bytes) (q : List (Option (Stream × Bytes))) (hw : st.wk = .waiting)
      (hq : st.queue = some (s, d) :: q) : Tr c st { st with wk := .holding s d, queue := q }
  | deliver (s : Stream) (d : Bytes) (hw : st.wk = .holding s d)
      (hr : c.raises st.log (dataEv c.chunked s d) = false) :
      Tr c st { st with log := st.log ++ [dataEv c.chunked s d], wk := .waiting }
  | deliverRaise (s : Stream) (d : Bytes) (hw : st.wk = .holding s d)
      (hr : c.raises st.log (dataEv c.chunked s d) = true) :
      Tr c st { st with log := st.log ++ [dataEv c.chunked s d], wk := .dead }
  | write (s : Stream) (d : Bytes) (hs : st.spawned = true) (hc : st.closed s = false) :
      Tr c st { st with pipe := upd st.pipe s (st.pipe s ++ d),
                        wrote := upd st.wrote s (st.wrote s ++ d) }
  | close (s : Stream) (hs : st.spawned = true) :
      Tr c st { st with closed := upd st.closed s true }
  | exit (rc : Int) (hs : st.spawned = true) (he : st.exited = none) :
      Tr c st { st with exited := some rc }
  | steal (s : Stream) (n : Nat) (hp : st.pc = .wait) (hs : c.sudo = true) :
      Tr c st { st with pipe := upd st.pipe s ((st.pipe s).drop n) }

theorem step_tr {c : Cfg} {a : Act} {st st' : St} (h : step c a st = some st') : Tr c st st' := by
  cases a with
  | main fail =>
    simp only [step, mainStep] at h
    split at h <;> rename_i hp
    · -- begin
      simp only [Option.some.injEq] at h
      subst h
      cases hr : c.raises st.log .begin
      · exact .beginOk hp hr
      · exact .beginRaise hp hr
    · split at h <;> simp only [Option.some.injEq] at h <;> subst h
      · rw [hp, abort]
        split
        · exact .bail (by simp [hp])
        · exact .abort (by simp [hp])
      · exact .popen hp
    · simp only [Option.some.injEq] at h; subst h; exact .startW hp
    · simp only [Option.some.injEq] at h; subst h; exact .startO hp
    · simp only [Option.some.injEq] at h; subst h; exact .startE hp
    · split at h
      · split at h
        · simp only [Option.some.injEq] at h; subst h; exact .abort (by simp [hp])
        · simp at h
      · split at h
        · simp at h
        · rename_i rc he
          split at h
          · simp at h
          · simp only [Option.some.injEq] at h; subst h; exact .wait rc hp he
    · split at h <;> simp only [Option.some.injEq] at h <;> subst h
      · exact .abort (by simp [hp])
      · cases hr : c.raises st.log .interrupt
        · exact .notify hp hr
        · exact .notifyRaise hp hr
    · split at h <;> simp only [Option.some.injEq] at h <;> subst h
      · exact .bail (by simp [hp])
      · exact .cleanup hp
    · split at h
      · simp at h
      · simp at h
      · rename_i h1 h2
        simp only [Option.some.injEq] at h; subst h
        refine .joinO _ hp ?_
        cases hr : st.rd .out with
        | running => exact absurd hr h1
        | holding d => exact absurd hr (h2 d)
        | _ => rfl
    · split at h
      · simp at h
      · simp at h
      · rename_i h1 h2
        simp only [Option.some.injEq] at h; subst h
        refine .joinE _ hp ?_
        cases hr : st.rd .err with
        | running => exact absurd hr h1
        | holding d => exact absurd hr (h2 d)
        | _ => rfl
    · split at h <;> rename_i hs <;> simp only [Option.some.injEq] at h <;> subst h
      · exact .putNone _ hp hs
      · exact .noWorker _ hp (by simpa using hs)
    · rename_i exn
      split at h
      · simp at h
      · simp at h
      · rename_i h1 h2
        simp only [Option.some.injEq] at h; subst h
        have hw : st.wk.alive = false := by
          cases hr : st.wk with
          | waiting => exact absurd hr h1
          | holding s d => exact absurd hr (h2 s d)
          | _ => rfl
        cases exn
        · exact .joinW hp hw
        · exact .joinWExn hp hw
    · split at h
      · simp at h
      · rename_i rc he
        simp only [Option.some.injEq] at h; subst h
        cases hr : c.raises st.log (endEv c.sudo rc)
        · exact .after rc hp he hr
        · exact .afterRaise rc hp he hr
    · simp at h
    · simp at h
  | interrupt =>
    simp only [step] at h
    split at h
    · rename_i hp
      simp only [Option.some.injEq] at h; subst h; exact .signalled hp
    · simp at h
    · simp at h
    · rename_i h1 h2 h3
      simp only [Option.some.injEq] at h; subst h
      cases hp : st.pc with
      | popen | startW | startO | startE =>
        simp only [abort]
        split
        · exact .bail (by simp [hp])
        · exact .abort (by simp [hp])
      | wait => exact absurd hp h1
      | signalled => exact .abort (by simp [hp])
      | returned rc => exact absurd hp (h2 rc)
      | _ => exact .bail (by simp [hp])
  | read s =>
    simp only [step] at h
    split at h
    · rename_i hr
      split at h
      · simp at h
      · rename_i d hd
        split at h <;> rename_i hne <;> simp only [Option.some.injEq] at h <;> subst h
        · subst hne; exact .eof s hr hd
        · exact .read s d hr hd hne
    · simp at h
  | put s =>
    simp only [step] at h
    split at h
    · rename_i d hr
      simp only [Option.some.injEq] at h; subst h; exact .put s d hr
    · simp at h
  | get =>
    simp only [step] at h
    split at h
    · rename_i q hw hq
      simp only [Option.some.injEq] at h; subst h; exact .getNone q hw hq
    · rename_i s d q hw hq
      simp only [Option.some.injEq] at h; subst h; exact .get s d q hw hq
    · simp at h
  | deliver =>
    simp only [step] at h
    split at h
    · rename_i s d hw
      simp only [Option.some.injEq] at h; subst h
      cases hr : c.raises st.log (dataEv c.chunked s d)
      · exact .deliver s d hw hr
      · exact .deliverRaise s d hw hr
    · simp at h
  | write s d =>
    simp only [step] at h
    split at h
    · rename_i hc
      simp only [Bool.and_eq_true, Bool.not_eq_true'] at hc
      simp only [Option.some.injEq] at h; subst h; exact .write s d hc.1 hc.2
    · simp at h
  | close s =>
    simp only [step] at h
    split at h
    · rename_i hc
      simp only [Option.some.injEq] at h; subst h; exact .close s hc
    · simp at h
  | exit rc =>
    simp only [step] at h
    split at h
    · rename_i hc
      simp only [Bool.and_eq_true, Option.isNone_iff_eq_none] at hc
      simp only [Option.some.injEq] at h; subst h; exact .exit rc hc.1 hc.2
    · simp at h
  | steal s n =>
    simp only [step] at h
    split at h
    · rename_i hc
      simp only [Bool.and_eq_true, decide_eq_true_eq] at hc
      simp only [Option.some.injEq] at h; subst h; exact .steal s n hc.2 hc.1
    · simp at h

/-- States that some schedule leads to. -/
def Reachable (c : Cfg) (st : St) : Prop := ∃ as, run c as init = some st

theorem run_append (c : Cfg) (as bs : List Act) (st : St) :
    run c (as ++ bs) st = (run c as st).bind (run c bs) := by
  induction as generalizing st with
  | nil => rfl
  | cons a as ih =>
    simp only [List.cons_append, run]
    cases step c a st with
    | none => rfl
    | some st' => exact ih st'

/-- What holds at the start and is kept by every step holds always. -/
theorem invariant {c : Cfg} {P : St → Prop} (h0 : P init)
    (hs : ∀ st st', P st → Tr c st st' → P st') {st : St} (hr : Reachable c st) : P st := by
  obtain ⟨as, h⟩ := hr
  have : ∀ (as : List Act) (st₀ : St), P st₀ → run c as st₀ = some st → P st := by
    intro as
    induction as with
    | nil => intro st₀ h0 h; simp only [run, Option.some.injEq] at h; exact h ▸ h0
    | cons a as ih =>
      intro st₀ h0 h
      simp only [run] at h
      cases ha : step c a st₀ with
      | none => rw [ha] at h; simp at h
      | some st₁ =>
        rw [ha] at h
        exact ih st₁ (hs _ _ h0 (step_tr ha)) h
  exact this as init h0 h

/-- Threads and the place where `call` is. -/
def Threads (st : St) : Prop :=
  match st.pc with
  | .begin | .popen => st.rd .out = .notStarted ∧ st.rd .err = .notStarted ∧ st.wk = .notStarted ∧
      st.spawned = false
  | .startW => st.rd .out = .notStarted ∧ st.rd .err = .notStarted ∧ st.wk = .notStarted ∧
      st.spawned = true
  | .startO => st.rd .out = .notStarted ∧ st.rd .err = .notStarted ∧ st.wk ≠ .notStarted ∧
      st.spawned = true
  | .startE => st.rd .out ≠ .notStarted ∧ st.rd .err = .notStarted ∧ st.wk ≠ .notStarted ∧
      st.spawned = true
  | .wait | .signalled | .joinO false => st.rd .out ≠ .notStarted ∧ st.rd .err ≠ .notStarted ∧
      st.wk ≠ .notStarted ∧ st.spawned = true
  | .joinE false => st.rd .out = .finished ∧ st.rd .err ≠ .notStarted ∧ st.wk ≠ .notStarted ∧
      st.spawned = true
  | .putNone false | .joinW false => st.rd .out = .finished ∧ st.rd .err = .finished ∧
      st.wk ≠ .notStarted ∧ st.spawned = true
  | .after | .returned _ => st.rd .out = .finished ∧ st.rd .err = .finished ∧ st.wk = .dead ∧
      st.spawned = true
  | .joinE true => (st.rd .out).alive = false
  | .putNone true | .joinW true => (st.rd .out).alive = false ∧ (st.rd .err).alive = false
  | _ => True

theorem not_alive {r : Rd} (h : r.alive = false) : r = .notStarted ∨ r = .finished := by
  cases r <;> simp_all [Rd.alive]

theorem not_alive_w {w : Wk} (h : w.alive = false) : w = .notStarted ∨ w = .dead := by
  cases w <;> simp_all [Wk.alive]

theorem threads_tr {c : Cfg} {st st' : St} (hi : Threads st) (h : Tr c st st') : Threads st' := by
  cases h with
  | bail => trivial
  | abort => trivial
  | beginOk hp | beginRaise hp | popen hp | startW hp | startO hp | startE hp | wait _ hp
    | signalled hp | notify hp | notifyRaise hp | cleanup hp | joinWExn hp | after _ hp
    | afterRaise _ hp =>
    simp only [Threads, hp] at hi ⊢
    try simp_all [upd]
  | joinW hp hw =>
    simp only [Threads, hp] at hi ⊢
    rcases not_alive_w hw with h | h <;> simp_all
  | joinO exn hp hr | joinE exn hp hr =>
    cases exn <;> simp only [Threads, hp] at hi ⊢ <;> rcases not_alive hr with h | h <;>
      simp_all [Rd.alive]
  | putNone exn hp | noWorker exn hp =>
    cases exn <;> simp only [Threads, hp] at hi ⊢ <;> simp_all
  | eof s hr | read s _ hr | put s _ hr =>
    revert hi
    simp only [Threads]
    cases s <;> split <;> simp_all [upd, Rd.alive]
  | getNone _ hw | get _ _ _ hw | deliver _ _ hw | deliverRaise _ _ hw =>
    revert hi
    simp only [Threads]
    split <;> simp_all
  | write | close | exit | steal => exact hi

/-- Notifications between the first and the last. -/
def Ev.Mid (chunked : Bool) (e : Ev) : Prop :=
  e = .interrupt ∨ (chunked = false ∧ ∃ s d, e = .line s d) ∨ (chunked = true ∧ ∃ s d, e = .chunk s d)

theorem mid_dataEv (b : Bool) (s : Stream) (d : Bytes) : (dataEv b s d).Mid b := by
  cases b
  · exact .inr (.inl ⟨rfl, s, d, rfl⟩)
  · exact .inr (.inr ⟨rfl, s, d, rfl⟩)

/-- A log that has begun and not ended. -/
def Begun (ch : Bool) (log : List Ev) : Prop := ∃ m, (∀ e ∈ m, e.Mid ch) ∧ log = .begin :: m

/-- A log that has ended. -/
def Finished (ch sudo : Bool) (rc : Int) (log : List Ev) : Prop :=
  ∃ m, (∀ e ∈ m, e.Mid ch) ∧ log = .begin :: (m ++ [endEv sudo rc])

theorem Begun.snoc {ch : Bool} {log : List Ev} {e : Ev} (h : Begun ch log) (he : e.Mid ch) :
    Begun ch (log ++ [e]) := by
  obtain ⟨m, h1, rfl⟩ := h
  refine ⟨m ++ [e], ?_, rfl⟩
  intro x hx
  rcases List.mem_append.1 hx with h | h
  · exact h1 x h
  · simp only [List.mem_singleton] at h; rw [h]; exact he

theorem Begun.finish {ch : Bool} {log : List Ev} (h : Begun ch log) (sudo : Bool) (rc : Int) :
    Finished ch sudo rc (log ++ [endEv sudo rc]) := by
  obtain ⟨m, h1, rfl⟩ := h
  exact ⟨m, h1, rfl⟩

/-- The shape of the log. -/
def Shape (c : Cfg) (st : St) : Prop :=
  match st.pc with
  | .begin => st.log = []
  | .returned rc => Finished c.chunked c.sudo rc st.log ∧ st.exited = some rc
  | .raised => (st.log = [] ∧ st.wk = .notStarted) ∨ Begun c.chunked st.log ∨
      (st.wk = .dead ∧ ∃ rc, Finished c.chunked c.sudo rc st.log ∧ st.exited = some rc)
  | _ => Begun c.chunked st.log

theorem shape_tr {c : Cfg} {st st' : St} (ht : Threads st) (hi : Shape c st) (h : Tr c st st') :
    Shape c st' := by
  have hb : st.pc = .begin → Begun c.chunked (st.log ++ [Ev.begin]) := by
    intro hp
    simp only [Shape, hp] at hi
    rw [hi]
    exact ⟨[], by simp, rfl⟩
  cases h with
  | beginOk hp => exact hb hp
  | beginRaise hp => exact .inr (.inl (hb hp))
  | bail hp =>
    simp only [Shape]
    simp only [Shape] at hi
    simp only [Threads] at ht
    split at hi <;> rename_i hpc
    · simp only [hpc] at ht; exact .inl ⟨hi, ht.2.2.1⟩
    · exact absurd hpc (hp.2.2 _)
    · exact hi
    · exact .inr (.inl hi)
  | abort hp =>
    simp only [Shape]
    rcases hp with hp | hp | hp | hp | hp | hp <;> simpa only [Shape, hp] using hi
  | notify hp | notifyRaise hp =>
    simp only [Shape, hp] at hi
    exact hi.snoc (.inl rfl)
  | after rc hp he =>
    simp only [Shape, hp] at hi
    exact ⟨hi.finish c.sudo rc, he⟩
  | afterRaise rc hp he =>
    simp only [Shape, hp] at hi
    simp only [Threads, hp] at ht
    exact .inr (.inr ⟨ht.2.2.1, rc, hi.finish c.sudo rc, he⟩)
  | joinWExn hp =>
    simp only [Shape, hp] at hi ⊢
    exact .inr (.inl hi)
  | popen hp | startW hp | startO hp | startE hp | wait _ hp | signalled hp | cleanup hp
    | joinO _ hp | joinE _ hp | putNone _ hp | noWorker _ hp | joinW hp =>
    simp only [Shape, hp] at hi ⊢
    exact hi
  | eof | read | put | write | close | steal => exact hi
  | exit rc hs he =>
    revert hi
    simp only [Shape]
    split
    · exact id
    · intro h; simp [he] at h
    · rintro (h | h | ⟨_, _, _, h⟩)
      · exact .inl h
      · exact .inr (.inl h)
      · simp [he] at h
    · exact id
  | getNone _ hw | get _ _ _ hw =>
    revert hi
    simp only [Shape]
    split
    · exact id
    · exact id
    · rintro (h | h | h)
      · simp [hw] at h
      · exact .inr (.inl h)
      · simp [hw] at h
    · exact id
  | deliver s d hw | deliverRaise s d hw =>
    have key : Begun c.chunked st.log → Begun c.chunked (st.log ++ [dataEv c.chunked s d]) := fun h => h.snoc (mid_dataEv _ _ _)
    revert hi
    simp only [Shape]
    simp only [Threads] at ht
    split <;> rename_i hpc
    · simp [hpc, hw] at ht
    · simp [hpc, hw] at ht
    · rintro (h | h | h)
      · simp [hw] at h
      · exact .inr (.inl (key h))
      · simp [hw] at h
    · exact key

/-! ### Contents -/

/-- The data of a notification about a stream. -/
def Ev.data (s : Stream) : Ev → Option Bytes
  | .line t d => if t = s then some d else none
  | .chunk t d => if t = s then some d else none
  | _ => none

/-- What the delegate was told about a stream. -/
def told (s : Stream) (log : List Ev) : List Bytes := log.filterMap (Ev.data s)

/-- A complete line. -/
def FullLine (l : Bytes) : Prop := ∃ m, (10 : Fin 256) ∉ m ∧ l = m ++ [10]

def qItem (s : Stream) : Option (Stream × Bytes) → Option Bytes
  | some (t, d) => if t = s then some d else none
  | none => none

def wkItems (s : Stream) : Wk → List Bytes
  | .holding t d => if t = s then [d] else []
  | _ => []

def rdItems : Rd → List Bytes
  | .holding d => [d]
  | _ => []

/-- What was read from a stream, in order: told, held by the worker, in the queue, held by the reader. -/
def items (st : St) (s : Stream) : List Bytes :=
  told s st.log ++ (wkItems s st.wk ++ (st.queue.filterMap (qItem s) ++ rdItems (st.rd s)))

/-- Pieces read so far. -/
def SoFar (chunked closed : Bool) (pipe : Bytes) (ls : List Bytes) : Prop :=
  if chunked then ∀ l ∈ ls, l.length = 1
  else (∀ l ∈ ls, FullLine l) ∨
    (pipe = [] ∧ closed = true ∧
      ∃ fs r, ls = fs ++ [r] ∧ (∀ l ∈ fs, FullLine l) ∧ r ≠ [] ∧ (10 : Fin 256) ∉ r)

/-- Nothing is lost, duplicated or reordered on the way. -/
def Content (c : Cfg) (st : St) (s : Stream) : Prop :=
  (items st s).flatten ++ st.pipe s = st.wrote s ∧
  SoFar c.chunked (st.closed s) (st.pipe s) (items st s) ∧
  (st.rd s = .finished → st.pipe s = [] ∧ st.closed s = true)

theorem takeLine_ne {p : Bytes} (h : p ≠ []) : takeLine p ≠ [] := by
  cases p with
  | nil => exact absurd rfl h
  | cons b l => unfold takeLine; split <;> simp

theorem takeLine_full {p : Bytes} (h : (10 : Fin 256) ∈ p) : FullLine (takeLine p) := by
  induction p with
  | nil => simp at h
  | cons b l ih =>
    unfold takeLine
    split
    · rename_i hb; subst hb; exact ⟨[], by simp, rfl⟩
    · rename_i hb
      have : (10 : Fin 256) ∈ l := by
        rcases List.mem_cons.1 h with h | h
        · exact absurd h.symm hb
        · exact h
      obtain ⟨m, h1, h2⟩ := ih this
      refine ⟨b :: m, ?_, by rw [h2]; rfl⟩
      intro hm
      rcases List.mem_cons.1 hm with h | h
      · exact hb h.symm
      · exact h1 h

theorem takeLine_drop (p : Bytes) : takeLine p ++ p.drop (takeLine p).length = p := by
  induction p with
  | nil => rfl
  | cons b l ih =>
    unfold takeLine
    split
    · simp
    · simp [ih]

theorem read_eof {ch cl : Bool} {p : Bytes} (h : readData ch cl p = some []) : p = [] ∧ cl = true := by
  unfold readData at h
  split at h
  · split at h
    · simp at h
    · split at h
      · rename_i hc; exact ⟨rfl, hc⟩
      · simp at h
  · split at h
    · rename_i hm
      simp only [Option.some.injEq] at h
      exact absurd h (takeLine_ne (by rintro rfl; simp at hm))
    · split at h
      · rename_i hc
        simp only [Option.some.injEq] at h
        exact ⟨h, hc⟩
      · simp at h

theorem read_some {ch cl : Bool} {p d : Bytes} (h : readData ch cl p = some d) (hd : d ≠ []) :
    d ++ p.drop d.length = p ∧ p ≠ [] ∧ (ch = true → d.length = 1) ∧
      (ch = false → FullLine d ∨ ((10 : Fin 256) ∉ d ∧ p.drop d.length = [] ∧ cl = true)) := by
  unfold readData at h
  split at h
  · rename_i hch
    subst hch
    split at h
    · simp only [Option.some.injEq] at h
      subst h
      simp
    · split at h
      · simp only [Option.some.injEq] at h; exact absurd h.symm hd
      · simp at h
  · rename_i hch
    simp only [Bool.not_eq_true] at hch
    subst hch
    split at h
    · rename_i hm
      simp only [Option.some.injEq] at h
      subst h
      exact ⟨takeLine_drop p, by rintro rfl; simp at hm, by simp, fun _ => .inl (takeLine_full hm)⟩
    · rename_i hm
      split at h
      · rename_i hc
        simp only [Option.some.injEq] at h
        subst h
        exact ⟨by simp, hd, by simp, fun _ => .inr ⟨hm, by simp, hc⟩⟩
      · simp at h

theorem told_append (s : Stream) (a b : List Ev) : told s (a ++ b) = told s a ++ told s b := by
  simp [told]

theorem told_dataEv (s t : Stream) (b : Bool) (d : Bytes) :
    told s [dataEv b t d] = if t = s then [d] else [] := by
  cases b <;> simp only [dataEv, told, List.filterMap, Ev.data] <;> split <;> simp_all

theorem told_endEv (s : Stream) (b : Bool) (rc : Int) : told s [endEv b rc] = [] := by
  unfold endEv
  split
  · rfl
  · split <;> rfl

theorem content_congr {c : Cfg} {st st' : St} {s : Stream} (h : Content c st s)
    (hi : items st' s = items st s) (hp : st'.pipe = st.pipe) (hc : st'.closed = st.closed)
    (hw : st'.wrote = st.wrote) (hr : st'.rd s = .finished → st.rd s = .finished) :
    Content c st' s := by
  unfold Content at *
  rw [hi, hp, hc, hw]
  exact ⟨h.1, h.2.1, fun hf => h.2.2 (hr hf)⟩

theorem sofar_read {ch cl : Bool} {p d : Bytes} {ls : List Bytes} (h : SoFar ch cl p ls) (hp : p ≠ [])
    (h1 : ch = true → d.length = 1) (hne : d ≠ [])
    (h2 : ch = false → FullLine d ∨ ((10 : Fin 256) ∉ d ∧ p.drop d.length = [] ∧ cl = true)) :
    SoFar ch cl (p.drop d.length) (ls ++ [d]) := by
  unfold SoFar at *
  cases ch with
  | true =>
    simp only [if_true] at h ⊢
    intro l hl
    rcases List.mem_append.1 hl with hl | hl
    · exact h l hl
    · simp only [List.mem_singleton] at hl; rw [hl]; exact h1 rfl
  | false =>
    simp only [Bool.false_eq_true, if_false] at h ⊢
    rcases h with h | ⟨h, _⟩
    · rcases h2 rfl with hf | ⟨hf, hd, hc⟩
      · left
        intro l hl
        rcases List.mem_append.1 hl with hl | hl
        · exact h l hl
        · simp only [List.mem_singleton] at hl; rw [hl]; exact hf
      · exact .inr ⟨hd, hc, ls, d, rfl, h, hne, hf⟩
    · exact absurd h hp

theorem sofar_write {ch cl : Bool} {p p' : Bytes} {ls : List Bytes} (h : SoFar ch cl p ls)
    (hc : cl = false) : SoFar ch cl p' ls := by
  unfold SoFar at *
  cases ch with
  | true => exact h
  | false =>
    simp only [Bool.false_eq_true, if_false] at h ⊢
    rcases h with h | ⟨_, h, _⟩
    · exact .inl h
    · rw [hc] at h; cases h

theorem sofar_close {ch cl cl' : Bool} {p : Bytes} {ls : List Bytes} (h : SoFar ch cl p ls)
    (hc : cl = true → cl' = true) : SoFar ch cl' p ls := by
  unfold SoFar at *
  cases ch with
  | true => exact h
  | false =>
    simp only [Bool.false_eq_true, if_false] at h ⊢
    rcases h with h | ⟨h0, h, h1⟩
    · exact .inl h
    · exact .inr ⟨h0, hc h, h1⟩

theorem content_tr {c : Cfg} (hsudo : c.sudo = false) {st st' : St} (ht : Threads st)
    (h : Tr c st st') (s : Stream) (hi : Content c st s) : Content c st' s := by
  cases h with
  | steal _ _ _ h => rw [hsudo] at h; cases h
  | abort | bail | popen | wait | signalled | cleanup | joinO | joinE | noWorker | joinW | joinWExn
    | exit => exact content_congr hi rfl rfl rfl rfl id
  | beginOk | beginRaise | notify | notifyRaise =>
    refine content_congr hi ?_ rfl rfl rfl id
    simp only [items, told_append]
    simp [told, Ev.data]
  | after | afterRaise =>
    refine content_congr hi ?_ rfl rfl rfl id
    simp only [items, told_append, told_endEv, List.append_nil]
  | startW hp =>
    simp only [Threads, hp] at ht
    refine content_congr hi ?_ rfl rfl rfl id
    simp [items, ht.2.2.1, wkItems]
  | startO hp | startE hp =>
    simp only [Threads, hp] at ht
    cases s
    all_goals
      refine content_congr hi ?_ rfl rfl rfl (by simp [upd])
      simp [items, upd, ht.1, ht.2.1, rdItems]
  | putNone =>
    refine content_congr hi ?_ rfl rfl rfl id
    simp [items, qItem]
  | eof t hr hd =>
    obtain ⟨h1, h2⟩ := read_eof hd
    by_cases hst : s = t
    · subst hst
      have e : items { st with rd := upd st.rd s .finished } s = items st s := by
        simp [items, hr, rdItems]
      unfold Content
      rw [e]
      exact ⟨hi.1, hi.2.1, fun _ => ⟨h1, h2⟩⟩
    · refine content_congr hi ?_ rfl rfl rfl ?_ <;> simp [items, upd, hst]
  | read t d hr hd hne =>
    obtain ⟨h1, h2, h3, h4⟩ := read_some hd hne
    by_cases hst : s = t
    · subst hst
      have e : items { st with rd := upd st.rd s (.holding d), pipe := upd st.pipe s ((st.pipe s).drop d.length) } s =
          items st s ++ [d] := by
        simp [items, hr, rdItems]
      unfold Content
      rw [e]
      refine ⟨?_, ?_, by simp⟩
      · simp only [upd_same, List.flatten_append, List.flatten_cons, List.flatten_nil, List.append_nil,
          List.append_assoc]
        rw [h1]
        exact hi.1
      · simp only [upd_same]
        exact sofar_read hi.2.1 h2 h3 hne h4
    · have e1 : upd st.pipe t ((st.pipe t).drop d.length) s = st.pipe s := by simp [upd, hst]
      have e2 : upd st.rd t (.holding d) s = st.rd s := by simp [upd, hst]
      unfold Content items at *
      simp only [e1, e2]
      exact hi
  | put t d hr =>
    by_cases hst : s = t
    · subst hst
      refine content_congr hi ?_ rfl rfl rfl (by simp)
      simp [items, hr, rdItems, qItem]
    · refine content_congr hi ?_ rfl rfl rfl (by simp [upd, hst])
      have : ¬ t = s := fun h => hst h.symm
      simp [items, upd, hst, qItem, this]
  | getNone q hw hq =>
    refine content_congr hi ?_ rfl rfl rfl id
    simp [items, hw, hq, wkItems, List.filterMap_cons, qItem]
  | get t d q hw hq =>
    refine content_congr hi ?_ rfl rfl rfl id
    by_cases hst : t = s <;> simp [items, hw, hq, wkItems, qItem, hst]
  | deliver t d hw | deliverRaise t d hw =>
    refine content_congr hi ?_ rfl rfl rfl id
    simp only [items, told_append, told_dataEv, hw, wkItems]
    by_cases hst : t = s <;> simp [hst]
  | write t d hs hc =>
    by_cases hst : s = t
    · subst hst
      unfold Content at hi ⊢
      have e : items { st with pipe := upd st.pipe s (st.pipe s ++ d), wrote := upd st.wrote s (st.wrote s ++ d) } s =
          items st s := rfl
      rw [e]
      refine ⟨?_, ?_, ?_⟩
      · simp only [upd_same]; rw [← List.append_assoc, hi.1]
      · simp only [upd_same]
        exact sofar_write hi.2.1 hc
      · intro hf
        have := (hi.2.2 hf).2
        rw [hc] at this; cases this
    · unfold Content items at *
      simp only [upd, hst, if_false]
      exact hi
  | close t hs =>
    have hm : upd st.closed t true s = true ∨ upd st.closed t true s = st.closed s := by
      by_cases hst : s = t
      · subst hst; simp
      · simp [upd, hst]
    refine ⟨hi.1, ?_, ?_⟩
    · refine sofar_close hi.2.1 fun h2 => ?_
      rcases hm with h | h
      · exact h
      · exact h.trans h2
    · intro hf
      obtain ⟨h0, h2⟩ := hi.2.2 hf
      refine ⟨h0, ?_⟩
      rcases hm with h | h
      · exact h
      · exact h.trans h2

/-! ### The queue and the end of the worker -/

/-- The delegate never raises when it is told about output. -/
def Quiet (c : Cfg) : Prop := ∀ h s d, c.raises h (dataEv c.chunked s d) = false

/-- The end was not announced yet. -/
def Open (c : Cfg) (st : St) : Prop := none ∉ st.queue ∧ (Quiet c → st.wk ≠ .dead)

/-- The end was announced: it is the last thing in the queue, or the worker is gone. -/
def Closing (c : Cfg) (st : St) : Prop :=
  (st.rd .out).alive = false ∧ (st.rd .err).alive = false ∧
  ((∃ q, st.queue = q ++ [none] ∧ none ∉ q ∧ (Quiet c → st.wk ≠ .dead)) ∨
    (st.wk = .dead ∧ st.queue = []))

def Phase (c : Cfg) (st : St) : Prop :=
  match st.pc with
  | .joinW false | .after | .returned _ => Closing c st
  | .joinW true => (Open c st ∧ st.spawned = false) ∨ Closing c st
  | .raised => Open c st ∨ Closing c st
  | _ => Open c st

theorem open_congr {c : Cfg} {st st' : St} (h : Open c st) (hq : st'.queue = st.queue)
    (hw : st'.wk = st.wk) : Open c st' := by
  unfold Open at *; rw [hq, hw]; exact h

theorem phase_general {c : Cfg} {st st' : St} (h : Phase c st) (hpc : st'.pc = st.pc)
    (hsp : st'.spawned = st.spawned)
    (h1 : Open c st → Open c st') (h2 : Closing c st → Closing c st') : Phase c st' := by
  revert h
  simp only [Phase, hpc, hsp]
  split
  · exact h2
  · exact h2
  · exact h2
  · exact Or.imp (fun h => ⟨h1 h.1, h.2⟩) h2
  · exact Or.imp h1 h2
  · exact h1

theorem snoc_none {q q' : List (Option (Stream × Bytes))} {x} (h : q ++ [none] = x :: q')
    (hn : none ∉ q) : (x = none ∧ q' = []) ∨ ∃ q'', q' = q'' ++ [none] ∧ none ∉ q'' := by
  cases q with
  | nil => simp only [List.nil_append, List.cons.injEq] at h; exact .inl ⟨h.1.symm, h.2.symm⟩
  | cons y q =>
    simp only [List.cons_append, List.cons.injEq] at h
    exact .inr ⟨q, h.2.symm, fun hm => hn (List.mem_cons_of_mem _ hm)⟩

theorem phase_tr {c : Cfg} {st st' : St} (ht : Threads st) (hi : Phase c st) (h : Tr c st st') :
    Phase c st' := by
  cases h with
  | beginOk hp | popen hp | startO hp | startE hp | wait _ hp | signalled hp
    | notify hp | notifyRaise hp | cleanup hp | joinO _ hp | joinE _ hp =>
    simp only [Phase, hp] at hi ⊢
    exact open_congr hi rfl rfl
  | startW hp =>
    simp only [Phase, hp] at hi ⊢
    exact ⟨hi.1, fun _ => by simp⟩
  | beginRaise hp =>
    simp only [Phase, hp] at hi ⊢
    exact .inl (open_congr hi rfl rfl)
  | abort hp =>
    rcases hp with hp | hp | hp | hp | hp | hp <;> simp only [Phase, hp] at hi ⊢ <;>
      exact open_congr hi rfl rfl
  | bail =>
    revert hi
    simp only [Phase]
    split
    · exact .inr
    · exact .inr
    · exact .inr
    · exact Or.imp_left (·.1)
    · exact id
    · exact .inl
  | putNone exn hp hs =>
    have hopen : Open c st := by simpa only [Phase, hp] using hi
    have hcl : Closing c { st with queue := st.queue ++ [none], pc := .joinW exn } := by
      have hrd : (st.rd .out).alive = false ∧ (st.rd .err).alive = false := by
        cases exn <;> simp only [Threads, hp] at ht
        · simp [ht.1, ht.2.1, Rd.alive]
        · exact ht
      exact ⟨hrd.1, hrd.2, .inl ⟨st.queue, rfl, hopen.1, hopen.2⟩⟩
    cases exn
    · exact hcl
    · exact .inr hcl
  | noWorker exn hp hs =>
    have hopen : Open c st := by simpa only [Phase, hp] using hi
    cases exn
    · simp only [Threads, hp] at ht
      rw [hs] at ht
      simp at ht
    · exact .inl ⟨hopen, hs⟩
  | joinW hp =>
    simp only [Phase, hp] at hi ⊢
    exact hi
  | joinWExn hp =>
    simp only [Phase, hp] at hi ⊢
    exact hi.imp_left (·.1)
  | after _ hp =>
    simp only [Phase, hp] at hi ⊢
    exact hi
  | afterRaise _ hp =>
    simp only [Phase, hp] at hi ⊢
    exact .inr hi
  | eof s hr _ | read s _ hr _ =>
    refine phase_general hi rfl rfl id ?_
    rintro ⟨h1, h2, _⟩
    cases s <;> simp_all [Rd.alive]
  | put s d hr =>
    refine phase_general hi rfl rfl ?_ ?_
    · rintro ⟨h1, h2⟩
      exact ⟨by simpa using h1, h2⟩
    · rintro ⟨h1, h2, _⟩
      cases s <;> simp_all [Rd.alive]
  | getNone q hw hq =>
    refine phase_general hi rfl rfl ?_ ?_
    · rintro ⟨h1, _⟩; rw [hq] at h1; simp at h1
    · rintro ⟨h1, h2, h3⟩
      refine ⟨h1, h2, .inr ⟨rfl, ?_⟩⟩
      rcases h3 with ⟨q', h3, h4, _⟩ | ⟨h3, _⟩
      · rw [hq] at h3
        rcases snoc_none h3.symm h4 with h | ⟨q'', rfl, h⟩
        · exact h.2
        · exfalso
          have : none ∈ q' := by
            cases q' with
            | nil => simp at h3
            | cons y q' =>
              simp only [List.cons_append, List.cons.injEq] at h3
              simp [← h3.1]
          exact h4 this
      · rw [hw] at h3; cases h3
  | get s d q hw hq =>
    refine phase_general hi rfl rfl ?_ ?_
    · rintro ⟨h1, h2⟩
      rw [hq] at h1
      exact ⟨fun h => h1 (List.mem_cons_of_mem _ h), fun _ => by simp⟩
    · rintro ⟨h1, h2, h3⟩
      refine ⟨h1, h2, .inl ?_⟩
      rcases h3 with ⟨q', h3, h4, _⟩ | ⟨h3, _⟩
      · rw [hq] at h3
        rcases snoc_none h3.symm h4 with ⟨h, _⟩ | ⟨q'', h, h'⟩
        · cases h
        · exact ⟨q'', h, h', fun _ => by simp⟩
      · rw [hw] at h3; cases h3
  | deliver s d hw hr =>
    refine phase_general hi rfl rfl (fun h => ⟨h.1, fun _ => by simp⟩) ?_
    rintro ⟨h1, h2, h3⟩
    refine ⟨h1, h2, .inl ?_⟩
    rcases h3 with ⟨q', h3, h4, _⟩ | ⟨h3, _⟩
    · exact ⟨q', h3, h4, fun _ => by simp⟩
    · rw [hw] at h3; cases h3
  | deliverRaise s d hw hr =>
    have hq : ¬ Quiet c := fun h => by rw [h] at hr; cases hr
    refine phase_general hi rfl rfl (fun h => ⟨h.1, fun h => absurd h hq⟩) ?_
    rintro ⟨h1, h2, h3⟩
    refine ⟨h1, h2, .inl ?_⟩
    rcases h3 with ⟨q', h3, h4, _⟩ | ⟨h3, _⟩
    · exact ⟨q', h3, h4, fun h => absurd h hq⟩
    · rw [hw] at h3; cases h3
  | write | close | exit | steal => exact hi

/-- The worker exists only after the process was started. -/
def Born (st : St) : Prop := st.wk ≠ .notStarted → st.spawned = true

theorem born_tr {c : Cfg} {st st' : St} (ht : Threads st) (hi : Born st) (h : Tr c st st') :
    Born st' := by
  cases h with
  | popen => exact fun _ => rfl
  | startW hp => simp only [Threads, hp] at ht; exact fun _ => ht.2.2.2
  | getNone _ hw | get _ _ _ hw | deliver _ _ hw | deliverRaise _ _ hw =>
    exact fun _ => hi (by simp [hw])
  | _ => exact hi

/-- A reader has finished only at the end of its stream. -/
def Eof (st : St) : Prop := ∀ s, st.rd s = .finished → st.pipe s = [] ∧ st.closed s = true

theorem eof_tr {c : Cfg} {st st' : St} (hi : Eof st) (h : Tr c st st') : Eof st' := by
  cases h with
  | startO | startE =>
    intro s hs
    refine hi s ?_
    revert hs
    simp only [upd]
    split
    · simp
    · exact id
  | eof t hr hd =>
    intro s hs
    by_cases h : s = t
    · subst h; exact read_eof hd
    · exact hi s (by simpa [upd, h] using hs)
  | read t d hr hd hne =>
    intro s hs
    by_cases h : s = t
    · subst h; simp at hs
    · have := hi s (by simpa [upd, h] using hs)
      simpa [upd, h] using this
  | put t d hr =>
    intro s hs
    by_cases h : s = t
    · subst h; simp at hs
    · exact hi s (by simpa [upd, h] using hs)
  | write t d hs hc =>
    intro s hf
    have := hi s hf
    by_cases h : s = t
    · subst h; rw [hc] at this; simp at this
    · simpa [upd, h] using this
  | close t =>
    intro s hf
    have := hi s hf
    refine ⟨this.1, ?_⟩
    by_cases h : s = t
    · subst h; simp
    · simpa [upd, h] using this.2
  | steal t n =>
    intro s hf
    have := hi s hf
    refine ⟨?_, this.2⟩
    by_cases h : s = t
    · subst h; simp [this.1]
    · simpa [upd, h] using this.1
  | _ => exact hi

theorem threads_of {c : Cfg} {st : St} (h : Reachable c st) : Threads st :=
  invariant (P := Threads) (by simp [Threads, init]) (fun _ _ => threads_tr) h

theorem shape_of {c : Cfg} {st : St} (h : Reachable c st) : Shape c st :=
  (invariant (P := fun st => Threads st ∧ Shape c st) (by simp [Threads, Shape, init])
    (fun _ _ hi ht => ⟨threads_tr hi.1 ht, shape_tr hi.1 hi.2 ht⟩) h).2

theorem content_of {c : Cfg} (hs : c.sudo = false) {st : St} (h : Reachable c st) (s : Stream) :
    Content c st s :=
  (invariant (P := fun st => Threads st ∧ Content c st s)
    ⟨by simp [Threads, init], by
      refine ⟨by simp [items, told, wkItems, rdItems, init], ?_, by simp [init]⟩
      unfold SoFar
      split
      · simp [items, told, wkItems, rdItems, init]
      · left; simp [items, told, wkItems, rdItems, init]⟩
    (fun _ _ hi ht => ⟨threads_tr hi.1 ht, content_tr hs hi.1 ht s hi.2⟩) h).2

theorem phase_of {c : Cfg} {st : St} (h : Reachable c st) : Phase c st :=
  (invariant (P := fun st => Threads st ∧ Phase c st)
    ⟨by simp [Threads, init], by simp [Phase, Open, init]⟩
    (fun _ _ hi ht => ⟨threads_tr hi.1 ht, phase_tr hi.1 hi.2 ht⟩) h).2

theorem born_of {c : Cfg} {st : St} (h : Reachable c st) : Born st :=
  (invariant (P := fun st => Threads st ∧ Born st)
    ⟨by simp [Threads, init], by simp [Born, init]⟩
    (fun _ _ hi ht => ⟨threads_tr hi.1 ht, born_tr hi.1 hi.2 ht⟩) h).2

theorem eof_of {c : Cfg} {st : St} (h : Reachable c st) : Eof st :=
  invariant (P := Eof) (by simp [Eof, init]) (fun _ _ => eof_tr) h

end Verif.Extcmd
