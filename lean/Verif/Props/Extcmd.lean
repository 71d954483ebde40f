import Verif.Lemmas.Extcmd

/-!
# C44 and C57: the output of a command

* `C44_delivery_partial`: when `call` returns, the delegate was told exactly what the command wrote, in
  order, between the first and the last notification; for all schedules and contents, for delegates
  that do not raise when told about output.
* `C44_order`: the order of notifications in all reachable states, whatever raises or interrupts.
* `C44_prefix`: what has been told is always a prefix of what was written.
* `C44_progress`, `C44_terminates`: no deadlock, and no endless run once the command has ended.
* `C44_raise_violated`, `C44_late_violated`, `C44_sudo_violated`, `C44_sudo_signal_violated`: a delegate
  that raises once is told nothing more; an interrupt while the threads are joined; the controller that
  feeds a password to sudo.
* `C44_chain`, `C44_transform`, `C44_transform_violated`: delegates made of delegates.
* `C57_partial`, `C57_chunked_violated`, `C57_ui_violated`: the log of a job.
-/

namespace Verif.Extcmd

/-! ## Specification -/

/-- A text and its lines: each ends with its only newline, except that the last may lack it. -/
def Lines (w : Bytes) (ls : List Bytes) : Prop :=
  ls.flatten = w ∧ ∃ fs r, ls = fs ++ r ∧ (∀ l ∈ fs, FullLine l) ∧
    (r = [] ∨ ∃ l, r = [l] ∧ l ≠ [] ∧ (10 : Fin 256) ∉ l)

/-- A text has one list of lines. -/
theorem lines_unique {w : Bytes} {a b : List Bytes} (ha : Lines w a) (hb : Lines w b) : a = b := by
  have full : ∀ {l l' u u' : Bytes}, FullLine l → FullLine l' → l ++ u = l' ++ u' → l = l' ∧ u = u' := by
    rintro l l' u u' ⟨m, hm, rfl⟩ ⟨m', hm', rfl⟩ h
    induction m generalizing m' with
    | nil =>
      cases m' with
      | nil => simpa using h
      | cons x m' =>
        simp only [List.nil_append, List.cons_append, List.cons.injEq] at h
        exact absurd (by simp [← h.1]) hm'
    | cons x m ih =>
      cases m' with
      | nil =>
        simp only [List.nil_append, List.cons_append, List.cons.injEq] at h
        exact absurd (by simp [h.1]) hm
      | cons y m' =>
        simp only [List.cons_append, List.cons.injEq] at h
        have := ih (fun h => hm (by simp [h])) m' (fun h => hm' (by simp [h])) h.2
        simp [h.1, this.1, this.2]
  have mem : ∀ {l : Bytes}, FullLine l → (10 : Fin 256) ∈ l := by
    rintro l ⟨m, _, rfl⟩; simp
  obtain ⟨ha, fa, ra, rfl, hfa, hra⟩ := ha
  obtain ⟨hb, fb, rb, rfl, hfb, hrb⟩ := hb
  rw [← hb] at ha
  clear hb
  have hne : ∀ {r : List Bytes}, (r = [] ∨ ∃ l, r = [l] ∧ l ≠ [] ∧ (10 : Fin 256) ∉ l) →
      (10 : Fin 256) ∉ r.flatten := by
    rintro r (rfl | ⟨l, rfl, _, h⟩) <;> simp_all
  induction fa generalizing fb with
  | nil =>
    cases fb with
    | nil =>
      simp only [List.nil_append] at ha ⊢
      rcases hra with rfl | ⟨l, rfl, h1, _⟩ <;> rcases hrb with rfl | ⟨l', rfl, h2, _⟩ <;> simp_all
    | cons x fb =>
      exfalso
      apply hne hra
      simp only [List.nil_append, List.cons_append, List.flatten_cons] at ha
      rw [ha]
      exact List.mem_append_left _ (mem (hfb x (by simp)))
  | cons x fa ih =>
    cases fb with
    | nil =>
      exfalso
      apply hne hrb
      simp only [List.nil_append, List.cons_append, List.flatten_cons] at ha
      rw [← ha]
      exact List.mem_append_left _ (mem (hfa x (by simp)))
    | cons y fb =>
      simp only [List.cons_append, List.flatten_cons] at ha ⊢
      obtain ⟨h1, h2⟩ := full (hfa x (by simp)) (hfb y (by simp)) ha
      rw [h1, ih (fun l hl => hfa l (by simp [hl])) fb h2 (fun l hl => hfb l (by simp [hl]))]

/-- The last notification: by a signal or not. -/
def lastEv (sudo : Bool) (rc : Int) : Ev :=
  if sudo = false ∧ rc < 0 then .abnormal (-rc) else .ended rc

theorem endEv_eq (sudo : Bool) (rc : Int) : endEv sudo rc = lastEv sudo rc := by
  cases sudo <;> simp [endEv, lastEv]

/-! ## C44 -/

/-- **C44**, partial: when `call` returns, the delegate was told of the beginning, then of all the
output of each stream in order, line by line or byte by byte, then of the end; nothing is left in the
queue for a later call. The delegate must not raise when told about output
(`C44_raise_violated`) and the controller must not be the one for sudo (`C44_sudo_violated`). -/
theorem C44_delivery_partial (c : Cfg) (hs : c.sudo = false) (hq : Quiet c) (st : St)
    (hr : Reachable c st) (rc : Int) (hp : st.pc = .returned rc) :
    st.exited = some rc ∧ st.queue = [] ∧
    (∃ m, st.log = .begin :: (m ++ [lastEv false rc]) ∧ ∀ e ∈ m, e.Mid c.chunked) ∧
    ∀ s, st.closed s = true ∧
      (c.chunked = false → Lines (st.wrote s) (told s st.log)) ∧
      (c.chunked = true → told s st.log = (st.wrote s).map fun b => [b]) := by
  have ht := threads_of hr
  have hsh := shape_of hr
  have hph := phase_of hr
  simp only [Threads, hp] at ht
  simp only [Shape, hp] at hsh
  simp only [Phase, hp] at hph
  have hqueue : st.queue = [] := by
    rcases hph.2.2 with ⟨q, _, _, h⟩ | h
    · exact absurd ht.2.2.1 (h hq)
    · exact h.2
  refine ⟨hsh.2, hqueue, ?_, ?_⟩
  · obtain ⟨m, h1, h2⟩ := hsh.1
    exact ⟨m, by rw [h2, endEv_eq, hs], h1⟩
  · intro s
    obtain ⟨h1, h2, h3⟩ := content_of hs hr s
    have hf : st.rd s = .finished := by cases s; exact ht.1; exact ht.2.1
    obtain ⟨hpipe, hcl⟩ := h3 hf
    have hitems : items st s = told s st.log := by
      simp [items, hqueue, hf, rdItems, ht.2.2.1, wkItems]
    rw [hitems, hpipe, List.append_nil] at h1
    rw [hitems] at h2
    refine ⟨hcl, fun hch => ⟨h1, ?_⟩, fun hch => ?_⟩
    · simp only [SoFar, hch, Bool.false_eq_true, if_false] at h2
      rcases h2 with h2 | ⟨_, _, fs, r, h4, h5, h6, h7⟩
      · exact ⟨_, [], by simp, h2, .inl rfl⟩
      · exact ⟨fs, [r], h4, h5, .inr ⟨r, rfl, h6, h7⟩⟩
    · simp only [SoFar, hch, if_true] at h2
      rw [← h1]
      generalize told s st.log = ls at h2
      clear h1 hitems
      induction ls with
      | nil => rfl
      | cons l ls ih =>
        have hl := h2 l (by simp)
        obtain ⟨b, rfl⟩ := List.length_eq_one_iff.1 hl
        rw [List.flatten_cons, List.map_append, ← ih (fun x hx => h2 x (by simp [hx]))]
        rfl

/-- **C44**, order: at all times, whatever raises, fails or is interrupted, the notifications are the
first one, then only output and interrupts, then possibly the last one (which tells how the command
really ended) and nothing after it. -/
theorem C44_order (c : Cfg) (st : St) (hr : Reachable c st) :
    st.log = [] ∨ ∃ m, (∀ e ∈ m, e.Mid c.chunked) ∧ (st.log = .begin :: m ∨
      ∃ rc, st.exited = some rc ∧ st.log = .begin :: (m ++ [lastEv c.sudo rc])) := by
  have hsh := shape_of hr
  have hb : Begun c.chunked st.log → st.log = [] ∨ ∃ m, (∀ e ∈ m, e.Mid c.chunked) ∧
      (st.log = .begin :: m ∨ ∃ rc, st.exited = some rc ∧ st.log = .begin :: (m ++ [lastEv c.sudo rc])) := by
    rintro ⟨m, h1, h2⟩; exact .inr ⟨m, h1, .inl h2⟩
  have hf : ∀ rc, Finished c.chunked c.sudo rc st.log → st.exited = some rc →
      st.log = [] ∨ ∃ m, (∀ e ∈ m, e.Mid c.chunked) ∧
      (st.log = .begin :: m ∨ ∃ rc, st.exited = some rc ∧ st.log = .begin :: (m ++ [lastEv c.sudo rc])) := by
    rintro rc ⟨m, h1, h2⟩ he; exact .inr ⟨m, h1, .inr ⟨rc, he, by rw [h2, endEv_eq]⟩⟩
  simp only [Shape] at hsh
  split at hsh
  · exact .inl hsh
  · exact hf _ hsh.1 hsh.2
  · rcases hsh with h | h | ⟨_, rc, h1, h2⟩
    · exact .inl h.1
    · exact hb h
    · exact hf rc h1 h2
  · exact hb hsh

/-- **C44**, at all times: what was told about a stream is the beginning of what was written to it,
cut into lines or bytes. -/
theorem C44_prefix (c : Cfg) (hs : c.sudo = false) (st : St) (hr : Reachable c st) (s : Stream) :
    (told s st.log).flatten <+: st.wrote s ∧
      (c.chunked = true → ∀ l ∈ told s st.log, l.length = 1) ∧
      (c.chunked = false → ∀ l ∈ told s st.log, FullLine l ∨ (st.closed s = true ∧ (10 : Fin 256) ∉ l)) := by
  obtain ⟨h1, h2, _⟩ := content_of hs hr s
  refine ⟨?_, ?_, ?_⟩
  · rw [← h1, items, List.flatten_append, List.append_assoc]
    exact List.prefix_append _ _
  · intro hch l hl
    simp only [SoFar, hch, if_true] at h2
    exact h2 l (List.mem_append_left _ hl)
  · intro hch l hl
    have hl' : l ∈ items st s := List.mem_append_left _ hl
    simp only [SoFar, hch, Bool.false_eq_true, if_false] at h2
    rcases h2 with h2 | ⟨_, hc, fs, r, h4, h5, _, h7⟩
    · exact .inl (h2 l hl')
    · rw [h4] at hl'
      rcases List.mem_append.1 hl' with h | h
      · exact .inl (h5 l h)
      · simp only [List.mem_singleton] at h
        exact .inr ⟨hc, h ▸ h7⟩

/-- Steps of the threads, as opposed to those of the command and the user. -/
def Act.ours : Act → Bool
  | .main _ | .read _ | .put _ | .get | .deliver => true
  | _ => false

theorem read_closed (ch : Bool) (p : Bytes) : ∃ d, readData ch true p = some d := by
  unfold readData
  cases ch
  · by_cases h : (10 : Fin 256) ∈ p <;> simp [h]
  · cases p <;> simp

/-- A reader that can still do something can do it when its pipe is closed. -/
theorem reader_moves (c : Cfg) (st : St) (s : Stream) (ha : (st.rd s).alive = true)
    (hc : st.closed s = true) : ∃ a st', a.ours = true ∧ step c a st = some st' := by
  cases hr : st.rd s with
  | running =>
    obtain ⟨d, hd⟩ := read_closed c.chunked (st.pipe s)
    refine ⟨.read s, ?_⟩
    by_cases hne : d = []
    · exact ⟨_, rfl, by simp [step, hr, hc, hd, hne]; rfl⟩
    · exact ⟨_, rfl, by simp [step, hr, hc, hd, hne]; rfl⟩
  | holding d => exact ⟨.put s, _, rfl, by simp [step, hr]; rfl⟩
  | notStarted => rw [hr] at ha; cases ha
  | finished => rw [hr] at ha; cases ha

/-- **C44**, no deadlock: when the command has ended and its pipes are closed, some thread can go on
until `call` is over. -/
theorem C44_progress (c : Cfg) (st : St) (hr : Reachable c st) (rc : Int) (he : st.exited = some rc)
    (hc : ∀ s, st.closed s = true) :
    (∃ rc, st.pc = .returned rc) ∨ st.pc = .raised ∨
      ∃ a st', a.ours = true ∧ step c a st = some st' := by
  have hm : ∀ st', mainStep c false st = some st' → ∃ a st', a.ours = true ∧ step c a st = some st' :=
    fun st' h => ⟨.main false, st', rfl, h⟩
  have ht := threads_of hr
  have hph := phase_of hr
  cases hp : st.pc with
  | returned rc => exact .inl ⟨rc, rfl⟩
  | raised => exact .inr (.inl rfl)
  | begin | popen | startW | startO | startE | signalled =>
    exact .inr (.inr (hm _ (by simp [mainStep, hp]; rfl)))
  | cleanup => exact .inr (.inr (hm _ (by simp [mainStep, hp]; rfl)))
  | after => exact .inr (.inr (hm _ (by simp [mainStep, hp, he]; rfl)))
  | wait =>
    refine .inr (.inr ?_)
    by_cases h1 : (st.rd .out).alive = true
    · exact reader_moves c st .out h1 (hc _)
    · by_cases h2 : (st.rd .err).alive = true
      · exact reader_moves c st .err h2 (hc _)
      · simp only [Threads, hp] at ht
        have f : ∀ s, st.rd s = .finished := by
          intro s
          cases s
          · rcases not_alive (by simpa using h1) with h | h
            · exact absurd h ht.1
            · exact h
          · rcases not_alive (by simpa using h2) with h | h
            · exact absurd h ht.2.1
            · exact h
        have e1 := (eof_of hr .out (f _)).1
        have e2 := (eof_of hr .err (f _)).1
        exact hm _ (by simp [mainStep, hp, he, hc, e1, e2]; rfl)
  | joinO exn =>
    refine .inr (.inr ?_)
    by_cases h1 : (st.rd .out).alive = true
    · exact reader_moves c st .out h1 (hc _)
    · rcases not_alive (by simpa using h1) with h | h
      · exact hm _ (by simp [mainStep, hp, h]; rfl)
      · exact hm _ (by simp [mainStep, hp, h]; rfl)
  | joinE exn =>
    refine .inr (.inr ?_)
    by_cases h1 : (st.rd .err).alive = true
    · exact reader_moves c st .err h1 (hc _)
    · rcases not_alive (by simpa using h1) with h | h
      · exact hm _ (by simp [mainStep, hp, h]; rfl)
      · exact hm _ (by simp [mainStep, hp, h]; rfl)
  | putNone exn =>
    refine .inr (.inr ?_)
    cases hs : st.spawned
    · exact hm _ (by simp [mainStep, hp, hs]; rfl)
    · exact hm _ (by simp [mainStep, hp, hs]; rfl)
  | joinW exn =>
    refine .inr (.inr ?_)
    cases hw : st.wk with
    | notStarted => exact hm _ (by simp [mainStep, hp, hw]; rfl)
    | dead => exact hm _ (by simp [mainStep, hp, hw]; rfl)
    | holding s d => exact ⟨.deliver, _, rfl, by simp [step, hw]; rfl⟩
    | waiting =>
      have hcl : Closing c st := by
        cases exn <;> simp only [Phase, hp] at hph
        · exact hph
        · rcases hph with h | h
          · have := born_of hr (by simp [hw])
            rw [h.2] at this; cases this
          · exact h
      rcases hcl.2.2 with ⟨q, hq, _⟩ | h
      · cases q with
        | nil => exact ⟨.get, _, rfl, by simp [step, hw, hq]; rfl⟩
        | cons x q =>
          cases x with
          | none => exact ⟨.get, _, rfl, by simp [step, hw, hq]; rfl⟩
          | some x => obtain ⟨s, d⟩ := x; exact ⟨.get, _, rfl, by simp [step, hw, hq]; rfl⟩
      · rw [hw] at h; simp at h

def Pc.rank : Pc → Nat
  | .begin => 20 | .popen => 19 | .startW => 18 | .startO => 16 | .startE => 14 | .signalled => 12
  | .wait => 11 | .cleanup => 10 | .joinO _ => 9 | .joinE _ => 8 | .putNone _ => 7 | .joinW _ => 2
  | .after => 1 | .returned _ => 0 | .raised => 0

def Rd.work : Rd → Nat
  | .running => 1 | .holding _ => 5 | _ => 0

def Wk.work : Wk → Nat
  | .waiting => 1 | .holding _ _ => 3 | _ => 0

/-- What remains to be done. -/
def work (st : St) : Nat :=
  st.pc.rank + (5 * (st.pipe .out).length + (st.rd .out).work) +
    (5 * (st.pipe .err).length + (st.rd .err).work) + 3 * st.queue.length + st.wk.work

theorem readData_le {ch cl : Bool} {p d : Bytes} (h : readData ch cl p = some d) : d.length ≤ p.length := by
  unfold readData at h
  have ht : ∀ p : Bytes, (takeLine p).length ≤ p.length := by
    intro p
    induction p with
    | nil => simp [takeLine]
    | cons b p ih => simp only [takeLine]; split <;> simp [ih]
  split at h
  · split at h
    · cases h; simp
    · split at h
      · cases h; simp
      · cases h
  · split at h
    · cases h; exact ht p
    · split at h
      · cases h; simp
      · cases h

theorem work_upd (st : St) (s : Stream) (r : Rd) (p : Bytes) (q : List (Option (Stream × Bytes)))
    (w : Wk) (l : List Ev)
    (h : 5 * p.length + r.work + 3 * q.length + w.work <
      5 * (st.pipe s).length + (st.rd s).work + 3 * st.queue.length + st.wk.work) :
    work { st with rd := upd st.rd s r, pipe := upd st.pipe s p, queue := q, wk := w, log := l } < work st := by
  cases s <;> simp [work, upd] <;> omega

theorem upd_self {α : Type} (f : Stream → α) (s : Stream) : upd f s (f s) = f := by
  funext t; simp only [upd]; split
  · rename_i h; rw [h]
  · rfl

theorem work_main {c : Cfg} {fail : Bool} {st st' : St} (h : mainStep c fail st = some st')
    (ht : Threads st) : work st' < work st := by
  simp only [mainStep] at h
  split at h <;> rename_i hp <;> simp only [Threads, hp] at ht
  · cases h
    simp only [work, hp]; split <;> simp [Pc.rank]
  · split at h <;> cases h
    · rw [hp]; simp only [work, hp, abort]; split <;> simp [Pc.rank]
    · simp [work, hp, Pc.rank]
  · cases h; simp [work, hp, Pc.rank, ht, Wk.work]; omega
  · cases h; simp [work, hp, Pc.rank, ht, upd, Rd.work]; try omega
  · cases h; simp [work, hp, Pc.rank, ht, upd, Rd.work]; try omega
  · split at h
    · split at h
      · cases h; simp [work, hp, Pc.rank]
      · cases h
    · split at h
      · cases h
      · split at h
        · cases h
        · cases h; simp [work, hp, Pc.rank]
  · split at h <;> cases h
    · simp [work, hp, Pc.rank]
    · simp only [work, hp]; split <;> simp [Pc.rank]
  · split at h <;> cases h <;> simp [work, hp, Pc.rank]
  · split at h <;> cases h; simp [work, hp, Pc.rank]
  · split at h <;> cases h; simp [work, hp, Pc.rank]
  · split at h <;> cases h <;> simp [work, hp, Pc.rank]; omega
  · split at h <;> cases h; simp only [work, hp]; split <;> simp [Pc.rank]
  · split at h <;> cases h; simp only [work, hp]; split <;> simp [Pc.rank]
  · cases h
  · cases h

theorem work_step {c : Cfg} {a : Act} {st st' : St} (ha : a.ours = true) (h : step c a st = some st')
    (ht : Threads st) : work st' < work st := by
  cases a with
  | interrupt | write | close | exit | steal => cases ha
  | main fail => exact work_main h ht
  | read s =>
    simp only [step] at h
    split at h
    · rename_i hr
      split at h
      · cases h
      · rename_i d hd
        split at h <;> cases h
        · have := work_upd st s .finished (st.pipe s) st.queue st.wk st.log (by simp [hr, Rd.work])
          rwa [upd_self] at this
        · rename_i hne
          have h1 := readData_le hd
          have h2 : 0 < d.length := List.length_pos_iff.2 hne
          exact work_upd st s _ _ st.queue st.wk st.log
            (by simp only [hr, Rd.work, List.length_drop]; omega)
    · cases h
  | put s =>
    simp only [step] at h
    split at h
    · rename_i d hr
      cases h
      have := work_upd st s .running (st.pipe s) (st.queue ++ [some (s, d)]) st.wk st.log
        (by simp only [hr, Rd.work, List.length_append, List.length_singleton]; omega)
      rwa [upd_self] at this
    · cases h
  | get =>
    simp only [step] at h
    split at h
    · rename_i hw hq
      cases h
      simp [work, hw, hq, Wk.work]
      omega
    · rename_i hw hq
      cases h
      simp [work, hw, hq, Wk.work]
      omega
    · cases h
  | deliver =>
    simp only [step] at h
    split at h
    · rename_i hw
      cases h
      simp only [work, hw]; split <;> simp [Wk.work]
    · cases h

theorem Reachable.next {c : Cfg} {a : Act} {st st' : St} (hr : Reachable c st)
    (h : step c a st = some st') : Reachable c st' := by
  obtain ⟨as, ha⟩ := hr
  exact ⟨as ++ [a], by rw [run_append, ha]; simp [run, h]⟩

/-- **C44**, no endless run: the threads can only take as many steps as there is work. -/
theorem C44_terminates (c : Cfg) (st : St) (hr : Reachable c st) (as : List Act) (st' : St)
    (ha : ∀ a ∈ as, a.ours = true) (h : run c as st = some st') : as.length + work st' ≤ work st := by
  induction as generalizing st with
  | nil => simp only [run, Option.some.injEq] at h; simp [h]
  | cons a as ih =>
    simp only [run, Option.bind_eq_some_iff] at h
    obtain ⟨st1, h1, h2⟩ := h
    have h3 := work_step (ha a (by simp)) h1 (threads_of hr)
    have h4 := ih st1 (hr.next h1) (fun x hx => ha x (by simp [hx])) h2
    simp only [List.length_cons]
    omega

theorem ours_keeps {c : Cfg} {a : Act} {st st' : St} (ha : a.ours = true) (h : step c a st = some st') :
    st'.exited = st.exited ∧ st'.closed = st.closed ∧ st'.wrote = st.wrote := by
  cases a with
  | interrupt | write | close | exit | steal => cases ha
  | main fail =>
    simp only [step, mainStep] at h
    (repeat' split at h) <;> cases h <;> exact ⟨rfl, rfl, rfl⟩
  | _ =>
    simp only [step] at h
    (repeat' split at h) <;> cases h <;> exact ⟨rfl, rfl, rfl⟩

/-- **C44**, `call` is over in the end: once the command has ended and its pipes are closed, the threads
reach the end of `call` in a number of steps bounded by the work left, and none of these steps changes
what the command did. -/
theorem C44_completes (c : Cfg) (st : St) (hr : Reachable c st) (rc : Int) (he : st.exited = some rc)
    (hc : ∀ s, st.closed s = true) :
    ∃ as st', (∀ a ∈ as, a.ours = true) ∧ as.length ≤ work st ∧ run c as st = some st' ∧
      (st'.pc = .returned rc ∨ st'.pc = .raised) ∧ st'.wrote = st.wrote := by
  generalize hn : work st = n
  induction n using Nat.strongRecOn generalizing st with
  | ind n ih =>
    rcases C44_progress c st hr rc he hc with ⟨rc', h⟩ | h | ⟨a, st1, ha, h⟩
    · have hs := shape_of hr
      simp only [Shape, h] at hs
      rw [he] at hs
      have : rc = rc' := by simpa using hs.2
      exact ⟨[], st, by simp, by simp, rfl, .inl (this ▸ h), rfl⟩
    · exact ⟨[], st, by simp, by simp, rfl, .inr h, rfl⟩
    · obtain ⟨k1, k2, k3⟩ := ours_keeps ha h
      have hw := work_step ha h (threads_of hr)
      obtain ⟨as, st', h1, h2, h3, h4, h5⟩ :=
        ih (work st1) (by omega) st1 (hr.next h) (by rw [k1, he]) (by rw [k2]; exact hc) rfl
      refine ⟨a :: as, st', ?_, ?_, ?_, h4, h5.trans k3⟩
      · intro x hx
        rcases List.mem_cons.1 hx with rfl | hx
        · exact ha
        · exact h1 x hx
      · simp only [List.length_cons]; omega
      · simp [run, h, h3]

/-! ### Where it fails -/

/-- `call` from the start until the threads run. -/
def start : List Act := List.replicate 5 (.main false)

/-- `call` from the end of the command until the return. -/
def finish : List Act := List.replicate 6 (.main false)

/-- The command ends. -/
def die (rc : Int) : List Act := [.exit rc, .close .out, .close .err]

/-- The line on the standard output goes through. -/
def through (s : Stream) : List Act := [.read s, .put s, .get, .deliver]

def plain (ch : Bool) : Cfg := { chunked := ch, sudo := false, raises := fun _ _ => false }

theorem quiet_plain (ch : Bool) : Quiet (plain ch) := by simp [Quiet, plain]

/-- Two streams, a line without newline and an interrupt that the command ignores. -/
def sample (ch : Bool) : List Act :=
  start ++ [.write .out [65, 10, 66], .write .err [67, 10], .read .err, .interrupt, .main false, .put .err] ++
    through .out ++ [.get, .deliver] ++ die 3 ++ through .out ++
    (if ch then through .out ++ through .err else []) ++ [.read .out, .read .err, .main false, .main false,
      .main false, .main false, .get, .main false, .main false]

example : (run (plain false) (sample false) init).map (fun st => (st.pc, st.log, st.wrote .out)) =
    some (.returned 3, [.begin, .interrupt, .line .err [67, 10], .line .out [65, 10], .line .out [66],
      .ended 3], [65, 10, 66]) := by decide +kernel

example : (run (plain true) (sample true) init).map (fun st => (st.pc, st.log)) =
    some (.returned 3, [.begin, .interrupt, .chunk .err [67], .chunk .out [65], .chunk .out [10],
      .chunk .out [66], .chunk .err [10], .ended 3]) := by decide +kernel

/-- The hypotheses of `C44_delivery_partial` and `C44_prefix`. -/
example : ∃ c st, c.sudo = false ∧ Quiet c ∧ Reachable c st ∧ st.pc = .returned 3 ∧
    told .out st.log = [[65, 10], [66]] := by
  have h : ((run (plain false) (sample false) init).map fun st => (st.pc, told .out st.log)) =
      some (.returned 3, [[65, 10], [66]]) := by decide +kernel
  obtain ⟨st, h1, h2⟩ := Option.map_eq_some_iff.1 h
  exact ⟨plain false, st, rfl, quiet_plain _, ⟨_, h1⟩, congrArg Prod.fst h2, congrArg Prod.snd h2⟩

/-- The hypotheses of `C44_progress` and `C44_completes`: ended, closed, nothing read so far. -/
example : ∃ st, Reachable (plain false) st ∧ st.exited = some (-9) ∧ (∀ s, st.closed s = true) ∧
    st.pc = .wait ∧ work st = 29 := by
  have h : ((run (plain false) (start ++ [.write .out [65, 10], .write .err [66]] ++ die (-9)) init).map
      fun st => (st.exited, st.closed .out, st.closed .err, st.pc, work st)) =
      some (some (-9), true, true, .wait, 29) := by decide +kernel
  obtain ⟨st, h1, h2⟩ := Option.map_eq_some_iff.1 h
  simp only [Prod.mk.injEq] at h2
  exact ⟨st, ⟨_, h1⟩, h2.1, fun s => by cases s; exact h2.2.1; exact h2.2.2.1, h2.2.2.2⟩

/-- A delegate that raises for the first line. -/
def touchy : Cfg :=
  { chunked := false, sudo := false,
    raises := fun _ e => e = .line .out [65, 10] }

/-- **C44** does not hold for a delegate that raises: the rest of the output is lost, yet the call
ends as if nothing had happened. -/
theorem C44_raise_violated : ∃ st, Reachable touchy st ∧ st.pc = .returned 0 ∧
    st.wrote .out = [65, 10, 66, 10] ∧ st.log = [.begin, .line .out [65, 10], .ended 0] ∧
    st.queue.length = 2 := by
  have h : ((run touchy (start ++ [.write .out [65, 10, 66, 10]] ++ die 0 ++ through .out ++
      [.read .out, .put .out, .read .out, .read .err] ++ finish) init).map
      fun st => (st.pc, st.wrote .out, st.log, st.queue.length)) =
      some (.returned 0, [65, 10, 66, 10], [.begin, .line .out [65, 10], .ended 0], 2) := by decide +kernel
  obtain ⟨st, h1, h2⟩ := Option.map_eq_some_iff.1 h
  simp only [Prod.mk.injEq] at h2
  exact ⟨st, ⟨_, h1⟩, h2⟩

/-- **C44** does not hold when CTRL-C is pressed while the threads are joined: the call raises, the
delegate is told about output later and never about the end. -/
theorem C44_late_violated : ∃ st st' as, Reachable (plain false) st ∧ st.pc = .raised ∧
    st.log = [.begin] ∧ (∀ a ∈ as, a.ours = true) ∧ run (plain false) as st = some st' ∧
    st'.log = [.begin, .line .out [65, 10]] ∧ st'.exited = some 0 := by
  have h : ((run (plain false) (start ++ [.write .out [65, 10]] ++ die 0 ++ [.main false, .interrupt])
      init).bind fun st => (run (plain false) (through .out) st).map
      fun st' => (st.pc, st.log, st'.log, st'.exited)) =
      some (.raised, [.begin], [.begin, .line .out [65, 10]], some 0) := by decide +kernel
  obtain ⟨st, h1, h2⟩ := Option.bind_eq_some_iff.1 h
  obtain ⟨st', h3, h4⟩ := Option.map_eq_some_iff.1 h2
  simp only [Prod.mk.injEq] at h4
  exact ⟨st, st', _, ⟨_, h1⟩, h4.1, h4.2.1, by simp [through, Act.ours], h3, h4.2.2.1, h4.2.2.2⟩

def sudoCfg : Cfg := { chunked := false, sudo := true, raises := fun _ _ => false }

/-- **C44** does not hold for the controller that feeds a password to sudo: `communicate` reads the
pipes as well and what it gets is lost, even the middle of a line; and a death by a signal is reported
as an ordinary end. -/
theorem C44_sudo_violated : Quiet sudoCfg ∧ ∃ st, Reachable sudoCfg st ∧ st.pc = .returned (-9) ∧
    st.wrote .out = [65, 66, 67, 10] ∧ st.log = [.begin, .line .out [66, 67, 10], .ended (-9)] := by
  refine ⟨by simp [Quiet, sudoCfg], ?_⟩
  have h : ((run sudoCfg (start ++ [.write .out [65], .steal .out 1, .write .out [66, 67, 10]] ++
      die (-9) ++ through .out ++ [.read .out, .read .err] ++ List.replicate 4 (.main false) ++ [.get] ++
      [.main false, .main false]) init).map
      fun st => (st.pc, st.wrote .out, st.log)) =
      some (.returned (-9), [65, 66, 67, 10], [.begin, .line .out [66, 67, 10], .ended (-9)]) := by
    decide +kernel
  obtain ⟨st, h1, h2⟩ := Option.map_eq_some_iff.1 h
  simp only [Prod.mk.injEq] at h2
  exact ⟨st, ⟨_, h1⟩, h2⟩

/-! ### Delegates made of delegates -/

/-- Chain of a list, as `Chain(list)`. -/
def chain : List Dlg → Dlg
  | [] => .nil
  | d :: l => .both d (chain l)

/-- **C44**, `Chain`: every delegate is told, in order, until one raises. -/
theorem C44_chain (raises : Nat → Ev → Bool) (ds : List Dlg) (e : Ev) :
    ((∀ d ∈ ds, (tell raises d e).2 = false) →
      tell raises (chain ds) e = ((ds.map fun d => (tell raises d e).1).flatten, false)) ∧
    (∀ pre d post, ds = pre ++ d :: post → (∀ x ∈ pre, (tell raises x e).2 = false) →
      (tell raises d e).2 = true →
      tell raises (chain ds) e =
        ((pre.map fun d => (tell raises d e).1).flatten ++ (tell raises d e).1, true)) := by
  refine ⟨?_, ?_⟩
  · intro h
    induction ds with
    | nil => simp [chain, tell]
    | cons d ds ih =>
      have h1 := h d (by simp)
      simp [chain, tell, h1, ih (fun x hx => h x (by simp [hx]))]
  · rintro pre d post rfl hpre hd
    induction pre with
    | nil => simp [chain, tell, hd]; rw [← hd]
    | cons x pre ih =>
      have h1 := hpre x (by simp)
      simp [chain, tell, h1, ih (fun y hy => hpre y (by simp [hy]))]

/-- **C44**, `Transform`: output goes through the callback, other notifications go through unchanged,
except `on_interrupt` (`C44_transform_violated`). -/
theorem C44_transform_partial (raises : Nat → Ev → Bool) (f : Stream → Bytes → Option Bytes) (d : Dlg) :
    (∀ s l l', f s l = some l' → tell raises (.transform f d) (.line s l) = tell raises d (.line s l') ∧
      tell raises (.transform f d) (.chunk s l) = tell raises d (.chunk s l')) ∧
    (∀ s l, f s l = none → tell raises (.transform f d) (.line s l) = ([], true)) ∧
    tell raises (.transform f d) .begin = tell raises d .begin ∧
    (∀ rc, tell raises (.transform f d) (.ended rc) = tell raises d (.ended rc)) ∧
    (∀ n, tell raises (.transform f d) (.abnormal n) = tell raises d (.abnormal n)) := by
  refine ⟨?_, ?_, rfl, fun _ => rfl, fun _ => rfl⟩
  · intro s l l' h; simp [tell, h]
  · intro s l h; simp [tell, h]

/-- `Transform` swallows `on_interrupt`. -/
theorem C44_transform_violated (raises : Nat → Ev → Bool) (f : Stream → Bytes → Option Bytes) (d : Dlg)
    (log : List Ev) (i : Nat) : Ev.interrupt ∉ seen raises (.transform f d) i (.interrupt :: log) ∨
    Ev.interrupt ∈ seen raises (.transform f d) i log := by
  by_cases h : Ev.interrupt ∈ seen raises (.transform f d) i log
  · exact .inr h
  · left; simpa [seen, tell] using h

/-! ## C57 -/

/-- How the runner sets up a call. -/
def runnerCfg (chunked : Bool) (raises : Nat → Ev → Bool) (ui io : Dlg) : Cfg :=
  { chunked := chunked, sudo := false, raises := fun _ e => (tell raises (runnerDlg ui io) e).2 }

/-- What one of the two delegates of the runner itself is told. -/
theorem seen_runner (raises : Nat → Ev → Bool) (ui io : Dlg) (i : Nat) (hi : i = 2 ∨ i = 3)
    (hown : ∀ e, ∀ p ∈ (tell raises ui e).1 ++ (tell raises io e).1, p.1 ≠ 2 ∧ p.1 ≠ 3) (e : Ev) :
    let l := ((tell raises (runnerDlg ui io) e).1.filter fun p => p.1 = i).map (·.2)
    (l = [e] ∨ l = []) ∧ ((tell raises (runnerDlg ui io) e).2 = false → l = [e]) := by
  have h1 : (tell raises ui e).1.filter (fun p => p.1 = i) = [] := by
    rw [List.filter_eq_nil_iff]
    intro p hp
    have := hown e p (List.mem_append_left _ hp)
    rcases hi with rfl | rfl <;> simp [this]
  have h2 : (tell raises io e).1.filter (fun p => p.1 = i) = [] := by
    rw [List.filter_eq_nil_iff]
    intro p hp
    have := hown e p (List.mem_append_right _ hp)
    rcases hi with rfl | rfl <;> simp [this]
  simp only [runnerDlg, tell]
  by_cases a : (tell raises ui e).2 = true
  · simp [a, h1]
  · by_cases b : (tell raises io e).2 = true
    · simp [a, b, h1, h2]
    · by_cases k : raises 2 e = true
      · rcases hi with rfl | rfl <;> simp [h1, h2, a, b, k]
      · by_cases k3 : raises 3 e = true
        · rcases hi with rfl | rfl <;> simp [h1, h2, a, b, k, k3]
        · rcases hi with rfl | rfl <;> simp [h1, h2, a, b, k, k3]

theorem told_records (s : Stream) (log log' : List Ev) (f : Ev → List Ev) (hlog : log' = log.flatMap f)
    (hf : ∀ e, (f e = [e] ∨ f e = []) ∧ ∀ s d, e = .line s d → f e = [e])
    (hm : ∀ s d, .chunk s d ∉ log) :
    ((records log').filter (·.1 = s)).map (·.2) = told s log ∧ fileOf s log' = (told s log).flatten := by
  subst hlog
  induction log with
  | nil => simp [records, told, fileOf]
  | cons e log ih =>
    have ih := ih (fun s d h => hm s d (by simp [h]))
    have he := hf e
    simp only [List.flatMap_cons]
    cases e with
    | line t d =>
      rw [he.2 t d rfl]
      simp only [List.cons_append, List.nil_append, records, fileOf, told, List.filterMap_cons, Ev.data]
      by_cases ht : t = s
      · simp [ht, told] at ih ⊢; exact ih
      · simp [ht, told] at ih ⊢; exact ih
    | chunk t d => exact absurd (by simp) (hm t d)
    | _ =>
      rcases he.1 with h | h <;> rw [h] <;> simpa [records, fileOf, told, Ev.data, List.filterMap_cons] using ih

/-- **C57**, partial: when the call returns, the records of the log are the lines of what the command
wrote, in order for each stream, and the files hold it byte by byte.  Full statement: for all jobs and
delegates; missing are jobs with `use-chunked-io` (`C57_chunked_violated`), delegates of the user
interface that raise (`C57_ui_violated`) and the controller for sudo (`C44_sudo_violated`). -/
theorem C57_partial (raises : Nat → Ev → Bool) (ui io : Dlg) (st : St)
    (hown : ∀ e, ∀ p ∈ (tell raises ui e).1 ++ (tell raises io e).1, p.1 ≠ 2 ∧ p.1 ≠ 3)
    (hq : ∀ s d, (tell raises (runnerDlg ui io) (.line s d)).2 = false)
    (hr : Reachable (runnerCfg false raises ui io) st)
    (rc : Int) (hp : st.pc = .returned rc) (s : Stream) :
    Lines (st.wrote s) (((records (seen raises (runnerDlg ui io) 2 st.log)).filter (·.1 = s)).map (·.2)) ∧
    fileOf s (seen raises (runnerDlg ui io) 3 st.log) = st.wrote s := by
  have hd := C44_delivery_partial _ rfl (by intro h t d; simpa [dataEv, runnerCfg] using hq t d) st hr rc hp
  have hm : ∀ t d, .chunk t d ∉ st.log := by
    obtain ⟨m, h1, h2⟩ := hd.2.2.1
    intro t d h
    rw [h1] at h
    simp only [List.mem_cons, List.mem_append, List.not_mem_nil, or_false, reduceCtorEq, false_or] at h
    rcases h with h | h
    · have := h2 _ h; simp [Ev.Mid, runnerCfg] at this
    · simp only [lastEv] at h; split at h <;> cases h
  have hl := (hd.2.2.2 s).2.1 rfl
  have hs : ∀ i, i = 2 ∨ i = 3 → ∀ e : Ev,
      let l := ((tell raises (runnerDlg ui io) e).1.filter fun p => p.1 = i).map (·.2)
      (l = [e] ∨ l = []) ∧ ∀ s d, e = .line s d → l = [e] := by
    intro i hi e
    have := seen_runner raises ui io i hi hown e
    exact ⟨this.1, fun s d h => this.2 (by rw [h]; exact hq s d)⟩
  have k2 := told_records s st.log _ _ rfl (hs 2 (.inl rfl)) hm
  have k3 := told_records s st.log _ _ rfl (hs 3 (.inr rfl)) hm
  refine ⟨?_, ?_⟩
  · have h := k2.1; simp only [seen]; rw [h]; exact hl
  · have h := k3.2; simp only [seen]; rw [h]; exact hl.1

/-- A quiet delegate of the user interface and one for output. -/
example : (∀ e, ∀ p ∈ (tell (fun _ _ => false) (.leaf 0) e).1 ++ (tell (fun _ _ => false) (.leaf 1) e).1,
      p.1 ≠ 2 ∧ p.1 ≠ 3) ∧
    (∀ s d, (tell (fun _ _ => false) (runnerDlg (.leaf 0) (.leaf 1)) (.line s d)).2 = false) ∧
    (run (runnerCfg false (fun _ _ => false) (.leaf 0) (.leaf 1))
      (sample false) init).map (fun st =>
        (st.pc, records (seen (fun _ _ => false) (runnerDlg (.leaf 0) (.leaf 1)) 2 st.log))) =
    some (.returned 3, [(.err, [67, 10]), (.out, [65, 10]), (.out, [66])]) := by
  refine ⟨by simp [tell], by simp [tell, runnerDlg], by decide +kernel⟩

/-- **C57** does not hold for jobs with the flag `use-chunked-io`: whatever the delegates and whatever
was written, log and files stay empty. -/
theorem C57_chunked_violated (raises : Nat → Ev → Bool) (ui io : Dlg) (st : St)
    (hown : ∀ e, ∀ p ∈ (tell raises ui e).1 ++ (tell raises io e).1, p.1 ≠ 2 ∧ p.1 ≠ 3)
    (hr : Reachable (runnerCfg true raises ui io) st) (s : Stream) :
    records (seen raises (runnerDlg ui io) 2 st.log) = [] ∧
    fileOf s (seen raises (runnerDlg ui io) 3 st.log) = [] := by
  have hm : ∀ t d, .line t d ∉ st.log := by
    intro t d h
    rcases C44_order _ st hr with h1 | ⟨m, h1, h2 | ⟨rc, _, h2⟩⟩
    · rw [h1] at h; cases h
    · rw [h2] at h
      simp only [List.mem_cons, reduceCtorEq, false_or] at h
      have := h1 _ h; simp [Ev.Mid, runnerCfg] at this
    · rw [h2] at h
      simp only [List.mem_cons, List.mem_append, List.not_mem_nil, or_false, reduceCtorEq, false_or] at h
      rcases h with h | h
      · have := h1 _ h; simp [Ev.Mid, runnerCfg] at this
      · simp only [lastEv] at h; split at h <;> cases h
  have key : ∀ (f : Ev → List Ev), (∀ e, f e = [e] ∨ f e = []) →
      ∀ log : List Ev, (∀ t d, .line t d ∉ log) →
      records (log.flatMap f) = [] ∧ fileOf s (log.flatMap f) = [] := by
    intro f hf log
    induction log with
    | nil => intro _; exact ⟨rfl, rfl⟩
    | cons e log ih =>
      intro hl
      have ih := ih (fun t d h => hl t d (by simp [h]))
      rw [List.flatMap_cons]
      rcases hf e with h | h <;> rw [h]
      · cases e with
        | line t d => exact absurd (by simp) (hl t d)
        | _ => exact ih
      · exact ih
  exact ⟨(key _ (fun e => (seen_runner raises ui io 2 (.inl rfl) hown e).1) _ hm).1,
    (key _ (fun e => (seen_runner raises ui io 3 (.inr rfl) hown e).1) _ hm).2⟩

/-- Something is written with `use-chunked-io`. -/
example : (run (runnerCfg true (fun _ _ => false) (.leaf 0) (.leaf 1))
      (sample true) init).map (fun st =>
        (st.pc, st.wrote .out,
          (records (seen (fun _ _ => false) (runnerDlg (.leaf 0) (.leaf 1)) 2 st.log)).length)) =
    some (.returned 3, [65, 10, 66], 0) := by decide +kernel

/-- **C57** does not hold when the user interface raises: the line is missing as well as everything
after it. -/
theorem C57_ui_violated : ∃ raises : Nat → Ev → Bool, ∃ st,
    Reachable (runnerCfg false raises (.leaf 0) (.leaf 1)) st ∧
    st.pc = .returned 0 ∧ st.wrote .out = [65, 10, 66, 10] ∧
    (records (seen raises (runnerDlg (.leaf 0) (.leaf 1)) 2 st.log)).length = 0 ∧
    fileOf .out (seen raises (runnerDlg (.leaf 0) (.leaf 1)) 3 st.log) = [] := by
  refine ⟨fun i e => i = 0 && e = .line .out [65, 10], ?_⟩
  have h : ((run (runnerCfg false (fun i e => i = 0 && e = .line .out [65, 10]) (.leaf 0) (.leaf 1))
      (start ++ [.write .out [65, 10, 66, 10]] ++ die 0 ++ through .out ++
      [.read .out, .put .out, .read .out, .read .err] ++ finish) init).map
      fun st => (st.pc, st.wrote .out,
        (records (seen (fun i e => i = 0 && e = .line .out [65, 10]) (runnerDlg (.leaf 0) (.leaf 1)) 2
          st.log)).length,
        fileOf .out (seen (fun i e => i = 0 && e = .line .out [65, 10]) (runnerDlg (.leaf 0) (.leaf 1)) 3
          st.log))) =
      some (.returned 0, [65, 10, 66, 10], 0, []) := by decide +kernel
  obtain ⟨st, h1, h2⟩ := Option.map_eq_some_iff.1 h
  simp only [Prod.mk.injEq] at h2
  exact ⟨st, ⟨_, h1⟩, h2⟩

end Verif.Extcmd
