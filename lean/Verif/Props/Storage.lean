import Verif.Lemmas.Storage

/-!
# C21 (atomic checkpoints) and C22 (checkpoints that return have been stored)
-/

set_option linter.unusedSimpArgs false

namespace Verif.Storage

/-- What the storage holds, for a reader: no file counts as no data. -/
def content (s : FS) : Bytes :=
  match s.cur with
  | none => []
  | some f => f.data

/-- What a reader may find after the machine stopped: `session` is bound to one of the files it
was bound to since the directory was last flushed, and a file that was not flushed holds
anything. -/
def MayFind (s : FS) (b : Bytes) : Prop :=
  ∃ f ∈ s.cur :: s.past, match f with
    | none => b = []
    | some f => if f.stable then b = f.data else True

/-! ## The read side -/

/-- **C21, reading**: loading returns the complete content or raises; it never returns a part. -/
theorem C21_load_complete (φ : ReadFaults) (s : FS) (b : Bytes) (h : load φ s = .ok b) :
    b = content s := by
  unfold load at h
  split at h
  · cases h
  split at h
  · cases h
  unfold content
  split at h
  · next hc => rw [hc]; cases h; rfl
  · next f hc =>
    rw [hc]
    dsimp only at h ⊢
    by_cases hl : (readData f.data φ.short).length = f.data.length
    · rw [if_neg (by simpa using hl)] at h
      cases h
      cases hs : φ.short with
      | none => rfl
      | some n =>
        rw [hs] at hl
        simp only [readData, List.length_take] at hl ⊢
        exact List.take_of_length_le (by omega)
    · rw [if_pos hl] at h; cases h

/-- Without failures loading returns the content. -/
theorem C21_load_ok (s : FS) : load ⟨false, false, none⟩ s = .ok (content s) := by
  unfold load content
  cases s.cur <;> simp [readData]

/-! ## The write side -/

/-- Every state that can be left behind when `m`, started in `s`, is stopped: the initial one, one
seen on the way, or the last one. -/
def Stop {α : Type} (m : M α) (s t : FS) : Prop := t = s ∨ t ∈ (m s).1 ∨ t = (m s).2.1

theorem stop_old_new {φ : Faults} {data : Bytes} {s t : FS} (h : Stop (save φ data) s t) :
    OldOrNew φ data s t := by
  obtain ⟨h1, h2⟩ := save_run φ data s
  rcases h with rfl | h | rfl
  · exact .inl ⟨rfl, .inl rfl⟩
  · exact h1 t h
  · exact h2.oldNew

/-- **C21**: at whichever point the process dies, whichever system calls failed before, however the
write was split, a reader finds the complete previous data or the complete new data. -/
theorem C21_process_crash (φ : Faults) (data : Bytes) (s t : FS) (h : Stop (save φ data) s t) :
    load ⟨false, false, none⟩ t = .ok (content s) ∨ load ⟨false, false, none⟩ t = .ok data := by
  rw [C21_load_ok]
  rcases stop_old_new h with ⟨h, _⟩ | ⟨h, _⟩
  · exact .inl (by unfold content; rw [h])
  · exact .inr (by unfold content; rw [h])

/-- The same for `SessionManager.checkpoint`, which may save twice. -/
theorem C21_checkpoint_crash (φ ψ : Faults) (bf : Bool) (data : Bytes) (s t : FS)
    (h : Stop (checkpoint φ ψ bf data) s t) :
    load ⟨false, false, none⟩ t = .ok (content s) ∨ load ⟨false, false, none⟩ t = .ok data := by
  obtain ⟨h1, h2⟩ := save_run φ data s
  have first : ∀ t, Stop (save φ data) s t →
      load ⟨false, false, none⟩ t = .ok (content s) ∨ load ⟨false, false, none⟩ t = .ok data :=
    fun t ht => C21_process_crash φ data s t ht
  unfold Stop checkpoint at h
  unfold Stop at first
  generalize hx : save φ data s = x at h first h1 h2
  obtain ⟨tr, s', r⟩ := x
  by_cases hl : r = .error .locked
  · subst hl
    obtain ⟨hs, hn⟩ := h2.locked rfl
    simp only at hs
    subst hs
    simp only at h first
    have second : Run (fun u => content u = content s' ∨ content u = data)
        (fun u _ => content u = content s' ∨ content u = data)
        ((breakLock bf).bind fun _ => save ψ data) s' := by
      refine Run.bind (Q' := fun u _ => Same s' u) ?_ ?_ ?_
      · refine (unlink_run bf s').mono ?_ (fun u _ h => h.1)
        intro u hu
        exact .inl (by unfold content; rw [hu.1])
      · intro u _ hu
        have hc : content u = content s' := by unfold content; rw [hu.1]
        refine (save_run ψ data u).mono ?_ ?_
        · rintro v (⟨hv, _⟩ | ⟨hv, _⟩)
          · exact .inl (by rw [← hc]; unfold content; rw [hv])
          · exact .inr (by unfold content; rw [hv])
        · intro v _ hv
          rcases hv.oldNew with ⟨hv, _⟩ | ⟨hv, _⟩
          · exact .inl (by rw [← hc]; unfold content; rw [hv])
          · exact .inr (by unfold content; rw [hv])
      · intro u _ hu
        exact .inl (by unfold content; rw [hu.1])
    obtain ⟨g1, g2⟩ := second
    generalize ((breakLock bf).bind fun _ => save ψ data) s' = y at h g1 g2
    obtain ⟨tr', s'', r'⟩ := y
    simp only at h g1 g2
    rw [C21_load_ok]
    have conv : (content t = content s' ∨ content t = data) →
        (Except.ok (content t) : Except Err Bytes) = .ok (content s') ∨
        (Except.ok (content t) : Except Err Bytes) = .ok data := by
      rintro (h | h)
      · exact .inl (by rw [h])
      · exact .inr (by rw [h])
    rcases h with rfl | h | rfl
    · exact .inl rfl
    · rcases List.mem_append.mp h with h | h
      · have := first t (.inr (.inl h))
        rwa [C21_load_ok] at this
      · exact conv (g1 t h)
    · exact conv g2
  · have : ∀ e, r = .error e → e ≠ .locked := fun e he hc => hl (by rw [he, hc])
    apply first t
    cases r with
    | ok a => exact h
    | error e =>
      have hne := this e rfl
      cases e <;> first | exact absurd rfl hne | exact h

/-- The storage is settled: after a failure of the machine a reader finds the current content. -/
def Settled (s : FS) : Prop := ∀ b, MayFind s b → b = content s

/-- **C21 for failures of the machine** (partial): if flushing the new file does not fail, then at
whichever point the machine stops a reader finds the complete previous data or the complete new
data.  Missing: the failure of flushing is only logged, see `C21_power_violated`. -/
theorem C21_power_partial (φ : Faults) (data : Bytes) (s t : FS) (hs : Settled s)
    (hf : φ.fsyncFile = false) (h : Stop (save φ data) s t) (b : Bytes) (hb : MayFind t b) :
    b = content s ∨ b = data := by
  have hnew : ∀ b : Bytes, (match some (⟨data, !φ.fsyncFile⟩ : File) with
      | none => b = []
      | some f => if f.stable then b = f.data else True) → b = data := by
    intro b hb; simpa [hf] using hb
  rcases stop_old_new h with ⟨h1, h2⟩ | ⟨h1, h2⟩
  · left
    apply hs
    obtain ⟨f, hf', hb⟩ := hb
    refine ⟨f, ?_, hb⟩
    rw [h1] at hf'
    rcases h2 with h2 | h2
    · rwa [h2] at hf'
    · rw [h2] at hf'
      rw [List.mem_singleton.mp hf']
      simp
  · obtain ⟨f, hf', hb⟩ := hb
    rw [h1] at hf'
    rcases List.mem_cons.mp hf' with rfl | hf'
    · exact .inr (hnew b hb)
    · rcases h2 with h2 | h2
      · rw [h2] at hf'
        exact .inl (hs b ⟨f, hf', hb⟩)
      · rw [h2] at hf'; cases hf'

/-- **C21, durability**: when saving returns normally and neither flush nor the rename failed, the
new data has reached the disk. -/
theorem C21_durable (φ : Faults) (data : Bytes) (s : FS) (h : (save φ data s).2.2 = .ok ())
    (hr : φ.rename = false) (hf : φ.fsyncFile = false) (hd : φ.fsyncDir = false) :
    Settled (save φ data s).2.1 ∧ content (save φ data s).2.1 = data := by
  obtain ⟨_, h2⟩ := save_run φ data s
  have h3 := h2.stored h hr
  have h4 := h2.flushed h hd
  have h5 : content (save φ data s).2.1 = data := by unfold content; rw [h3]
  refine ⟨?_, h5⟩
  rintro b ⟨f, hf', hb⟩
  rw [h4, h3] at hf'
  rw [List.mem_singleton.mp hf'] at hb
  rw [h5]
  simpa [hf] using hb

/-! ## C22 -/

/-- **C22** (partial): when `checkpoint` returns normally and the rename that was made last did not
fail, the stored data is the new snapshot.  Missing: a failing rename, see
`C22_rename_violated`. -/
theorem C22_stored_partial (φ ψ : Faults) (bf : Bool) (data : Bytes) (s : FS)
    (h : (checkpoint φ ψ bf data s).2.2 = .ok ()) (h1 : φ.rename = false) (h2 : ψ.rename = false) :
    load ⟨false, false, none⟩ (checkpoint φ ψ bf data s).2.1 = .ok data ∧
    (checkpoint φ ψ bf data s).2.1.nxt = none := by
  obtain ⟨_, g⟩ := save_run φ data s
  rw [C21_load_ok]
  unfold checkpoint at h ⊢
  generalize save φ data s = x at h g
  obtain ⟨tr, s', r⟩ := x
  cases r with
  | ok a =>
    simp only at g ⊢
    exact ⟨by unfold content; rw [g.stored rfl h1], (g.returns rfl).2.1⟩
  | error e =>
    cases e with
    | locked =>
      simp only at h g ⊢
      have second : Run (fun _ => True) (fun u r => r = .ok () →
          content u = data ∧ u.nxt = none) ((breakLock bf).bind fun _ => save ψ data) s' := by
        refine Run.bind (Q' := fun _ _ => True) ((unlink_run bf s').mono (fun _ _ => trivial)
          (fun _ _ _ => trivial)) ?_ ?_
        · intro u _ _
          refine (save_run ψ data u).mono (fun _ _ => trivial) ?_
          intro v r hv hr
          exact ⟨by unfold content; rw [hv.stored hr h2], (hv.returns hr).2.1⟩
        · intro u e _ hr; cases hr
      obtain ⟨_, g2⟩ := second
      obtain ⟨a, b⟩ := g2 h
      exact ⟨by rw [a], b⟩
    | _ => simp at h

/-- **C22, stale locks**: whatever the directory holds, a temporary file left by a crash included,
a checkpoint during which no system call fails returns normally. -/
theorem C22_lock_cleared (data : Bytes) (s : FS) (c d : List Nat) :
    (checkpoint (noFaults c) (noFaults d) false data s).2.2 = .ok () := by
  obtain ⟨_, g⟩ := save_run (noFaults c) data s
  unfold checkpoint
  generalize save (noFaults c) data s = x at g
  obtain ⟨tr, s', r⟩ := x
  cases hn : s.nxt with
  | none =>
    have := g.succeeds rfl rfl hn (.inl rfl) rfl
    simp only at this
    subst this
    rfl
  | some f =>
    have := g.lock rfl rfl (by simp [hn])
    simp only at this
    subst this
    obtain ⟨hs, _⟩ := g.locked rfl
    simp only at hs
    subst hs
    have second : Run (fun _ => True) (fun _ r => r = .ok ())
        ((breakLock false).bind fun _ => save (noFaults d) data) s' := by
      refine Run.bind ((unlink_run false s').mono (fun _ _ => trivial) (fun _ _ h => h)) ?_ ?_
      · intro u _ ⟨_, _, _, h4⟩
        refine (save_run (noFaults d) data u).mono (fun _ _ => trivial) ?_
        intro v r hv
        exact hv.succeeds rfl rfl (h4 rfl) (.inl rfl) rfl
      · intro u e ⟨_, _, h3, _⟩
        have := h3.mpr ⟨by simp [hn], rfl⟩
        cases this
    exact second.2

/-- **C22, recovery**: after any interrupted or failed checkpoint the next one, if no system call
fails during it, returns normally and stores its data. -/
theorem C22_recovers (φ ψ : Faults) (bf : Bool) (old data : Bytes) (s t : FS)
    (_ : Stop (checkpoint φ ψ bf old) s t) (c d : List Nat) :
    (checkpoint (noFaults c) (noFaults d) false data t).2.2 = .ok () ∧
    load ⟨false, false, none⟩ (checkpoint (noFaults c) (noFaults d) false data t).2.1 = .ok data :=
  ⟨C22_lock_cleared data t c d, (C22_stored_partial _ _ _ data t (C22_lock_cleared data t c d)
    rfl rfl).1⟩

/-- **C22, failures surface** (partial): if opening the directory, opening the temporary file or
the write fails, saving raises, and the stored data is the previous one. -/
theorem C22_failures_surface_partial (φ : Faults) (data : Bytes) (s : FS)
    (h : φ.openDir = true ∨ φ.openNext = true ∨ ¬ Complete φ data) :
    (save φ data s).2.2 ≠ .ok () ∧ content (save φ data s).2.1 = content s := by
  obtain ⟨a, b⟩ := (save_run φ data s).2.failed h
  exact ⟨a, by unfold content; rw [b]⟩

/-! ## Violations -/

/-- **C22 is violated**: when the rename fails and the temporary file can be removed, the
checkpoint returns normally although the previous data is still stored. -/
theorem C22_rename_violated :
    let φ := { noFaults [] with rename := true }
    let s : FS := ⟨some ⟨[1, 2], true⟩, none, []⟩
    (checkpoint φ φ false [3] s).2.2 = .ok () ∧
    load ⟨false, false, none⟩ (checkpoint φ φ false [3] s).2.1 = .ok [1, 2] := by decide

/-- **C22 is violated**: failures of flushing do not surface. -/
theorem C22_fsync_violated :
    let φ := { noFaults [] with fsyncFile := true, fsyncDir := true }
    (checkpoint φ φ false [3] ⟨none, none, []⟩).2.2 = .ok () := by decide

/-- The exception for a failed write is that of the second removal of the temporary file, not the
failure that happened. -/
theorem C22_write_error_hidden :
    let φ := { noFaults [] with write := .fail 0 }
    (save φ [3] ⟨none, none, []⟩).2.2 = .error .noEntry := by decide

/-- **C21 is violated for failures of the machine**: when flushing the new file fails, saving
returns normally and after a failure of the machine a reader may find neither the old data nor the
new data. -/
theorem C21_power_violated :
    let φ := { noFaults [] with fsyncFile := true }
    let s : FS := ⟨some ⟨[1, 2], true⟩, none, []⟩
    (save φ [3, 4] s).2.2 = .ok () ∧ MayFind (save φ [3, 4] s).2.1 [3] ∧ Settled s := by
  refine ⟨by decide, ⟨some ⟨[3, 4], false⟩, by decide, trivial⟩, ?_⟩
  rintro b ⟨f, hf, hb⟩
  rw [List.mem_singleton.mp hf] at hb
  exact hb

/-! ## Concrete cases -/

/-- A crash in the middle of the second checkpoint: one byte of the new file is written. -/
example : Stop (save (noFaults [1]) [3, 4]) ⟨some ⟨[1, 2], true⟩, none, []⟩
    ⟨some ⟨[1, 2], true⟩, some ⟨[3], false⟩, []⟩ := .inr (.inl (by decide))

/-- Then a checkpoint finds the lock, breaks it and stores its data. -/
example : checkpoint (noFaults []) (noFaults []) false [5] ⟨some ⟨[1, 2], true⟩, some ⟨[3], false⟩, []⟩ =
    ((checkpoint (noFaults []) (noFaults []) false [5]
      ⟨some ⟨[1, 2], true⟩, some ⟨[3], false⟩, []⟩).1, ⟨some ⟨[5], true⟩, none, []⟩, .ok ()) := by
  decide

example : Complete (noFaults []) [1] := .inl rfl
example : ¬ Complete { noFaults [] with write := .short 1 } [1, 2] := by
  rintro (h | ⟨n, h, h'⟩)
  · simp [noFaults] at h
  · simp [noFaults] at h; subst h; simp at h'

end Verif.Storage
