import Verif.Model.Storage

/-!
# Checkpoints on disk: a program logic and the parts of saving
-/

set_option linter.unusedSimpArgs false

namespace Verif.Storage

/-! ## A program logic -/

/-- `P` holds in every state seen on the way, `Q` of the last state and the outcome. -/
def Run {α : Type} (P : FS → Prop) (Q : FS → Except Err α → Prop) (m : M α) (s : FS) : Prop :=
  (∀ t ∈ (m s).1, P t) ∧ Q (m s).2.1 (m s).2.2

theorem Run.bind {α β : Type} {P : FS → Prop} {Q' : FS → Except Err α → Prop}
    {Q : FS → Except Err β → Prop} {m : M α} {f : α → M β} {s : FS} (hm : Run P Q' m s)
    (hf : ∀ s' a, Q' s' (.ok a) → Run P Q (f a) s')
    (he : ∀ s' e, Q' s' (.error e) → Q s' (.error e)) : Run P Q (m.bind f) s := by
  unfold Run at *
  unfold M.bind
  generalize m s = x at hm
  obtain ⟨t, s', r⟩ := x
  cases r with
  | error e => exact ⟨hm.1, he _ _ hm.2⟩
  | ok a =>
    obtain ⟨h1, h2⟩ := hf s' a hm.2
    simp only at h1 h2 hm ⊢
    refine ⟨?_, h2⟩
    intro u hu
    rcases List.mem_append.mp hu with hu | hu
    · exact hm.1 u hu
    · exact h1 u hu

theorem Run.tryElse {α β : Type} {P : FS → Prop} {Q' : FS → Except Err α → Prop}
    {Q : FS → Except Err β → Prop} {m : M α} {g : Err → M β} {f : α → M β} {s : FS}
    (hm : Run P Q' m s) (hf : ∀ s' a, Q' s' (.ok a) → Run P Q (f a) s')
    (hg : ∀ s' e, Q' s' (.error e) → Run P Q (g e) s') : Run P Q (m.tryElse g f) s := by
  unfold Run at *
  unfold M.tryElse
  generalize m s = x at hm
  obtain ⟨t, s', r⟩ := x
  cases r with
  | error e =>
    obtain ⟨h1, h2⟩ := hg s' e hm.2
    simp only at h1 h2 hm ⊢
    refine ⟨?_, h2⟩
    intro u hu
    rcases List.mem_append.mp hu with hu | hu
    · exact hm.1 u hu
    · exact h1 u hu
  | ok a =>
    obtain ⟨h1, h2⟩ := hf s' a hm.2
    simp only at h1 h2 hm ⊢
    refine ⟨?_, h2⟩
    intro u hu
    rcases List.mem_append.mp hu with hu | hu
    · exact hm.1 u hu
    · exact h1 u hu

theorem Run.pure {α : Type} {P : FS → Prop} {Q : FS → Except Err α → Prop} {a : α} {s : FS}
    (h : Q s (.ok a)) : Run P Q (M.pure a) s := ⟨by simp [M.pure], h⟩

theorem Run.throw {α : Type} {P : FS → Prop} {Q : FS → Except Err α → Prop} {e : Err} {s : FS}
    (h : Q s (.error e)) : Run P Q (M.throw e) s := ⟨by simp [M.throw], h⟩

theorem Run.call {α : Type} {P : FS → Prop} {Q : FS → Except Err α → Prop}
    {f : FS → FS × Except Err α} {s : FS} (h : P (f s).1) (hq : Q (f s).1 (f s).2) :
    Run P Q (call f) s :=
  ⟨by intro t ht; simp only [Storage.call, List.mem_singleton] at ht; exact ht ▸ h, hq⟩

theorem Run.mono {α : Type} {P P' : FS → Prop} {Q Q' : FS → Except Err α → Prop} {m : M α}
    {s : FS} (h : Run P Q m s) (hP : ∀ t, P t → P' t) (hQ : ∀ t r, Q t r → Q' t r) :
    Run P' Q' m s := ⟨fun t ht => hP t (h.1 t ht), hQ _ _ h.2⟩

/-! ## The parts of saving -/

/-- Name binding of `session` is as in `s`. -/
def Same (s t : FS) : Prop := t.cur = s.cur ∧ t.past = s.past

theorem Same.trans {s t u : FS} (h : Same s t) (h' : Same t u) : Same s u :=
  ⟨h'.1.trans h.1, h'.2.trans h.2⟩

/-- The write delivered all the data. -/
def Complete (φ : Faults) (data : Bytes) : Prop :=
  φ.write = .full ∨ ∃ n, φ.write = .short n ∧ data.length ≤ n

theorem unlink_run (bad : Bool) (s : FS) :
    Run (Same s) (fun t r => Same s t ∧ r ≠ .error .locked ∧
      (r = .ok () ↔ s.nxt ≠ none ∧ bad = false) ∧ (r = .ok () → t.nxt = none)) (unlink bad) s := by
  unfold unlink
  cases bad <;> cases hn : s.nxt <;> refine Run.call ?_ ?_ <;> simp [hn, Same]

theorem write_run (φ : Faults) (data : Bytes) (s : FS) :
    Run (Same s) (fun t r => Same s t ∧ t.nxt ≠ none ∧ r ≠ .error .locked ∧
      (r = .ok () ↔ Complete φ data) ∧ (r = .ok () → t.nxt = some ⟨data, false⟩))
      (writeChecked data φ.write φ.seen) s := by
  unfold writeChecked
  refine Run.bind (Q' := fun t r => Same s t ∧ t.nxt ≠ none ∧ r ≠ .error .locked ∧
      (∀ n, r = .ok n → t.nxt = some ⟨data.take n, false⟩) ∧
      (r = .ok data.length ↔ Complete φ data)) ?_ ?_ ?_
  · have seen : ∀ (w : Nat → Nat) (n : Nat), ∀ t ∈ φ.seen.map (fun k => putNext data (w k) s) ++
        [putNext data n s], Same s t := by
      intro w n t ht
      simp only [List.mem_append, List.mem_map, List.mem_singleton] at ht
      rcases ht with ⟨n, _, rfl⟩ | rfl <;> exact ⟨rfl, rfl⟩
    unfold write Complete
    cases hw : φ.write with
    | full =>
      refine ⟨seen _ _, ⟨rfl, rfl⟩, by simp [putNext], by simp, ?_, by simp⟩
      intro n hn
      cases hn
      rfl
    | short k =>
      refine ⟨seen _ _, ⟨rfl, rfl⟩, by simp [putNext], by simp, ?_, ?_⟩
      · intro n hn
        cases hn
        simp only [putNext, Option.some.injEq, File.mk.injEq, and_true]
        rcases Nat.le_total k data.length with h | h
        · rw [Nat.min_eq_left h]
        · rw [Nat.min_eq_right h, List.take_of_length_le h, List.take_of_length_le (Nat.le_refl _)]
      · simp only [Except.ok.injEq, reduceCtorEq, WriteFault.short.injEq, false_or]
        constructor
        · intro h; exact ⟨k, rfl, by omega⟩
        · rintro ⟨n, rfl, h⟩; omega
    | fail k =>
      exact ⟨seen _ _, ⟨rfl, rfl⟩, by simp [putNext], by simp, by simp, by simp⟩
  · intro s' n ⟨h1, h2, h3, h4, h5⟩
    split
    · rename_i hne
      refine Run.throw ⟨h1, h2, by simp, ⟨(by intro h; cases h), ?_⟩, by simp⟩
      intro hf
      have := h5.mpr hf
      simp only [Except.ok.injEq] at this
      exact absurd this hne
    · rename_i heq
      have hn := Decidable.not_not.mp heq
      subst hn
      refine Run.pure ⟨h1, h2, by simp, ⟨fun _ => h5.mp rfl, fun _ => rfl⟩, ?_⟩
      intro _
      rw [h4 _ rfl, List.take_of_length_le (Nat.le_refl _)]
  · intro s' e ⟨h1, h2, h3, h4, h5⟩
    refine ⟨h1, h2, by intro h; cases h; exact h3 rfl, ⟨(by intro h; cases h), ?_⟩, by simp⟩
    intro hf
    have := h5.mpr hf
    cases this

theorem writePart_run (φ : Faults) (data : Bytes) (s : FS) :
    Run (Same s) (fun t r => Same s t ∧ r ≠ .error .locked ∧
      (r = .ok () → Complete φ data ∧ t.nxt = some ⟨data, !φ.fsyncFile⟩ ∨
        ¬ Complete φ data ∧ t.nxt = none) ∧
      (Complete φ data → r = .ok ()))
      (writePart φ data) s := by
  unfold writePart
  refine Run.tryElse (write_run φ data s) ?_ ?_
  · intro s' _ ⟨h1, h2, h3, h4, h5⟩
    have hc := h4.mp rfl
    have hn := h5 rfl
    refine Run.tryElse (Q' := fun t _ => Same s t ∧ t.nxt = some ⟨data, !φ.fsyncFile⟩) ?_ ?_ ?_
    · unfold fsyncFile
      cases φ.fsyncFile
      · refine Run.call ?_ ?_
        · exact h1
        · refine ⟨h1, ?_⟩; simp [hn]
      · refine Run.call ?_ ?_
        · exact h1
        · exact ⟨h1, hn⟩
    · intro t _ ⟨a, b⟩
      exact Run.pure ⟨a, by simp, fun _ => .inl ⟨hc, b⟩, fun _ => rfl⟩
    · intro t _ ⟨a, b⟩
      exact Run.pure ⟨a, by simp, fun _ => .inl ⟨hc, b⟩, fun _ => rfl⟩
  · intro s' e ⟨h1, h2, h3, h4, h5⟩
    have hnc : ¬ Complete φ data := by
      intro hf
      have := h4.mpr hf
      cases this
    refine (unlink_run φ.unlinkAfterWrite s').mono (fun t ht => h1.trans ht) ?_
    intro t r ⟨a, b, c, d⟩
    exact ⟨h1.trans a, b, fun hr => .inr ⟨hnc, d hr⟩, fun hf => absurd hf hnc⟩

/-- What saving leaves: `session` as before, or the complete new file. -/
def OldOrNew (φ : Faults) (data : Bytes) (s t : FS) : Prop :=
  (t.cur = s.cur ∧ (t.past = s.past ∨ t.past = [])) ∨
  (t.cur = some ⟨data, !φ.fsyncFile⟩ ∧ (t.past = s.cur :: s.past ∨ t.past = []))

theorem Same.old {φ : Faults} {data : Bytes} {s t : FS} (h : Same s t) : OldOrNew φ data s t :=
  .inl ⟨h.1, .inl h.2⟩

/-- How saving may end. -/
structure SaveEnds (φ : Faults) (data : Bytes) (s t : FS) (r : Except Err Unit) : Prop where
  oldNew : OldOrNew φ data s t
  locked : r = .error .locked → t = s ∧ s.nxt ≠ none
  lock : φ.openDir = false → φ.openNext = false → s.nxt ≠ none → r = .error .locked
  returns : r = .ok () → s.nxt = none ∧ t.nxt = none ∧ Complete φ data
  stored : r = .ok () → φ.rename = false → t.cur = some ⟨data, !φ.fsyncFile⟩
  kept : r = .ok () → φ.rename = true → t.cur = s.cur
  flushed : r = .ok () → φ.fsyncDir = false → t.past = []
  succeeds : φ.openDir = false → φ.openNext = false → s.nxt = none → Complete φ data →
    φ.rename = false → r = .ok ()
  failed : φ.openDir = true ∨ φ.openNext = true ∨ ¬ Complete φ data → r ≠ .ok () ∧ t.cur = s.cur

theorem renamePart_run (φ : Faults) (data : Bytes) (s t0 : FS) (h : Same s t0)
    (hn : Complete φ data ∧ t0.nxt = some ⟨data, !φ.fsyncFile⟩ ∨
        ¬ Complete φ data ∧ t0.nxt = none) :
    Run (OldOrNew φ data s) (fun t r => OldOrNew φ data s t ∧ r ≠ .error .locked ∧
      (r = .ok () → t.nxt = none ∧ Complete φ data) ∧
      (r = .ok () → φ.rename = false → t.cur = some ⟨data, !φ.fsyncFile⟩) ∧
      (r = .ok () → φ.rename = true → t.cur = s.cur) ∧
      (φ.rename = false → Complete φ data → r = .ok ()) ∧
      (¬ Complete φ data → t.cur = s.cur)) (renamePart φ) t0 := by
  unfold renamePart
  refine Run.tryElse (Q' := fun t r =>
      (r = .ok () ∧ φ.rename = false ∧ Complete φ data ∧ t.nxt = none ∧
        t.cur = some ⟨data, !φ.fsyncFile⟩ ∧ OldOrNew φ data s t) ∨
      ((∃ e, r = .error e) ∧ t = t0 ∧ (φ.rename = false → ¬ Complete φ data))) ?_ ?_ ?_
  · unfold rename
    cases hr : φ.rename with
    | true =>
      refine Run.call h.old ?_
      exact .inr ⟨⟨_, rfl⟩, rfl, by simp⟩
    | false =>
      rcases hn with ⟨hc, hn⟩ | ⟨hc, hn⟩
      · refine Run.call ?_ ?_
        · simp only [hn, Bool.false_eq_true, if_false]
          exact .inr ⟨rfl, .inl (by rw [h.1, h.2])⟩
        · simp only [hn, Bool.false_eq_true, if_false]
          exact .inl ⟨trivial, trivial, hc, trivial, trivial, .inr ⟨rfl, .inl (by rw [h.1, h.2])⟩⟩
      · refine Run.call ?_ ?_
        · simp only [hn, Bool.false_eq_true, if_false]
          exact h.old
        · simp only [hn, Bool.false_eq_true, if_false]
          exact .inr ⟨⟨_, rfl⟩, trivial, fun _ => hc⟩
  · rintro t _ (⟨-, h1, h2, h3, h4, h5⟩ | ⟨⟨e, h1⟩, _⟩)
    · refine Run.pure ⟨h5, by simp, fun _ => ⟨h3, h2⟩, fun _ _ => h4, ?_, fun _ _ => rfl,
        fun h => absurd h2 h⟩
      intro _ h6; rw [h1] at h6; cases h6
    · cases h1
  · rintro t e (⟨h1, _⟩ | ⟨_, rfl, h2⟩)
    · cases h1
    · refine (unlink_run φ.unlinkAfterRename t).mono (fun u hu => (h.trans hu).old) ?_
      intro u r ⟨a, b, c, d⟩
      refine ⟨(h.trans a).old, b, ?_, ?_, ?_, ?_, fun _ => (h.trans a).1⟩
      · intro hr
        refine ⟨d hr, ?_⟩
        rcases hn with ⟨hc, _⟩ | ⟨_, hn⟩
        · exact hc
        · exact absurd hn (c.mp hr).1
      · intro hr hren
        rcases hn with ⟨hc, _⟩ | ⟨_, hn⟩
        · exact absurd hc (h2 hren)
        · exact absurd hn (c.mp hr).1
      · intro _ _; exact (h.trans a).1
      · intro hren hc; exact absurd hc (h2 hren)

theorem save_run (φ : Faults) (data : Bytes) (s : FS) :
    Run (OldOrNew φ data s) (SaveEnds φ data s) (save φ data) s := by
  unfold save
  have no : ∀ {e : Err}, ¬ ((.error e : Except Err Unit) = .ok ()) := by intro e h; cases h
  refine Run.bind (Q' := fun t r => t = s ∧ r ≠ .error .locked ∧ (φ.openDir = false ↔ r = .ok ()))
    ?_ ?_ ?_
  · unfold openDir
    cases φ.openDir <;> refine Run.call ?_ ?_ <;> simp [OldOrNew]
  · rintro s' a ⟨rfl, -, hdir⟩
    have hdir := hdir.mpr rfl
    refine Run.bind (Q' := fun t r => Same s' t ∧ (r = .error .locked → t = s' ∧ s'.nxt ≠ none) ∧
      (r = .ok () → s'.nxt = none ∧ φ.openNext = false) ∧
      (φ.openNext = false → s'.nxt ≠ none → r = .error .locked) ∧
      (φ.openNext = false → s'.nxt = none → r = .ok ())) ?_ ?_ ?_
    · unfold openNext
      cases φ.openNext <;> cases hn : s'.nxt <;> refine Run.call ?_ ?_ <;>
        simp [hn, OldOrNew, Same]
    · intro s2 _ ⟨h1, _, h3, _, _⟩
      obtain ⟨hfree, hopen⟩ := h3 rfl
      refine Run.bind ((writePart_run φ data s2).mono (fun t ht => (h1.trans ht).old)
        (fun _ _ h => h)) ?_ ?_
      · intro s3 _ ⟨h4, _, h6, _⟩
        refine Run.bind (renamePart_run φ data s' s3 (h1.trans h4) (h6 rfl)) ?_ ?_
        · intro s4 _ ⟨a1, _, a3, a4, a5, _⟩
          have fin : ∀ t, t.cur = s4.cur → t.nxt = s4.nxt → (t.past = s4.past ∨ t.past = []) →
              (φ.fsyncDir = false → t.past = []) → SaveEnds φ data s' t (.ok ()) := by
            intro t e1 e2 e3 e4
            refine ⟨?_, (by intro h; cases h), fun _ _ h => absurd hfree h,
              fun _ => ⟨hfree, e2.trans (a3 rfl).1, (a3 rfl).2⟩,
              fun _ hr => e1.trans (a4 rfl hr), fun _ hr => e1.trans (a5 rfl hr),
              fun _ hf => e4 hf, fun _ _ _ _ _ => rfl, ?_⟩
            case refine_2 =>
              rintro (h | h | h)
              · rw [hdir] at h; cases h
              · rw [hopen] at h; cases h
              · exact absurd (a3 rfl).2 h
            rcases a1 with ⟨b1, b2⟩ | ⟨b1, b2⟩
            · refine .inl ⟨e1.trans b1, ?_⟩
              rcases e3 with e3 | e3
              · rw [e3]; exact b2
              · exact .inr e3
            · refine .inr ⟨e1.trans b1, ?_⟩
              rcases e3 with e3 | e3
              · rw [e3]; exact b2
              · exact .inr e3
          refine Run.tryElse (Q' := fun t _ => SaveEnds φ data s' t (.ok ())) ?_ ?_ ?_
          · unfold fsyncDir
            cases hf : φ.fsyncDir with
            | true =>
              refine Run.call a1 ?_
              exact fin _ rfl rfl (.inl rfl) (by simp [hf])
            | false =>
              refine Run.call ?_ ?_
              · exact (fin { s4 with past := [] } rfl rfl (.inr rfl) (fun _ => rfl)).oldNew
              · exact fin _ rfl rfl (.inr rfl) (fun _ => rfl)
          · intro t _ h; exact Run.pure h
          · intro t _ h; exact Run.pure h
        · intro t e ⟨a1, a2, _, _, _, a6, a7⟩
          exact ⟨a1, fun h => absurd h a2, fun _ _ h => absurd hfree h, fun h => absurd h no,
            fun h => absurd h no, fun h => absurd h no, fun h => absurd h no,
            fun _ _ _ hc hr => a6 hr hc, (by
              rintro (h | h | h)
              · rw [hdir] at h; cases h
              · rw [hopen] at h; cases h
              · exact ⟨no, a7 h⟩)⟩
      · intro t e ⟨h4, h5, _, h7⟩
        exact ⟨(h1.trans h4).old, fun h => absurd h h5, fun _ _ h => absurd hfree h,
          fun h => absurd h no, fun h => absurd h no, fun h => absurd h no, fun h => absurd h no,
          fun _ _ _ hc _ => h7 hc, fun _ => ⟨no, (h1.trans h4).1⟩⟩
    · intro t e ⟨h1, h2, _, h4, h5⟩
      refine ⟨h1.old, fun h => h2 (by simpa using h), ?_, fun h => absurd h no,
        fun h => absurd h no, fun h => absurd h no, fun h => absurd h no, ?_, fun _ => ⟨no, h1.1⟩⟩
      · intro _ ho hn
        have := h4 ho hn
        simpa using this
      · intro _ ho hn _ _
        have := h5 ho hn
        cases this
  · rintro t e ⟨rfl, h, h'⟩
    refine ⟨.inl ⟨rfl, .inl rfl⟩, fun hr => ?_, ?_, fun h => absurd h no, fun h => absurd h no,
      fun h => absurd h no, fun h => absurd h no, ?_, fun _ => ⟨no, rfl⟩⟩
    · exact absurd (by simpa using hr) h
    · intro ho; cases h'.mp ho
    · intro ho; cases h'.mp ho

end Verif.Storage
