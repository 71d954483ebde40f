import Verif.Model.Serve

/-!
# C148: a server and its clients

The specification speaks of what has happened, in order: which connection came in, what authentication gave, whether the server was
closed.
-/

namespace Verif.Serve

/-! ## Specification -/

/-- Whether a connection is being looked after by a thread. -/
def Busy (st : State) (s : Nat) : Prop := st.phase s = .auth ∨ st.phase s = .serving ∨ st.phase s = .ending

/-- The connection that is being accepted. -/
def held (st : State) : Option Nat :=
  match st.main with
  | .idle => none
  | .got s => some s
  | .checked s => some s

/-! ## Authentication -/

theorem steps_append (st : State) (a b : List Step) : steps st (a ++ b) = (steps st a).bind fun st => steps st b := by
  induction a generalizing st with
  | nil => rfl
  | cons e a ih =>
    simp only [List.cons_append, steps]
    cases step st e with
    | none => rfl
    | some st' => exact ih st'

theorem steps_snoc {st st' : State} {a : List Step} {e : Step} (h : steps st (a ++ [e]) = some st') :
    ∃ m, steps st a = some m ∧ step m e = some st' := by
  rw [steps_append] at h
  cases hm : steps st a with
  | none => simp [hm] at h
  | some m =>
    refine ⟨m, rfl, ?_⟩
    rw [hm] at h
    simp only [Option.bind_some, steps] at h
    cases hs : step m e with
    | none => simp [hs] at h
    | some x => simpa [hs] using h

theorem snoc_ind {α : Type} {p : List α → Prop} (h0 : p []) (h1 : ∀ l x, p l → p (l ++ [x])) (l : List α) : p l := by
  have : ∀ r : List α, p r.reverse := by
    intro r
    induction r with
    | nil => exact h0
    | cons x r ih => rw [List.reverse_cons]; exact h1 _ _ ih
  simpa using this l.reverse

theorem set_same {α : Type} (f : Nat → α) (s : Nat) (a : α) : set f s a s = a := by simp [set]
theorem set_other {α : Type} (f : Nat → α) {s t : Nat} (a : α) (h : t ≠ s) : set f s a t = f t := by simp [set, h]

/-- What a step does to the phase of a connection. -/
theorem step_phase {st st' : State} {e : Step} (h : step st e = some st') (s : Nat) :
    st'.phase s = st.phase s ∨
    (e = .add ∧ st.main = .checked s ∧ st'.phase s = .auth) ∨
    (e = .auth s true ∧ st.phase s = .auth ∧ st'.phase s = .serving) ∨
    (e = .auth s false ∧ st.phase s = .auth ∧ st'.phase s = .ending) ∨
    (e = .stop s ∧ st.phase s = .serving ∧ st'.phase s = .ending) ∨
    (e = .finish s ∧ st.phase s = .ending ∧ st'.phase s = .gone) := by
  cases e with
  | incoming t =>
    simp only [step] at h
    split at h
    · cases h; exact .inl rfl
    · cases h
  | check =>
    simp only [step] at h
    split at h
    · cases h; exact .inl rfl
    · cases h
  | add =>
    simp only [step] at h
    split at h
    · rename_i t ht
      cases h
      by_cases hs : s = t
      · subst hs; exact .inr (.inl ⟨rfl, ht, set_same ..⟩)
      · exact .inl (set_other _ _ hs)
    · cases h
  | auth t ok =>
    simp only [step] at h
    split at h
    · rename_i ht
      cases h
      by_cases hs : s = t
      · subst hs
        cases ok
        · exact .inr (.inr (.inr (.inl ⟨rfl, ht, set_same ..⟩)))
        · exact .inr (.inr (.inl ⟨rfl, ht, set_same ..⟩))
      · exact .inl (set_other _ _ hs)
    · cases h
  | stop t =>
    simp only [step] at h
    split at h
    · rename_i ht
      cases h
      by_cases hs : s = t
      · subst hs; exact .inr (.inr (.inr (.inr (.inl ⟨rfl, ht, set_same ..⟩))))
      · exact .inl (set_other _ _ hs)
    · cases h
  | finish t =>
    simp only [step] at h
    split at h
    · rename_i ht
      cases h
      by_cases hs : s = t
      · subst hs; exact .inr (.inr (.inr (.inr (.inr ⟨rfl, ht, set_same ..⟩))))
      · exact .inl (set_other _ _ hs)
    · cases h
  | close =>
    simp only [step] at h
    cases h
    left
    unfold State.close
    split <;> rfl

/-- **C148_authenticated**: a connection is only served if authentication succeeded for it before; after it failed it never is. -/
theorem C148_authenticated (es : List Step) (st : State) (h : steps init es = some st) (s : Nat) :
    (st.phase s = .serving → Step.auth s true ∈ es) ∧
    (Step.auth s false ∈ es → st.phase s = .ending ∨ st.phase s = .gone) ∧
    (Step.auth s false ∈ es → Step.auth s true ∉ es) := by
  have key : (st.phase s = .serving → Step.auth s true ∈ es) ∧
      (Step.auth s false ∈ es → st.phase s = .ending ∨ st.phase s = .gone) ∧
      (Step.auth s false ∈ es → Step.auth s true ∉ es) ∧
      (st.phase s = .none ∨ st.phase s = .auth → Step.auth s true ∉ es ∧ Step.auth s false ∉ es) ∧
      ((∃ t, st.main = .checked t ∧ t = s) ∨ (∃ t, st.main = .got t ∧ t = s) → st.phase s = .none) := by
    induction es using snoc_ind generalizing st with
    | h0 =>
      cases h
      refine ⟨by simp [init], by simp, by simp, by simp, ?_⟩
      rintro (⟨t, ht, _⟩ | ⟨t, ht, _⟩) <;> simp [init] at ht
    | h1 es e ih =>
      obtain ⟨m, hm, he⟩ := steps_snoc h
      obtain ⟨i1, i2, i3, i4, i5⟩ := ih m hm
      -- what is being accepted has no thread yet
      have hmain : (∃ t, st.main = .checked t ∧ t = s) ∨ (∃ t, st.main = .got t ∧ t = s) → st.phase s = .none := by
        intro hx
        cases e with
        | incoming t =>
          simp only [step] at he
          split at he
          · rename_i hc
            cases he
            rcases hx with ⟨t', ht, rfl⟩ | ⟨t', ht, rfl⟩
            · simp at ht
            · simp at ht
              subst ht
              exact hc.2.2.1
          · cases he
        | check =>
          simp only [step] at he
          split at he
          · rename_i t ht
            cases he
            have : t = s := by
              rcases hx with ⟨t', hq, rfl⟩ | ⟨t', hq, rfl⟩ <;> cases hact : m.active <;> simp [hact] at hq
              exact hq
            exact i5 (.inr ⟨t, ht, this⟩)
          · cases he
        | add =>
          simp only [step] at he
          split at he
          · cases he
            rcases hx with ⟨t', hq, rfl⟩ | ⟨t', hq, rfl⟩ <;> simp at hq
          · cases he
        | auth t ok =>
          simp only [step] at he
          split at he
          · rename_i ht
            cases he
            have hn := i5 hx
            by_cases hs : s = t
            · subst hs; rw [hn] at ht; cases ht
            · show set m.phase t _ s = _
              rw [set_other _ _ hs]; exact hn
          · cases he
        | stop t =>
          simp only [step] at he
          split at he
          · rename_i ht
            cases he
            have hn := i5 hx
            by_cases hs : s = t
            · subst hs; rw [hn] at ht; cases ht
            · show set m.phase t _ s = _
              rw [set_other _ _ hs]; exact hn
          · cases he
        | finish t =>
          simp only [step] at he
          split at he
          · rename_i ht
            cases he
            have hn := i5 hx
            by_cases hs : s = t
            · subst hs; rw [hn] at ht; cases ht
            · show set m.phase t _ s = _
              rw [set_other _ _ hs]; exact hn
          · cases he
        | close =>
          simp only [step] at he
          cases he
          have e1 : m.close.main = m.main := by unfold State.close; split <;> rfl
          have e2 : m.close.phase = m.phase := by unfold State.close; split <;> rfl
          rw [e1] at hx
          rw [e2]
          exact i5 hx
      have hnot : ∀ ok, e ≠ .auth s ok → (Step.auth s ok ∈ es ++ [e] ↔ Step.auth s ok ∈ es) := by
        intro ok hne
        simp [List.mem_append, Ne.symm hne]
      rcases step_phase he s with hp | ⟨rfl, hc, hp⟩ | ⟨rfl, hq, hp⟩ | ⟨rfl, hq, hp⟩ | ⟨rfl, hq, hp⟩ | ⟨rfl, hq, hp⟩
      · have hno : ∀ ok, e ≠ .auth s ok := by
          rintro ok rfl
          simp only [step] at he
          split at he
          · rename_i ht
            cases he
            have : set m.phase s (if ok then Phase.serving else Phase.ending) s = m.phase s := hp
            rw [set_same, ht] at this
            cases ok <;> simp at this
          · cases he
        rw [hnot true (hno true), hnot false (hno false), hp]
        exact ⟨i1, i2, i3, i4, fun hx => hp ▸ hmain hx⟩
      · have hn := i5 (.inl ⟨s, hc, rfl⟩)
        rw [hnot true (by simp), hnot false (by simp), hp]
        refine ⟨by simp, fun hf => absurd hf (i4 (.inl hn)).2, i3, fun _ => i4 (.inl hn), fun hx => ?_⟩
        have := hmain hx
        rw [hp] at this
        cases this
      · have hn := i4 (.inr hq)
        rw [hnot false (by simp), hp]
        refine ⟨fun _ => by simp, fun hf => absurd hf hn.2, fun hf => absurd hf hn.2, by simp, fun hx => ?_⟩
        have := hmain hx
        rw [hp] at this
        cases this
      · have hn := i4 (.inr hq)
        rw [hnot true (by simp), hp]
        refine ⟨by simp, fun _ => .inl rfl, fun _ => hn.1, by simp, fun hx => ?_⟩
        have := hmain hx
        rw [hp] at this
        cases this
      · rw [hnot true (by simp), hnot false (by simp), hp]
        refine ⟨by simp, fun _ => .inl rfl, i3, by simp, fun hx => ?_⟩
        have := hmain hx
        rw [hp] at this
        cases this
      · rw [hnot true (by simp), hnot false (by simp), hp]
        refine ⟨by simp, fun _ => .inr rfl, i3, by simp, fun hx => ?_⟩
        have := hmain hx
        rw [hp] at this
        cases this
  exact ⟨key.1, key.2.1, key.2.2.1⟩

/-! ## Connections that are open -/

/-- What is true until the server is closed. -/
structure Live (st : State) : Prop where
  active : st.active = true
  clients : ∀ s, s ∈ st.clients ↔ Busy st s
  isOpen : ∀ s, st.isOpen s = true ↔ (s ∈ st.clients ∨ held st = some s)
  fresh : ∀ s, held st = some s → st.phase s = .none

theorem busy_set {st : State} {t : Nat} {p : Phase} {s : Nat} (hs : s ≠ t) (st' : State) (h : st'.phase = set st.phase t p) :
    Busy st' s ↔ Busy st s := by
  simp [Busy, h, set_other _ _ hs]

theorem live_step {st st' : State} {e : Step} (hl : Live st) (he : step st e = some st') (hc : e ≠ .close) : Live st' := by
  cases e with
  | incoming t =>
    simp only [step] at he
    split at he
    · rename_i hcond
      cases he
      have hb : ∀ s, Busy { st with main := .got t, isOpen := set st.isOpen t true } s ↔ Busy st s := fun s => Iff.rfl
      have hh : held st = none := by simp [held, hcond.1]
      refine ⟨hl.active, fun s => by rw [hb]; exact hl.clients s, fun s => ?_, fun s hs => ?_⟩
      · show set st.isOpen t true s = true ↔ s ∈ st.clients ∨ some t = some s
        by_cases e : s = t
        · subst e; simp [set_same]
        · rw [set_other _ _ e, hl.isOpen s, hh]
          simp [Ne.symm e]
      · have : t = s := by simpa [held] using hs
        subst this
        exact hcond.2.2.1
    · cases he
  | check =>
    simp only [step] at he
    split at he
    · rename_i t ht
      cases he
      have hh : held st = some t := by simp [held, ht]
      have hh' : held { st with main := if st.active then .checked t else .idle } = some t := by simp [held, hl.active]
      exact ⟨hl.active, hl.clients, fun s => by rw [hh', ← hh]; exact hl.isOpen s, fun s hs => by
        rw [hh', ← hh] at hs; exact hl.fresh s hs⟩
    · cases he
  | add =>
    simp only [step] at he
    split at he
    · rename_i t ht
      cases he
      have hh : held st = some t := by simp [held, ht]
      refine ⟨hl.active, fun s => ?_, fun s => ?_, fun s hs => by simp [held] at hs⟩
      · by_cases e : s = t
        · subst e; simp [Busy, set_same]
        · rw [busy_set (st := st) e _ rfl, ← hl.clients s]
          simp [e]
      · show st.isOpen s = true ↔ s ∈ t :: st.clients ∨ none = some s
        rw [hl.isOpen s, hh]
        simp only [List.mem_cons, Option.some.injEq, reduceCtorEq, or_false]
        constructor
        · rintro (h | h)
          · exact .inr h
          · exact .inl h.symm
        · rintro (h | h)
          · exact .inr h.symm
          · exact .inl h
    · cases he
  | auth t ok =>
    simp only [step] at he
    split at he
    · rename_i ht
      cases he
      refine ⟨hl.active, fun s => ?_, hl.isOpen, fun s hs => ?_⟩
      · by_cases e : s = t
        · subst e
          have : Busy st s := .inl ht
          rw [(hl.clients s)]
          cases ok <;> simp [Busy, set_same, ht]
        · rw [busy_set (st := st) e _ rfl]; exact hl.clients s
      · have hn := hl.fresh s hs
        have e : s ≠ t := by rintro rfl; rw [ht] at hn; cases hn
        show set st.phase t _ s = _
        rw [set_other _ _ e]; exact hn
    · cases he
  | stop t =>
    simp only [step] at he
    split at he
    · rename_i ht
      cases he
      refine ⟨hl.active, fun s => ?_, hl.isOpen, fun s hs => ?_⟩
      · by_cases e : s = t
        · subst e
          rw [(hl.clients s)]
          simp [Busy, set_same, ht]
        · rw [busy_set (st := st) e _ rfl]; exact hl.clients s
      · have hn := hl.fresh s hs
        have e : s ≠ t := by rintro rfl; rw [ht] at hn; cases hn
        show set st.phase t _ s = _
        rw [set_other _ _ e]; exact hn
    · cases he
  | finish t =>
    simp only [step] at he
    split at he
    · rename_i ht
      cases he
      refine ⟨hl.active, fun s => ?_, fun s => ?_, fun s hs => ?_⟩
      · by_cases e : s = t
        · subst e; simp [Busy, set_same]
        · rw [busy_set (st := st) e _ rfl, ← hl.clients s]
          simp [e]
      · show set st.isOpen t false s = true ↔ s ∈ st.clients.filter (· ≠ t) ∨ held st = some s
        by_cases e : s = t
        · subst e
          have : held st ≠ some s := fun h => by have := hl.fresh s h; rw [ht] at this; cases this
          simp [set_same, this]
        · rw [set_other _ _ e, hl.isOpen s]
          simp [e]
      · have hn := hl.fresh s hs
        have e : s ≠ t := by rintro rfl; rw [ht] at hn; cases hn
        show set st.phase t _ s = _
        rw [set_other _ _ e]; exact hn
    · cases he
  | close => exact absurd rfl hc

theorem live_init : Live init :=
  ⟨rfl, fun s => by simp [init, Busy], fun s => by simp [init, held], fun s h => by simp [init, held] at h⟩

theorem live_steps (es : List Step) {st st' : State} (hl : Live st) (h : steps st es = some st') (hc : Step.close ∉ es) : Live st' := by
  induction es generalizing st with
  | nil => cases h; exact hl
  | cons e es ih =>
    rw [List.mem_cons, not_or] at hc
    simp only [steps] at h
    cases hs : step st e with
    | none => simp [hs] at h
    | some m => exact ih (live_step hl hs (Ne.symm hc.1)) (by simpa [hs] using h) hc.2

/-- **C148_open**: until the server is closed the connections that are open are exactly the one that is being accepted and those
that are looked after by a thread; the latter are those that the server knows of, each connection that is done with is closed. -/
theorem C148_open (es : List Step) (st : State) (h : steps init es = some st) (hc : Step.close ∉ es) (s : Nat) :
    (st.isOpen s = true ↔ Busy st s ∨ held st = some s) ∧ (s ∈ st.clients ↔ Busy st s) ∧
    (st.phase s = .gone → st.isOpen s = false) := by
  have hl := live_steps es live_init h hc
  refine ⟨by rw [hl.isOpen s, hl.clients s], hl.clients s, fun hg => ?_⟩
  cases ho : st.isOpen s with
  | false => rfl
  | true =>
    rcases (hl.isOpen s).mp ho with hx | hx
    · rcases (hl.clients s).mp hx with hb | hb | hb <;> rw [hg] at hb <;> cases hb
    · have := hl.fresh s hx
      rw [hg] at this
      cases this

/-- What is true after the server was closed while `o` was being accepted. -/
structure Shut (o : Option Nat) (st : State) : Prop where
  active : st.active = false
  closed : st.closed = true
  main : ∀ s, held st = some s → o = some s
  isOpen : ∀ s, st.isOpen s = true → o = some s

theorem shut_step {o : Option Nat} {st st' : State} {e : Step} (hl : Shut o st) (he : step st e = some st') : Shut o st' := by
  cases e with
  | incoming t =>
    simp [step, hl.active] at he
  | check =>
    simp only [step] at he
    split at he
    · cases he
      exact ⟨hl.active, hl.closed, fun s hs => by simp [held, hl.active] at hs, hl.isOpen⟩
    · cases he
  | add =>
    simp only [step] at he
    split at he
    · cases he
      exact ⟨hl.active, hl.closed, fun s hs => by simp [held] at hs, hl.isOpen⟩
    · cases he
  | auth t ok =>
    simp only [step] at he
    split at he
    · cases he; exact ⟨hl.active, hl.closed, hl.main, hl.isOpen⟩
    · cases he
  | stop t =>
    simp only [step] at he
    split at he
    · cases he; exact ⟨hl.active, hl.closed, hl.main, hl.isOpen⟩
    · cases he
  | finish t =>
    simp only [step] at he
    split at he
    · cases he
      refine ⟨hl.active, hl.closed, hl.main, fun s hs => ?_⟩
      by_cases e : s = t
      · subst e; simp [set_same] at hs
      · have : set st.isOpen t false s = true := hs
        rw [set_other _ _ e] at this
        exact hl.isOpen s this
    · cases he
  | close =>
    simp only [step] at he
    cases he
    simp only [State.close, hl.closed, if_true]
    exact hl

/-- **C148_closed_partial**: after the server was closed no connection comes in, and all are closed. Missing: one that was being
accepted while it was closed. -/
theorem C148_closed_partial (a b : List Step) (m st : State) (ha : steps init a = some m) (hc : Step.close ∉ a)
    (hb : steps m (.close :: b) = some st) (s : Nat) :
    (st.isOpen s = true → held m = some s) ∧ (∀ t, Step.incoming t ∉ b) := by
  have hl := live_steps a live_init ha hc
  have h0 : Shut (held m) m.close := by
    unfold State.close
    split
    · -- not reached: the server was not closed before
      rename_i hcl
      exfalso
      have : ∀ (es : List Step) (x y : State), x.closed = false → steps x es = some y → Step.close ∉ es → y.closed = false := by
        intro es
        induction es with
        | nil => intro x y hx h _; cases h; exact hx
        | cons e es ih =>
          intro x y hx h hn
          rw [List.mem_cons, not_or] at hn
          simp only [steps] at h
          cases hs : step x e with
          | none => simp [hs] at h
          | some z =>
            refine ih z y ?_ (by simpa [hs] using h) hn.2
            cases e with
            | close => exact absurd rfl hn.1
            | incoming t => simp only [step] at hs; split at hs <;> cases hs; exact hx
            | check => simp only [step] at hs; split at hs <;> cases hs; exact hx
            | add => simp only [step] at hs; split at hs <;> cases hs; exact hx
            | auth t ok => simp only [step] at hs; split at hs <;> cases hs; exact hx
            | stop t => simp only [step] at hs; split at hs <;> cases hs; exact hx
            | finish t => simp only [step] at hs; split at hs <;> cases hs; exact hx
      rw [this a init m rfl ha hc] at hcl
      cases hcl
    · refine ⟨rfl, rfl, fun s hs => hs, fun s hs => ?_⟩
      dsimp only at hs
      split at hs
      · cases hs
      · rename_i hn
        exact ((hl.isOpen s).mp hs).resolve_left hn
  have hb' : steps m.close b = some st := by simpa [steps, step] using hb
  have key : ∀ (es : List Step) (x y : State), Shut (held m) x → steps x es = some y → Shut (held m) y ∧ ∀ t, Step.incoming t ∉ es := by
    intro es
    induction es with
    | nil => intro x y hx h; cases h; exact ⟨hx, by simp⟩
    | cons e es ih =>
      intro x y hx h
      simp only [steps] at h
      cases hs : step x e with
      | none => simp [hs] at h
      | some z =>
        obtain ⟨h1, h2⟩ := ih z y (shut_step hx hs) (by simpa [hs] using h)
        refine ⟨h1, fun t ht => ?_⟩
        rcases List.mem_cons.mp ht with rfl | ht
        · simp [step, hx.active] at hs
        · exact h2 t ht
  obtain ⟨h1, h2⟩ := key b _ _ h0 hb'
  exact ⟨h1.isOpen s, h2⟩

/-- A connection that was being accepted while the server was closed is served all the same, or stays open for ever. -/
theorem C148_race_violated :
    ((steps init [.incoming 1, .check, .close, .add, .auth 1 true]).map fun st =>
      (st.closed, st.isOpen 1, st.phase 1, st.clients)) = some (true, true, .serving, [1]) ∧
    ((steps init [.incoming 1, .close, .check]).map fun st =>
      (st.closed, st.isOpen 1, st.phase 1, st.main)) = some (true, true, .none, .idle) := by decide

example : ((steps init [.incoming 1, .check, .add, .incoming 2, .auth 1 true, .check, .add, .auth 2 false, .finish 2]).map fun st =>
    (st.clients, st.isOpen 1, st.isOpen 2, st.phase 1)) = some ([1], true, false, .serving) := by decide
example : ((steps init [.incoming 1, .check, .add, .auth 1 true, .close, .stop 1]).map fun st =>
    (st.clients, st.isOpen 1, st.phase 1)) = some ([], false, .ending) := by decide
example : (steps init [.incoming 1, .check, .add, .auth 1 false, .auth 1 true]).isNone = true := by decide

end Verif.Serve
