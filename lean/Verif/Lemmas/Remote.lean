import Verif.Model.Remote

/-!
# The remote session service: lemmas
-/

namespace Verif.Remote

open Verif.Assistant (Call Args Outcome)

/-! ## Calls of the assistant -/

theorem calls_todo (sa : Assistant.St) :
    calls [(.getDynamicTodo, plain, .ok)] sa = (sa, sa.allowed .getDynamicTodo && sa.session) := by
  unfold calls
  cases h1 : sa.allowed .getDynamicTodo <;> cases h2 : sa.session <;>
    simp [Assistant.call, Assistant.need, Assistant.body, Assistant.fin, calls, h1, h2]

theorem calls_job (sa : Assistant.St) :
    calls [(.getJob, plain, .ok)] sa =
      (if sa.allowed .getJob && sa.session then
        ({ sa with allowed := Assistant.put .useResult true sa.allowed }, true) else (sa, false)) := by
  unfold calls
  cases h1 : sa.allowed .getJob <;> cases h2 : sa.session <;>
    simp [Assistant.call, Assistant.need, Assistant.body, Assistant.fin, calls, h1, h2]

theorem calls_use (sa : Assistant.St) :
    calls [(.useResult, plain, .ok)] sa =
      (if sa.allowed .useResult && sa.session then
        ({ sa with allowed := Assistant.put .runJob true (Assistant.put .useResult false sa.allowed) }, true)
      else (sa, false)) := by
  unfold calls
  cases h1 : sa.allowed .useResult <;> cases h2 : sa.session <;>
    simp [Assistant.call, Assistant.need, Assistant.body, Assistant.useResult, calls, h1, h2]

/-- The assistant is ready to run a job. -/
def Ready (sa : Assistant.St) : Prop :=
  sa.allowed .runJob = true ∧ sa.allowed .getJob = true ∧ sa.allowed .getDynamicTodo = true ∧ sa.session = true

theorem calls_append (l m : List (Call × Args × Outcome)) (sa : Assistant.St) :
    calls (l ++ m) sa = if (calls l sa).2 then calls m (calls l sa).1 else (calls l sa).1 |> (·, false) := by
  induction l generalizing sa with
  | nil => simp [calls]
  | cons x l ih =>
    obtain ⟨c, a, o⟩ := x
    rw [List.cons_append, calls, calls]
    by_cases h : (Assistant.call c a o sa).2.1 = .ok
    · rw [if_pos h, if_pos h, ih]
    · rw [if_neg h, if_neg h]; rfl

theorem bootLoop_session (l : List (Assistant.Job × Outcome × Outcome)) (sa : Assistant.St) :
    (Assistant.bootLoop l sa).1.session = sa.session := by
  induction l generalizing sa with
  | nil => rfl
  | cons x l ih =>
    obtain ⟨j, o1, o2⟩ := x
    have hr : ∀ (st : Assistant.St), (Assistant.runJob j o1 st).1.session = st.session := by
      intro st
      unfold Assistant.runJob Assistant.runBody
      repeat' split
      all_goals rfl
    have hu : ∀ (st : Assistant.St), (Assistant.useResult o2 st).1.session = st.session := by
      intro st
      unfold Assistant.useResult
      repeat' split
      all_goals rfl
    unfold Assistant.bootLoop
    dsimp only
    split
    · exact hr _
    · split
      · exact (hu _).trans (hr _)
      · exact (ih _).trans ((hu _).trans (hr _))

/-- After `bootstrap` of the assistant has returned it is ready. -/
theorem boot_ready (a : Args) (o : Outcome) (sa : Assistant.St)
    (h : (Assistant.call .bootstrap a o sa).2.1 = .ok) : Ready (Assistant.call .bootstrap a o sa).1 := by
  have h0 := h
  unfold Assistant.call at h0
  by_cases h1 : (!sa.allowed .bootstrap) = true
  · rw [if_pos h1] at h0; cases h0
  · rw [if_neg h1] at h0
    by_cases h2 : (!Assistant.need .bootstrap sa) = true
    · rw [if_pos h2] at h0; cases h0
    · rw [if_neg h2] at h0
      have e : Assistant.call .bootstrap a o sa = Assistant.bootstrap a.boots o sa := by
        unfold Assistant.call
        rw [if_neg h1, if_neg h2]
        rfl
      have hs : sa.session = true := by
        cases hh : sa.session
        · exact absurd (by simp [Assistant.need, hh]) h2
        · rfl
      rw [e] at h ⊢
      unfold Assistant.bootstrap at h ⊢
      by_cases h3 : o = .early
      · rw [if_pos h3] at h; cases h
      · rw [if_neg h3] at h ⊢
        dsimp only at h ⊢
        by_cases h4 : (Assistant.bootLoop a.boots sa).2.1 ≠ .ok
        · rw [if_pos h4] at h; exact absurd h h4
        · rw [if_neg h4]
          exact ⟨rfl, rfl, rfl, (bootLoop_session _ _).trans hs⟩

theorem ready_useful {sa : Assistant.St} (h : Ready sa) (b : Bool) :
    Ready { sa with allowed := Assistant.put .useResult b sa.allowed } :=
  ⟨h.1, h.2.1, h.2.2.1, h.2.2.2⟩

/-! ## What the calls leave alone -/

theorem move_be (k : Nat) (j : Id) (p : Pos) (s : St) : (move k j p s).be = s.be := rfl
theorem move_lock (k : Nat) (j : Id) (p : Pos) (s : St) : (move k j p s).lock = s.lock := rfl

/-- The events and the changes of thread and lock of an operation that starts a job or lets it wait. -/
def Starts (s : St) (r : Out) : Prop :=
  (r.1.be = s.be ∧ r.1.lock = s.lock ∧ r.2.2 = []) ∨
    (s.lock = false ∧ r.1.lock = true ∧
      ((∃ j, r.1.be = some ⟨j, none⟩ ∧ r.2.2 = [.started j]) ∨ ∃ j, r.1.be = some ⟨j, some none⟩ ∧ r.2.2 = []))

theorem begin_starts (j : Id) (s : St) (hl : s.lock = false) (rep : Reply) :
    Starts s ((begin j s).1, rep, (begin j s).2) := by
  unfold begin
  split
  · exact .inr ⟨hl, rfl, .inl ⟨j, rfl, rfl⟩⟩
  · exact .inr ⟨hl, rfl, .inr ⟨j, rfl, rfl⟩⟩

theorem launch_starts (k : Nat) (j : Id) (s : St) : Starts s (launch k j s) := by
  unfold launch
  by_cases h : s.lock = true
  · rw [if_pos h]; exact .inl ⟨rfl, rfl, rfl⟩
  · rw [if_neg h]
    exact begin_starts j { move k j .over s with phase := .running } (Bool.not_eq_true _ ▸ h) _

theorem askPassword_starts (k : Nat) (j : Id) (d : JobDef) (s : St) : Starts s (askPassword k j d s) := by
  unfold askPassword
  split
  · exact .inl ⟨rfl, rfl, rfl⟩
  · exact launch_starts k j s

theorem first_starts (jobs : Id → Option JobDef) (k : Nat) (j : Id) (s : St) : Starts s (first jobs k j s) := by
  unfold first
  dsimp only
  split
  · exact .inl ⟨rfl, rfl, rfl⟩
  · split
    · exact .inl ⟨rfl, rfl, rfl⟩
    · cases jobs j with
      | none => exact .inl ⟨rfl, rfl, rfl⟩
      | some d =>
        dsimp only
        split
        · exact .inl ⟨rfl, rfl, rfl⟩
        · exact askPassword_starts k j d _

theorem next_starts (jobs : Id → Option JobDef) (k : Nat) (s : St) : Starts s (next jobs k s) := by
  unfold next
  cases s.gens[k]? with
  | none => exact .inl ⟨rfl, rfl, rfl⟩
  | some g =>
    dsimp only
    cases g.pos with
    | fresh => exact first_starts jobs k g.job s
    | purpose =>
      dsimp only
      cases jobs g.job with
      | none => exact .inl ⟨rfl, rfl, rfl⟩
      | some d => exact askPassword_starts k g.job d s
    | sudo =>
      dsimp only
      split
      · exact launch_starts k g.job s
      · exact .inl ⟨rfl, rfl, rfl⟩
    | over => exact .inl ⟨rfl, rfl, rfl⟩

theorem wake_starts (s : St) : Starts s (wake s) := by
  unfold wake
  cases s.waiting with
  | nil => exact .inl ⟨rfl, rfl, rfl⟩
  | cons j l =>
    dsimp only
    by_cases h : s.lock = true
    · rw [if_pos h]; exact .inl ⟨rfl, rfl, rfl⟩
    · rw [if_neg h]
      exact begin_starts j { s with waiting := l } (Bool.not_eq_true _ ▸ h) _

/-- An operation that leaves thread and lock alone. -/
def Still (s : St) (r : Out) : Prop := r.1.be = s.be ∧ r.1.lock = s.lock ∧ r.2.2 = []

theorem start_still (o : Outcome) (s : St) : Still s (start o s) := by
  unfold start; dsimp only; repeat' split
  all_goals exact ⟨rfl, rfl, rfl⟩

theorem bootstrap_still (p : Plan) (s : St) : Still s (bootstrap p s) := by
  unfold bootstrap; dsimp only; repeat' split
  all_goals exact ⟨rfl, rfl, rfl⟩

theorem ask_still (j : Id) (s : St) : Still s (ask j s) := by
  unfold ask; repeat' split
  all_goals exact ⟨rfl, rfl, rfl⟩

theorem monitor_still (s : St) : Still s (monitor s) := by
  unfold monitor; repeat' split
  all_goals exact ⟨rfl, rfl, rfl⟩

theorem progress_still (s : St) : Still s (progress s) := by
  unfold progress; repeat' split
  all_goals exact ⟨rfl, rfl, rfl⟩

theorem repr_still (s : St) : Still s (repr s) := ⟨rfl, rfl, rfl⟩

theorem resume_still (jobs : Id → Option JobDef) (f : Bool) (o : Outcome) (p : Plan) (l : Option Id) (s : St) :
    Still s (resume jobs f o p l s) := by
  unfold resume; dsimp only; repeat' split
  all_goals exact ⟨rfl, rfl, rfl⟩

theorem finalize_still (o : Outcome) (s : St) : Still s (finalize o s) := by
  unfold finalize; dsimp only; repeat' split
  all_goals exact ⟨rfl, rfl, rfl⟩

end Verif.Remote
