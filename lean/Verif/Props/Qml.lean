import Verif.Model.Qml
import Verif.Lemmas.Stream

/-!
# C131: what a test in QML reports is what plainbox gets
-/

namespace Verif.Qml

open Verif.Checksum (Str)

/-- Everything that plainbox has read. -/
def taken (s : State) : List Nat :=
  match s.box with
  | .reading _ got => got
  | .done _ got => got
  | _ => []

/-- Everything that the program has written. -/
def written (s : State) : List Nat := taken s ++ s.outward

/-- What is true of what was written: the beginning of what was reported, and all of it if it says so. -/
def Told (s : State) : Prop :=
  (s.reported = none → written s = [] ∧ s.whole = false) ∧
  ∀ r, s.reported = some r → written s <+: r ∧ (s.whole = true → written s = r)

/-- What is true between all turns. -/
def Inv (c : Setup) (s : State) : Prop :=
  (s.seen = none ∨ s.seen = some c.data) ∧ (s.reported = none ∨ s.reported = c.report ∧ s.seen = some c.data) ∧
  (s.helper = true → c.helper.isSome) ∧ Told s ∧
  (match s.shell with
    | .absent => written s = [] ∧ s.reported = none ∧ s.helper = false
    | .reading got => got ++ s.inward = c.data ∧ written s = [] ∧ s.reported = none ∧ s.helper = false
    | .testing => s.seen = some c.data ∧ written s = [] ∧ s.reported = none ∧ s.helper = false
    | .writing rest => s.seen = some c.data ∧ s.reported = c.report ∧ c.report = some (written s ++ rest) ∧ s.whole = false
    | .exited _ => True) ∧
  (match s.box with
    | .writing rest => s.open' = true ∧ s.shell = .absent ∧ s.inward ++ rest = c.data ∧ s.copy = true
    | .starting => s.open' = false ∧ s.shell = .absent ∧ s.inward = c.data ∧ s.copy = true
    | .waiting => s.open' = false ∧ s.shell ≠ .absent ∧ s.copy = true
    | .reading r _ => s.shell = .exited r ∧ s.copy = false
    | .done r _ => s.shell = .exited r ∧ s.copy = false ∧ s.outward = [] ∧ s.helper = false)

theorem inv_init (c : Setup) : Inv c (init c) := by
  refine ⟨.inl rfl, .inl rfl, (by intro h; cases h), ⟨fun _ => ⟨rfl, rfl⟩, fun r h => by cases h⟩, ⟨rfl, rfl, rfl⟩,
    rfl, rfl, rfl, rfl⟩

theorem inv_box {c : Setup} {s t : State} (h : Inv c s) (e : boxStep c s = some t) : Inv c t := by
  obtain ⟨box, shell, inward, op, outward, copy, helper, seen, reported, whole⟩ := s
  obtain ⟨h1, h2, h3, h4, h5, h6⟩ := h
  unfold boxStep at e
  dsimp only at e h1 h2 h3
  cases box with
  | writing rest =>
    obtain ⟨g1, g2, g3, g4⟩ := h6
    dsimp only at g1 g2 g3 g4
    subst g2
    cases rest with
    | nil =>
      cases e
      exact ⟨h1, h2, h3, h4, h5, rfl, rfl, by simpa using g3, g4⟩
    | cons b bs =>
      dsimp only at e
      split at e
      · cases e
        exact ⟨h1, h2, h3, h4, h5, g1, rfl, by simpa using g3, g4⟩
      · cases e
  | starting =>
    obtain ⟨g1, g2, g3, g4⟩ := h6
    dsimp only at g1 g2 g3 g4
    subst g2
    cases e
    exact ⟨h1, h2, h3, h4, ⟨g3, h5⟩, g1, (by intro h; cases h), g4⟩
  | waiting =>
    obtain ⟨g1, g2, g3⟩ := h6
    dsimp only at g1 g2 g3 e
    cases shell with
    | exited r =>
      cases e
      exact ⟨h1, h2, h3, h4, trivial, rfl, rfl⟩
    | absent => cases e
    | reading _ => cases e
    | testing => cases e
    | writing _ => cases e
  | reading r got =>
    obtain ⟨g1, g2⟩ := h6
    dsimp only at g1 g2 e
    subst g1
    cases outward with
    | cons b bs =>
      cases e
      have hw : ∀ x, written ⟨.reading r (got ++ [b]), x, inward, op, bs, copy, helper, seen, reported, whole⟩ =
          written ⟨.reading r got, x, inward, op, b :: bs, copy, helper, seen, reported, whole⟩ := by
        intro x; simp [written, taken]
      refine ⟨h1, h2, h3, ?_, trivial, rfl, g2⟩
      unfold Told at h4 ⊢
      rw [hw]
      exact h4
    | nil =>
      dsimp only at e
      split at e
      · cases e
      · rename_i hc
        cases e
        simp only [Bool.or_eq_true, not_or, Bool.not_eq_true] at hc
        exact ⟨h1, h2, h3, h4, trivial, rfl, g2, rfl, hc.2⟩
  | done r got => cases e

theorem inv_shell {c : Setup} {s t : State} (h : Inv c s) (e : shellStep c s = some t) : Inv c t := by
  obtain ⟨box, shell, inward, op, outward, copy, helper, seen, reported, whole⟩ := s
  obtain ⟨h1, h2, h3, h4, h5, h6⟩ := h
  have hw : shell ≠ .absent → (∀ r, shell ≠ .exited r) → box = .waiting := by
    intro n1 n2
    cases box with
    | writing _ => exact absurd h6.2.1 n1
    | starting => exact absurd h6.2.1 n1
    | waiting => rfl
    | reading r _ => exact absurd h6.1 (n2 r)
    | done r _ => exact absurd h6.1 (n2 r)
  unfold shellStep at e
  dsimp only at e h1 h2 h3
  cases shell with
  | absent => cases e
  | exited r => cases e
  | reading got =>
    cases hw (by intro h; cases h) (by intro r h; cases h)
    obtain ⟨g1, g2, g3⟩ := h6
    obtain ⟨k1, k2, k3, k4⟩ := h5
    dsimp only at g1 g2 g3 k1 k2 k3 k4 e
    cases inward with
    | cons b bs =>
      cases e
      exact ⟨h1, h2, h3, h4, ⟨by simpa using k1, k2, k3, k4⟩, g1, (by intro h; cases h), g3⟩
    | nil =>
      dsimp only at e
      rw [g1] at e
      cases e
      have : got = c.data := by simpa using k1
      subst this
      exact ⟨.inr rfl, .inl k3, h3, h4, ⟨rfl, k2, k3, k4⟩, rfl, (by intro h; cases h), g3⟩
  | testing =>
    cases hw (by intro h; cases h) (by intro r h; cases h)
    obtain ⟨g1, g2, g3⟩ := h6
    obtain ⟨k1, k2, k3, k4⟩ := h5
    dsimp only at g1 g2 g3 k1 k2 k3 k4 e
    subst k3
    cases hr : c.report with
    | none =>
      simp only [hr] at e
      cases e
      exact ⟨h1, .inl rfl, id, h4, trivial, g1, (by intro h; cases h), g3⟩
    | some r =>
      simp only [hr] at e
      cases e
      have hwh : whole = false := (h4.1 rfl).2
      subst hwh
      have k2' : written ⟨.waiting, .writing r, inward, op, outward, copy, c.helper.isSome, seen, some r, false⟩ = [] := k2
      refine ⟨h1, .inr ⟨hr.symm, k1⟩, id, ⟨?_, ?_⟩, ⟨k1, hr.symm, ?_, rfl⟩, g1, (by intro h; cases h), g3⟩
      · intro h; cases h
      · intro x hx
        cases hx
        rw [k2']
        exact ⟨List.nil_prefix, by intro h; cases h⟩
      · rw [k2', List.nil_append, hr]
  | writing rest =>
    cases hw (by intro h; cases h) (by intro r h; cases h)
    obtain ⟨g1, g2, g3⟩ := h6
    obtain ⟨k1, k2, k3, k4⟩ := h5
    dsimp only at g1 g2 g3 k1 k2 k3 k4 e
    subst k4
    cases rest with
    | nil =>
      cases e
      refine ⟨h1, .inr ⟨k2, k1⟩, h3, ⟨?_, ?_⟩, trivial, g1, (by intro h; cases h), g3⟩
      · intro h
        dsimp only at h
        rw [k2, k3] at h
        cases h
      · intro x hx
        dsimp only at hx
        rw [k2, k3, Option.some.injEq, List.append_nil] at hx
        exact ⟨by rw [← hx]; exact List.prefix_refl _, fun _ => hx⟩
    | cons b bs =>
      dsimp only at e
      split at e
      · cases e
        refine ⟨h1, .inr ⟨k2, k1⟩, h3, ⟨?_, ?_⟩, ⟨k1, k2, ?_, rfl⟩, g1, (by intro h; cases h), g3⟩
        · intro h
          dsimp only at h
          rw [k2, k3] at h
          cases h
        · intro x hx
          dsimp only at hx
          rw [k2, k3, Option.some.injEq] at hx
          refine ⟨⟨bs, ?_⟩, by intro h; cases h⟩
          rw [← hx]
          simp [written, taken]
        · rw [k3]
          simp [written, taken]
      · cases e

theorem inv_kill {c : Setup} {s t : State} {r : Int} (h : Inv c s) (e : kill r s = some t) : Inv c t := by
  obtain ⟨box, shell, inward, op, outward, copy, helper, seen, reported, whole⟩ := s
  obtain ⟨h1, h2, h3, h4, h5, h6⟩ := h
  have hw : shell ≠ .absent → (∀ r, shell ≠ .exited r) → box = .waiting := by
    intro n1 n2
    cases box with
    | writing _ => exact absurd h6.2.1 n1
    | starting => exact absurd h6.2.1 n1
    | waiting => rfl
    | reading r _ => exact absurd h6.1 (n2 r)
    | done r _ => exact absurd h6.1 (n2 r)
  unfold kill at e
  dsimp only at e h1 h2 h3
  cases shell with
  | absent => cases e
  | exited r => cases e
  | reading _ | testing | writing _ =>
    cases hw (by intro h; cases h) (by intro r h; cases h)
    obtain ⟨g1, g2, g3⟩ := h6
    cases e
    exact ⟨h1, h2, h3, h4, trivial, g1, (by intro h; cases h), g3⟩

theorem inv_helper {c : Setup} {s t : State} (h : Inv c s) (e : helperStep c s = some t) : Inv c t := by
  obtain ⟨box, shell, inward, op, outward, copy, helper, seen, reported, whole⟩ := s
  obtain ⟨h1, h2, h3, h4, h5, h6⟩ := h
  unfold helperStep at e
  split at e
  · rename_i hc
    cases e
    simp only [Bool.and_eq_true] at hc
    refine ⟨h1, h2, (by intro h; cases h), h4, ?_, ?_⟩
    · cases shell with
      | absent => exact ⟨h5.1, h5.2.1, rfl⟩
      | reading got => exact ⟨h5.1, h5.2.1, h5.2.2.1, rfl⟩
      | testing => exact ⟨h5.1, h5.2.1, h5.2.2.1, rfl⟩
      | writing rest => exact h5
      | exited r => trivial
    · cases box with
      | done r got => exact ⟨h6.1, h6.2.1, h6.2.2.1, rfl⟩
      | writing _ => exact h6
      | starting => exact h6
      | waiting => exact h6
      | reading _ _ => exact h6
  · cases e

theorem inv_step {c : Setup} {s t : State} {w : Turn} (h : Inv c s) (e : step c s w = some t) : Inv c t := by
  cases w with
  | box => exact inv_box h e
  | shell => exact inv_shell h e
  | helper => exact inv_helper h e
  | kill r => exact inv_kill h e

theorem inv_exec {c : Setup} : ∀ (ws : List Turn) {s t : State}, Inv c s → exec c ws s = some t → Inv c t := by
  intro ws
  induction ws with
  | nil => intro s t h e; cases e; exact h
  | cons w ws ih =>
    intro s t h e
    rw [exec] at e
    obtain ⟨u, e1, e2⟩ := Option.bind_eq_some_iff.1 e
    exact ih (inv_step h e1) e2

/-- **C131, part 1.** In whatever order everybody takes turns, and whoever kills the program: the test is given the job as
plainbox sent it; and when plainbox is done, it has what the test reported if the program could write it, a beginning of it if it
could not, and nothing if the test did not report. -/
theorem C131_result (c : Setup) (ws : List Turn) (s : State) (h : exec c ws (init c) = some s) :
    (s.seen = none ∨ s.seen = some c.data) ∧
    ∀ r got, s.box = .done r got →
      s.shell = .exited r ∧ (s.reported = none → got = []) ∧
      ∀ x, s.reported = some x → c.report = some x ∧ s.seen = some c.data ∧ got <+: x ∧ (s.whole = true → got = x) := by
  obtain ⟨h1, h2, -, h4, -, h6⟩ := inv_exec ws (inv_init c) h
  refine ⟨h1, fun r got hb => ?_⟩
  rw [hb] at h6
  obtain ⟨g1, -, g3, -⟩ := h6
  have hw : written s = got := by
    unfold written taken
    rw [hb, g3]
    simp
  rw [Told, hw] at h4
  refine ⟨g1, fun hn => (h4.1 hn).1, fun x hx => ?_⟩
  rcases h2 with h2 | ⟨h2, h2'⟩
  · rw [h2] at hx; cases hx
  · exact ⟨h2.symm.trans hx, h2', h4.2 x hx⟩

/-- How much there is left to do. -/
def left (c : Setup) (s : State) : Nat :=
  (match s.box with
    | .writing rest => 2 * rest.length + 4
    | .starting => 3
    | .waiting => 2
    | .reading _ _ => 1
    | .done _ _ => 0) +
  (match s.shell with
    | .absent => 2 * (c.report.getD []).length + 5
    | .reading _ => 2 * (c.report.getD []).length + 4
    | .testing => 2 * (c.report.getD []).length + 3
    | .writing rest => 2 * rest.length + 1
    | .exited _ => 0) +
  s.inward.length + s.outward.length + (if s.helper then 1 else 0)

theorem left_step {c : Setup} {s t : State} {w : Turn} (h : Inv c s) (e : step c s w = some t) : left c t < left c s := by
  obtain ⟨box, shell, inward, op, outward, copy, helper, seen, reported, whole⟩ := s
  cases w with
  | box =>
    simp only [step, boxStep] at e
    cases box with
    | writing rest =>
      cases rest with
      | nil => cases e; simp [left]
      | cons b bs =>
        dsimp only at e
        split at e
        · cases e; simp only [left, List.length_append, List.length_cons, List.length_nil]; omega
        · cases e
    | starting =>
      have hs : shell = .absent := h.2.2.2.2.2.2.1
      subst hs
      cases e
      simp only [left]
      omega
    | waiting =>
      dsimp only at e
      cases shell with
      | exited r => cases e; simp only [left]; omega
      | absent => cases e
      | reading _ => cases e
      | testing => cases e
      | writing _ => cases e
    | reading r got =>
      cases outward with
      | cons b bs => cases e; simp only [left, List.length_cons]; omega
      | nil =>
        dsimp only at e
        split at e
        · cases e
        · cases e; simp only [left]; omega
    | done r got => cases e
  | shell =>
    simp only [step, shellStep] at e
    cases shell with
    | absent => cases e
    | exited r => cases e
    | reading got =>
      cases inward with
      | cons b bs => cases e; simp only [left, List.length_cons]; omega
      | nil =>
        dsimp only at e
        split at e
        · cases e
        · cases e; simp only [left]; omega
    | testing =>
      cases hr : c.report with
      | none =>
        simp only [hr] at e
        cases e
        simp only [left, hr, Option.getD]
        split <;> split <;> simp only [List.length_nil] <;> omega
      | some r =>
        simp only [hr] at e
        cases e
        simp only [left, hr, Option.getD]
        split <;> split <;> omega
    | writing rest =>
      cases rest with
      | nil => cases e; simp only [left]; omega
      | cons b bs =>
        dsimp only at e
        split at e
        · cases e; simp only [left, List.length_append, List.length_cons, List.length_nil]; omega
        · cases e
  | helper =>
    simp only [step, helperStep] at e
    split at e
    · rename_i hc
      cases e
      simp only [Bool.and_eq_true] at hc
      simp only [left, hc.1, if_true]
      simp
    · cases e
  | kill r =>
    simp only [step, kill] at e
    cases shell with
    | absent => cases e
    | exited r => cases e
    | reading _ | testing | writing _ =>
      cases e
      simp only [left]
      omega

theorem left_exec {c : Setup} : ∀ (ws : List Turn) {s t : State}, Inv c s → exec c ws s = some t →
    ws.length + left c t ≤ left c s := by
  intro ws
  induction ws with
  | nil => intro s t _ e; cases e; simp
  | cons w ws ih =>
    intro s t h e
    rw [exec] at e
    obtain ⟨u, e1, e2⟩ := Option.bind_eq_some_iff.1 e
    have h1 := left_step h e1
    have h2 := ih (inv_step h e1) e2
    rw [List.length_cons]
    omega

/-- Somebody can do something. -/
theorem progress {c : Setup} {s : State} (h : Inv c s) (hd : c.data.length ≤ c.capacity)
    (hr : ∀ r, c.report = some r → r.length ≤ c.capacity) (hh : c.helper ≠ some false) :
    (∃ r got, s.box = .done r got) ∨ (step c s .box).isSome ∨ (step c s .shell).isSome ∨ (step c s .helper).isSome := by
  obtain ⟨box, shell, inward, op, outward, copy, helper, seen, reported, whole⟩ := s
  obtain ⟨h1, h2, h3, h4, h5, h6⟩ := h
  simp only [step]
  cases box with
  | writing rest =>
    refine .inr (.inl ?_)
    cases rest with
    | nil => rfl
    | cons b bs =>
      have hl := congrArg List.length h6.2.2.1
      simp only [List.length_append, List.length_cons] at hl
      unfold boxStep
      dsimp only
      rw [if_pos (by omega)]
      rfl
  | starting => exact .inr (.inl rfl)
  | waiting =>
    obtain ⟨g1, g2, g3⟩ := h6
    dsimp only at g1 g2 g3
    subst g1
    cases shell with
    | absent => exact absurd rfl g2
    | exited r => exact .inr (.inl rfl)
    | reading got => cases inward <;> exact .inr (.inr (.inl rfl))
    | testing =>
      refine .inr (.inr (.inl ?_))
      unfold shellStep
      dsimp only
      cases c.report <;> rfl
    | writing rest =>
      refine .inr (.inr (.inl ?_))
      cases rest with
      | nil => rfl
      | cons b bs =>
        have hl := hr _ h5.2.2.1
        simp only [written, taken, List.nil_append, List.length_append, List.length_cons] at hl
        unfold shellStep
        dsimp only
        rw [if_pos (by omega)]
        rfl
  | reading r got =>
    obtain ⟨-, g2⟩ := h6
    dsimp only at g2 h3
    subst g2
    cases outward with
    | cons b bs => exact .inr (.inl rfl)
    | nil =>
      cases helper with
      | false => exact .inr (.inl rfl)
      | true =>
        refine .inr (.inr (.inr ?_))
        obtain ⟨b, hb⟩ := Option.isSome_iff_exists.1 (h3 rfl)
        cases b with
        | false => exact absurd hb hh
        | true => unfold helperStep; rw [hb]; rfl
  | done r got => exact .inl ⟨r, got, rfl⟩

/-- **C131, part 2.** If the job and the report fit into a pipe, and no process is left behind that keeps it open for ever, then
plainbox gets done: there are only so many turns, and until then it is always somebody's turn, even if nobody kills the program.

Missing: other jobs, reports and processes, see `C131_long_job_violated`, `C131_long_report_violated`,
`C131_helper_violated`. -/
theorem C131_ends_partial (c : Setup) (hd : c.data.length ≤ c.capacity)
    (hr : ∀ r, c.report = some r → r.length ≤ c.capacity) (hh : c.helper ≠ some false) (ws : List Turn) (s : State)
    (h : exec c ws (init c) = some s) :
    ws.length ≤ 2 * c.data.length + 2 * (c.report.getD []).length + 9 ∧
    ((∃ r got, s.box = .done r got) ∨ ∃ w, (∀ r, w ≠ .kill r) ∧ (step c s w).isSome) := by
  constructor
  · have := left_exec ws (inv_init c) h
    have hi : left c (init c) = 2 * c.data.length + 2 * (c.report.getD []).length + 9 := by
      simp [left, init]
      omega
    omega
  · rcases progress (inv_exec ws (inv_init c) h) hd hr hh with h | h | h | h
    · exact .inl h
    · exact .inr ⟨.box, (by intro r h; cases h), h⟩
    · exact .inr ⟨.shell, (by intro r h; cases h), h⟩
    · exact .inr ⟨.helper, (by intro r h; cases h), h⟩

/-- Turns preserve what every turn preserves. -/
theorem exec_keeps {c : Setup} (K : Turn → Prop) (P : State → Prop)
    (hP : ∀ s t w, K w → Inv c s → P s → step c s w = some t → P t) : ∀ (ws : List Turn) {s t : State},
    (∀ w ∈ ws, K w) → Inv c s → P s → exec c ws s = some t → P t := by
  intro ws
  induction ws with
  | nil => intro s t _ _ h e; cases e; exact h
  | cons w ws ih =>
    intro s t hk hi h e
    rw [exec] at e
    obtain ⟨u, e1, e2⟩ := Option.bind_eq_some_iff.1 e
    exact ih (fun w hw => hk w (by simp [hw])) (inv_step hi e1) (hP _ _ _ (hk w (by simp)) hi h e1) e2

/-- While the program runs, plainbox waits. -/
theorem waits {c : Setup} {s : State} (h : Inv c s) (n1 : s.shell ≠ .absent) (n2 : ∀ r, s.shell ≠ .exited r) : s.box = .waiting := by
  have h6 := h.2.2.2.2.2
  cases hb : s.box with
  | waiting => rfl
  | writing _ => rw [hb] at h6; exact absurd h6.2.1 n1
  | starting => rw [hb] at h6; exact absurd h6.2.1 n1
  | reading r _ => rw [hb] at h6; exact absurd h6.1 (n2 r)
  | done r _ => rw [hb] at h6; exact absurd h6.1 (n2 r)

/-- How the program can end, if nobody kills it: it was testing and does not report, or it has written all. -/
theorem ends {c : Setup} {s t : State} {w : Turn} {r : Int} (hk : ∀ r, w ≠ .kill r) (e : step c s w = some t)
    (ht : t.shell = .exited r) : s.shell = .exited r ∨ (r = c.status ∧ t.helper = c.helper.isSome ∧ s.shell = .testing ∧
      c.report = none ∧ t.whole = s.whole ∧ t.seen = s.seen ∧ t.reported = s.reported) ∨
      (r = c.status ∧ t.helper = s.helper ∧ s.shell = .writing [] ∧ t.whole = true ∧ t.seen = s.seen ∧
        t.reported = s.reported) := by
  obtain ⟨box, shell, inward, op, outward, copy, helper, seen, reported, whole⟩ := s
  cases w with
  | kill r => exact absurd rfl (hk r)
  | helper =>
    simp only [step, helperStep] at e
    split at e
    · cases e; exact .inl ht
    · cases e
  | box =>
    simp only [step, boxStep] at e
    cases box with
    | writing rest =>
      cases rest with
      | nil => cases e; exact .inl ht
      | cons b bs =>
        dsimp only at e
        split at e
        · cases e; exact .inl ht
        · cases e
    | starting => cases e; cases ht
    | waiting =>
      dsimp only at e
      cases shell with
      | exited r => cases e; exact .inl ht
      | absent => cases e
      | reading _ => cases e
      | testing => cases e
      | writing _ => cases e
    | reading r got =>
      cases outward with
      | cons b bs => cases e; exact .inl ht
      | nil =>
        dsimp only at e
        split at e
        · cases e
        · cases e; exact .inl ht
    | done r got => cases e
  | shell =>
    simp only [step, shellStep] at e
    cases shell with
    | absent => cases e
    | exited r => cases e
    | reading got =>
      cases inward with
      | cons b bs => cases e; cases ht
      | nil =>
        dsimp only at e
        split at e
        · cases e
        · cases e; cases ht
    | testing =>
      cases hr : c.report with
      | none =>
        simp only [hr] at e
        cases e
        cases ht
        exact .inr (.inl ⟨rfl, rfl, rfl, rfl, rfl, rfl, rfl⟩)
      | some r =>
        simp only [hr] at e
        cases e
        cases ht
    | writing rest =>
      cases rest with
      | nil => cases e; cases ht; exact .inr (.inr ⟨rfl, rfl, rfl, rfl, rfl, rfl⟩)
      | cons b bs =>
        dsimp only at e
        split at e
        · cases e; cases ht
        · cases e

/-- After it has ended, nothing changes about what was seen and reported. -/
theorem after {c : Setup} {s t : State} {w : Turn} {r : Int} (hs : s.shell = .exited r) (h : Inv c s) (e : step c s w = some t) :
    t.shell = .exited r ∧ t.seen = s.seen ∧ t.reported = s.reported ∧ t.whole = s.whole ∧
      (w ≠ .helper → t.helper = s.helper) := by
  obtain ⟨box, shell, inward, op, outward, copy, helper, seen, reported, whole⟩ := s
  dsimp only at hs
  subst hs
  cases w with
  | kill r => cases e
  | shell => cases e
  | helper =>
    simp only [step, helperStep] at e
    split at e
    · cases e; exact ⟨rfl, rfl, rfl, rfl, fun h => absurd rfl h⟩
    · cases e
  | box =>
    simp only [step, boxStep] at e
    cases box with
    | writing rest => exact absurd h.2.2.2.2.2.2.1 (by intro h; cases h)
    | starting => exact absurd h.2.2.2.2.2.2.1 (by intro h; cases h)
    | waiting => cases e; exact ⟨rfl, rfl, rfl, rfl, fun _ => rfl⟩
    | reading r got =>
      cases outward with
      | cons b bs => cases e; exact ⟨rfl, rfl, rfl, rfl, fun _ => rfl⟩
      | nil =>
        dsimp only at e
        split at e
        · cases e
        · cases e; exact ⟨rfl, rfl, rfl, rfl, fun _ => rfl⟩
    | done r got => cases e

/-- Nobody kills the program. -/
def Calm (ws : List Turn) : Prop := ∀ w ∈ ws, ∀ r, w ≠ .kill r

/-- **C131, part 3.** If nobody kills the program and plainbox gets done, then it has the status of the program and all of what the
test reported, and the test was given the job. -/
theorem C131_calm (c : Setup) (ws : List Turn) (hc : Calm ws) (s : State) (h : exec c ws (init c) = some s) (r : Int)
    (got : List Nat) (hb : s.box = .done r got) : r = c.status ∧ s.seen = some c.data ∧ got = c.report.getD [] := by
  have key : ∀ r, s.shell = .exited r → r = c.status ∧ s.seen = some c.data ∧ s.reported = c.report ∧
      (c.report ≠ none → s.whole = true) := by
    refine exec_keeps (fun w => ∀ r, w ≠ .kill r)
      (fun s => ∀ r, s.shell = .exited r → r = c.status ∧ s.seen = some c.data ∧ s.reported = c.report ∧
        (c.report ≠ none → s.whole = true)) ?_ ws hc (inv_init c) (by intro r h; cases h) h
    intro s t w hk hi hp e r ht
    rcases ends hk e ht with h | ⟨rfl, -, h1, h2, -, h4, h5⟩ | ⟨rfl, -, h1, h2, h3, h4⟩
    · obtain ⟨-, e2, e3, e4, -⟩ := after h hi e
      obtain ⟨p1, p2, p3, p4⟩ := hp r h
      exact ⟨p1, by rw [e2, p2], by rw [e3, p3], fun hn => by rw [e4, p4 hn]⟩
    · have h5' := hi.2.2.2.2.1
      rw [h1] at h5'
      exact ⟨rfl, by rw [h4, h5'.1], by rw [h5, h5'.2.2.1, h2], fun hn => absurd h2 hn⟩
    · have h5' := hi.2.2.2.2.1
      rw [h1] at h5'
      exact ⟨rfl, by rw [h3, h5'.1], by rw [h4, h5'.2.1], fun _ => h2⟩
  obtain ⟨-, h2⟩ := C131_result c ws s h
  obtain ⟨g1, g2, g3⟩ := h2 r got hb
  obtain ⟨k1, k2, k3, k4⟩ := key r g1
  refine ⟨k1, k2, ?_⟩
  cases hr : c.report with
  | none => exact g2 (by rw [k3, hr])
  | some x => exact (g3 x (by rw [k3, hr])).2.2.2 (k4 (by rw [hr]; intro h; cases h))

/-- **C131, part 4.** What was read is the text that the test reported, if plainbox uses UTF-8 or the text is ASCII; JSON then
decides what the controller gives. -/
theorem C131_answer_partial {J : Type} (loads : Str → Option J) (enc : Enc) (r : Int) (t : Str)
    (h : enc = .utf8 ∨ ∀ x ∈ t, x.toNat < 128) : answer loads enc r (Stream.encode t) = some (r, loads t) := by
  have hd : enc.decode (Stream.encode t) = some t := by
    rcases h with rfl | h
    · exact Stream.decode_encode t
    · cases enc with
      | utf8 => exact Stream.decode_encode t
      | ascii =>
        have he : Stream.encode t = t.map Char.toNat := by
          induction t with
          | nil => rfl
          | cons c t ih =>
            have hc : c.toNat < 0x80 := h c (by simp)
            rw [Stream.encode_cons, ih fun x hx => h x (by simp [hx])]
            unfold Stream.encodeChar
            dsimp only
            rw [if_pos hc]
            rfl
        rw [he]
        refine (if_pos ?_).trans ?_
        · rw [List.all_map, List.all_eq_true]
          intro x hx
          exact decide_eq_true (h x hx)
        · rw [List.map_map]
          congr 1
          exact (List.map_congr_left fun x _ => Char.ofNat_toNat x).trans (List.map_id t)
  unfold answer
  rw [hd]
  rfl

/-- What is in the pipes fits. -/
theorem fits {c : Setup} {s t : State} {w : Turn} (h : s.inward.length ≤ c.capacity ∧ s.outward.length ≤ c.capacity)
    (e : step c s w = some t) : t.inward.length ≤ c.capacity ∧ t.outward.length ≤ c.capacity := by
  obtain ⟨box, shell, inward, op, outward, copy, helper, seen, reported, whole⟩ := s
  obtain ⟨h1, h2⟩ := h
  dsimp only at h1 h2
  cases w with
  | kill r =>
    simp only [step, kill] at e
    cases shell <;> first | (cases e; done) | (cases e; exact ⟨h1, h2⟩)
  | helper =>
    simp only [step, helperStep] at e
    split at e
    · cases e; exact ⟨h1, h2⟩
    · cases e
  | box =>
    simp only [step, boxStep] at e
    cases box with
    | writing rest =>
      cases rest with
      | nil => cases e; exact ⟨h1, h2⟩
      | cons b bs =>
        dsimp only at e
        split at e
        · cases e
          refine ⟨?_, h2⟩
          dsimp only
          rw [List.length_append, List.length_singleton]
          omega
        · cases e
    | starting => cases e; exact ⟨h1, h2⟩
    | waiting =>
      dsimp only at e
      cases shell with
      | exited r => cases e; exact ⟨h1, h2⟩
      | absent => cases e
      | reading _ => cases e
      | testing => cases e
      | writing _ => cases e
    | reading r got =>
      cases outward with
      | cons b bs =>
        cases e
        rw [List.length_cons] at h2
        exact ⟨h1, by dsimp only; omega⟩
      | nil =>
        dsimp only at e
        split at e
        · cases e
        · cases e; exact ⟨h1, h2⟩
    | done r got => cases e
  | shell =>
    simp only [step, shellStep] at e
    cases shell with
    | absent => cases e
    | exited r => cases e
    | reading got =>
      cases inward with
      | cons b bs =>
        cases e
        rw [List.length_cons] at h1
        exact ⟨by dsimp only; omega, h2⟩
      | nil =>
        dsimp only at e
        split at e
        · cases e
        · cases e; exact ⟨h1, h2⟩
    | testing =>
      cases hr : c.report with
      | none => simp only [hr] at e; cases e; exact ⟨h1, h2⟩
      | some r => simp only [hr] at e; cases e; exact ⟨h1, h2⟩
    | writing rest =>
      cases rest with
      | nil => cases e; exact ⟨h1, h2⟩
      | cons b bs =>
        dsimp only at e
        split at e
        · cases e
          refine ⟨h1, ?_⟩
          dsimp only
          rw [List.length_append, List.length_singleton]
          omega
        · cases e

/-- **C131, violated.** A job that does not fit into a pipe: plainbox waits for the program to read it, but never starts it. -/
theorem C131_long_job_violated (c : Setup) (hd : c.capacity < c.data.length) (ws : List Turn) (s : State)
    (h : exec c ws (init c) = some s) : s.shell = .absent ∧ ∃ rest, s.box = .writing rest ∧ rest ≠ [] := by
  have key : (s.inward.length ≤ c.capacity ∧ s.outward.length ≤ c.capacity) ∧ ∃ rest, s.box = .writing rest := by
    refine exec_keeps (fun _ => True)
      (fun s => (s.inward.length ≤ c.capacity ∧ s.outward.length ≤ c.capacity) ∧ ∃ rest, s.box = .writing rest) ?_ ws
      (fun _ _ => trivial) (inv_init c) ⟨⟨Nat.zero_le _, Nat.zero_le _⟩, _, rfl⟩ h
    rintro s t w - hi ⟨hf, rest, hb⟩ e
    refine ⟨fits hf e, ?_⟩
    have h6 := hi.2.2.2.2.2
    rw [hb] at h6
    obtain ⟨-, g2, g3, -⟩ := h6
    cases w with
    | box =>
      simp only [step, boxStep, hb] at e
      cases rest with
      | nil =>
        rw [List.append_nil] at g3
        rw [g3] at hf
        omega
      | cons b bs =>
        dsimp only at e
        split at e
        · cases e; exact ⟨bs, rfl⟩
        · cases e
    | shell => simp only [step, shellStep, g2] at e; cases e
    | kill r => simp only [step, kill, g2] at e; cases e
    | helper =>
      simp only [step, helperStep] at e
      split at e
      · cases e; exact ⟨rest, hb⟩
      · cases e
  obtain ⟨hf, rest, hb⟩ := key
  have h6 := (inv_exec ws (inv_init c) h).2.2.2.2.2
  rw [hb] at h6
  refine ⟨h6.2.1, rest, hb, ?_⟩
  rintro rfl
  have h7 := h6.2.2.1
  rw [List.append_nil] at h7
  rw [h7] at hf
  omega

/-- **C131, violated.** A report that does not fit into a pipe: the program waits for plainbox to read it, and plainbox for the program
to end, until somebody kills the program. -/
theorem C131_long_report_violated (c : Setup) (r : List Nat) (hr : c.report = some r) (hl : c.capacity < r.length)
    (ws : List Turn) (hc : Calm ws) (s : State) (h : exec c ws (init c) = some s) :
    (∀ x, s.shell ≠ .exited x) ∧ ∀ x got, s.box ≠ .done x got := by
  have key : (s.inward.length ≤ c.capacity ∧ s.outward.length ≤ c.capacity) ∧ ∀ x, s.shell ≠ .exited x := by
    refine exec_keeps (fun w => ∀ r, w ≠ .kill r)
      (fun s => (s.inward.length ≤ c.capacity ∧ s.outward.length ≤ c.capacity) ∧ ∀ x, s.shell ≠ .exited x) ?_ ws hc
      (inv_init c) ⟨⟨Nat.zero_le _, Nat.zero_le _⟩, (by intro x h; cases h)⟩ h
    rintro s t w hk hi ⟨hf, hs⟩ e
    refine ⟨fits hf e, fun x ht => ?_⟩
    rcases ends hk e ht with h | ⟨-, -, -, h2, -⟩ | ⟨-, -, h1, -⟩
    · exact hs x h
    · rw [hr] at h2; cases h2
    · have hb := waits hi (by rw [h1]; intro h; cases h) (by rw [h1]; intro r h; cases h)
      have h5 := hi.2.2.2.2.1
      rw [h1] at h5
      have h6 := h5.2.2.1
      unfold written taken at h6
      rw [hb, hr, Option.some.injEq] at h6
      have h7 := congrArg List.length h6
      simp only [List.nil_append, List.append_nil] at h7
      omega
  refine ⟨key.2, fun x got hb => ?_⟩
  have h6 := (inv_exec ws (inv_init c) h).2.2.2.2.2
  rw [hb] at h6
  exact key.2 x h6.1

/-- **C131, violated.** A test that leaves a process behind that keeps the pipe open: plainbox never gets done. -/
theorem C131_helper_violated (c : Setup) (hh : c.helper = some false) (ws : List Turn) (hc : Calm ws) (s : State)
    (h : exec c ws (init c) = some s) : ∀ x got, s.box ≠ .done x got := by
  have key : (∀ rest, s.shell = .writing rest → s.helper = true) ∧ ∀ x, s.shell = .exited x → s.helper = true := by
    refine exec_keeps (fun w => ∀ r, w ≠ .kill r)
      (fun s => (∀ rest, s.shell = .writing rest → s.helper = true) ∧ ∀ x, s.shell = .exited x → s.helper = true) ?_ ws hc
      (inv_init c) ⟨(by intro x h; cases h), (by intro x h; cases h)⟩ h
    rintro s t w hk hi ⟨hp1, hp2⟩ e
    have hne : w ≠ .helper := by
      rintro rfl
      simp only [step, helperStep, hh] at e
      simp at e
    constructor
    · intro rest ht
      obtain ⟨box, shell, inward, op, outward, copy, helper, seen, reported, whole⟩ := s
      cases w with
      | kill r => exact absurd rfl (hk r)
      | helper => exact absurd rfl hne
      | box =>
        have hs : shell = .writing rest := by
          simp only [step, boxStep] at e
          cases box with
          | writing rest =>
            cases rest with
            | nil => cases e; exact ht
            | cons b bs =>
              dsimp only at e
              split at e
              · cases e; exact ht
              · cases e
          | starting => cases e; cases ht
          | waiting =>
            dsimp only at e
            cases shell with
            | exited r => cases e; exact ht
            | absent => cases e
            | reading _ => cases e
            | testing => cases e
            | writing _ => cases e
          | reading r got =>
            cases outward with
            | cons b bs => cases e; exact ht
            | nil =>
              dsimp only at e
              split at e
              · cases e
              · cases e; exact ht
          | done r got => cases e
        have hb := waits hi (by dsimp only; rw [hs]; intro h; cases h) (by dsimp only; rw [hs]; intro r h; cases h)
        dsimp only at hb
        subst hb
        subst hs
        cases e
      | shell =>
        simp only [step, shellStep] at e
        cases shell with
        | absent => cases e
        | exited r => cases e
        | reading got =>
          cases inward with
          | cons b bs => cases e; cases ht
          | nil =>
            dsimp only at e
            split at e
            · cases e
            · cases e; cases ht
        | testing =>
          cases hr : c.report with
          | none => simp only [hr] at e; cases e; cases ht
          | some r => simp only [hr] at e; cases e; dsimp only; rw [hh]; rfl
        | writing rest =>
          cases rest with
          | nil => cases e; cases ht
          | cons b bs =>
            dsimp only at e
            split at e
            · cases e; exact hp1 _ rfl
            · cases e
    · intro x ht
      rcases ends hk e ht with h | ⟨-, h1, -⟩ | ⟨-, h1, h2, -⟩
      · rw [(after h hi e).2.2.2.2 hne]
        exact hp2 x h
      · rw [h1, hh]; rfl
      · rw [h1]
        exact hp1 _ h2
  intro x got hb
  have h6 := (inv_exec ws (inv_init c) h).2.2.2.2.2
  rw [hb] at h6
  have := key.2 x h6.1
  rw [h6.2.2.2] at this
  cases this

/-- **C131, violated.** The program writes UTF-8, but plainbox reads with the encoding of its locale: a report with other characters than
ASCII raises an exception in the C locale. -/
theorem C131_locale_violated {J : Type} (loads : Str → Option J) (r : Int) :
    answer loads .ascii r (Stream.encode "{\"outcome\":\"pass\",\"comments\":\"é\"}".toList) = none := by
  unfold answer
  have : Enc.ascii.decode (Stream.encode "{\"outcome\":\"pass\",\"comments\":\"é\"}".toList) = none := by decide +kernel
  rw [this]
  rfl

/-! ## Examples -/

/-- A small pipe, a job of three bytes and a report of two. -/
def exSetup : Setup := ⟨[1, 2, 3], 3, some [7, 8], 0, some true⟩

/-- Everybody takes turns. -/
def exTurns : List Turn :=
  [.box, .box, .box, .box, .box, .shell, .shell, .shell, .shell, .shell, .shell, .shell, .shell, .box, .box, .box, .helper, .box]

example : (exec exSetup exTurns (init exSetup)).map (fun s => (s.box, s.seen, s.whole)) =
    some (.done 0 [7, 8], some [1, 2, 3], true) := by decide +kernel

-- The program is killed while it writes.
example : (exec exSetup [.box, .box, .box, .box, .box, .shell, .shell, .shell, .shell, .shell, .shell, .kill (-9), .box, .box, .helper,
    .box] (init exSetup)).map (fun s => (s.box, s.reported, s.whole)) = some (.done (-9) [7], some [7, 8], false) := by decide +kernel

-- Everything fits.
example : exSetup.data.length ≤ exSetup.capacity ∧ (∀ r, exSetup.report = some r → r.length ≤ exSetup.capacity) ∧
    exSetup.helper ≠ some false ∧ Calm exTurns :=
  ⟨by decide, by intro r h; cases h; decide, by decide, by
    have : ∀ w ∈ exTurns, (match w with | .kill _ => false | _ => true) = true := by decide
    intro w hw r h
    subst h
    exact absurd (this _ hw) (by simp)⟩

-- A pipe that is too small for the job, for the report; a process that stays.
example : (exec { exSetup with capacity := 2 } [.box, .box] (init exSetup)).map (fun s => (step { exSetup with capacity := 2 } s .box,
    step { exSetup with capacity := 2 } s .shell, step { exSetup with capacity := 2 } s .helper)) = some (none, none, none) := by
  decide +kernel

example : (exec { exSetup with report := some [4, 5, 6, 7] }
    [.box, .box, .box, .box, .box, .shell, .shell, .shell, .shell, .shell, .helper, .shell, .shell, .shell] (init exSetup)).map
      (fun s => (step { exSetup with report := some [4, 5, 6, 7] } s .box, step { exSetup with report := some [4, 5, 6, 7] } s .shell,
        step { exSetup with report := some [4, 5, 6, 7] } s .helper)) = some (none, none, none) := by decide +kernel

example : (exec { exSetup with helper := some false }
    [.box, .box, .box, .box, .box, .shell, .shell, .shell, .shell, .shell, .shell, .shell, .shell, .box, .box, .box] (init exSetup)).map
      (fun s => (s.box, step { exSetup with helper := some false } s .box, step { exSetup with helper := some false } s .shell,
        step { exSetup with helper := some false } s .helper)) = some (.reading 0 [7, 8], none, none, none) := by decide +kernel

example : answer (fun t => some t.length) .utf8 0 (Stream.encode "{\"outcome\":\"pass\",\"comments\":\"é\"}".toList) =
    some (0, some "{\"outcome\":\"pass\",\"comments\":\"é\"}".toList.length) :=
  C131_answer_partial _ .utf8 0 _ (.inl rfl)

end Verif.Qml
