import Verif.Model.SendQueue

/-! Lemmas about the queue: who has the lock, and where each message is. -/

namespace Verif.SendQueue

variable {M : Type}

/-- Between `acquire` and `release`. -/
def Crit : PC M → Prop
  | .recheck => True
  | .pop => True
  | .send _ => True
  | .release _ => True
  | _ => False

instance (pc : PC M) : Decidable (Crit pc) := by
  cases pc <;> simp only [Crit] <;> infer_instance

/-- The message that was taken and not sent yet. -/
def flight : PC M → List M
  | .send x => [x]
  | _ => []

def put : Event M → List M
  | .appended m => [m]
  | _ => []

def taken : Event M → List M
  | .sent m => [m]
  | .lost m => [m]
  | _ => []

/-- `app` was put into the queue, `tak` was sent or lost. -/
structure Inv (s : State M) (app tak : List M) : Prop where
  free : s.lock = false → (∀ (j : Nat) c, s.calls[j]? = some c → ¬ Crit c.pc) ∧ app = tak ++ s.queue
  held : s.lock = true → ∃ (i : Nat) (c : Call M), s.calls[i]? = some c ∧ Crit c.pc ∧
    (∀ (j : Nat) c', s.calls[j]? = some c' → Crit c'.pc → j = i) ∧ app = tak ++ flight c.pc ++ s.queue ∧
    (c.pc = .pop → s.queue ≠ [])

theorem Inv.start : Inv (start : State M) [] [] :=
  ⟨fun _ => ⟨fun j c h => by simp [SendQueue.start] at h, rfl⟩, fun h => by cases h⟩

theorem get_set {α : Type} {l : List α} {i j : Nat} {a b c : α} (hi : l[i]? = some a) (h : (l.set i b)[j]? = some c) :
    (j = i ∧ c = b) ∨ (j ≠ i ∧ l[j]? = some c) := by
  by_cases e : i = j
  · subst e
    rw [List.getElem?_set_self (List.getElem?_eq_some_iff.1 hi).1] at h
    exact Or.inl ⟨rfl, (Option.some.inj h).symm⟩
  · rw [List.getElem?_set_ne e] at h
    exact Or.inr ⟨fun x => e x.symm, h⟩

theorem get_set_self {α : Type} {l : List α} {i : Nat} {a b : α} (hi : l[i]? = some a) : (l.set i b)[i]? = some b :=
  List.getElem?_set_self (List.getElem?_eq_some_iff.1 hi).1

theorem Inv.step {s : State M} {app tak : List M} (h : Inv s app tak) (a : Act M) :
    Inv (SendQueue.step s a).1 (app ++ put (SendQueue.step s a).2) (tak ++ taken (SendQueue.step s a).2) := by
  cases a with
  | call m =>
    simp only [SendQueue.step, put, taken, List.append_nil]
    have hget : ∀ (j : Nat) c, (s.calls ++ [⟨m, .append⟩])[j]? = some c → s.calls[j]? = some c ∨ c = ⟨m, .append⟩ := by
      intro j c hj
      by_cases e : j < s.calls.length
      · rw [List.getElem?_append_left e] at hj; exact Or.inl hj
      · rw [List.getElem?_append_right (by omega)] at hj
        have := List.mem_of_getElem? hj
        exact Or.inr (by simpa using this)
    refine ⟨fun hl => ⟨fun j c hj => ?_, (h.free hl).2⟩, fun hl => ?_⟩
    · rcases hget j c hj with hj | rfl
      · exact (h.free hl).1 j c hj
      · simp [Crit]
    · obtain ⟨i, c, hi, hc, hu, ha, hp⟩ := h.held hl
      refine ⟨i, c, ?_, hc, fun j c' hj hc' => ?_, ha, hp⟩
      · rw [List.getElem?_append_left (List.getElem?_eq_some_iff.1 hi).1]; exact hi
      · rcases hget j c' hj with hj | rfl
        · exact hu j c' hj hc'
        · simp [Crit] at hc'
  | go i fails =>
    simp only [SendQueue.step]
    cases hi : s.calls[i]? with
    | none => simpa [put, taken] using h
    | some c =>
      obtain ⟨m, pc⟩ := c
      simp only
      -- a call outside the critical section, which stays outside: the queue may only grow
      have outside : ∀ (pc' : PC M) (q' : List M) (ev : Event M), ¬ Crit pc → ¬ Crit pc' → taken ev = [] →
          q' = s.queue ++ put ev →
          Inv ⟨q', s.lock, s.calls.set i ⟨m, pc'⟩⟩ (app ++ put ev) (tak ++ taken ev) := by
        intro pc' q' ev h1 h2 ht hq
        refine ⟨fun hl => ⟨fun j c' hj => ?_, ?_⟩, fun hl => ?_⟩
        · rcases get_set hi hj with ⟨_, rfl⟩ | ⟨_, hj⟩
          · exact h2
          · exact (h.free hl).1 j c' hj
        · rw [(h.free hl).2, ht, hq]; simp
        · obtain ⟨k, c', hk, hc, hu, ha, hp⟩ := h.held hl
          have hne : i ≠ k := by
            intro e; subst e
            rw [hi] at hk; cases hk; exact h1 hc
          refine ⟨k, c', ?_, hc, fun j c'' hj hc'' => ?_, ?_, fun e => ?_⟩
          · rw [List.getElem?_set_ne hne]; exact hk
          · rcases get_set hi hj with ⟨_, rfl⟩ | ⟨_, hj⟩
            · exact absurd hc'' h2
            · exact hu j c'' hj hc''
          · rw [ha, ht, hq]; simp
          · rw [hq]; intro e'
            have := hp e
            cases hsq : s.queue with
            | nil => exact this hsq
            | cons => rw [hsq] at e'; simp at e'
      -- the holder goes on and keeps the lock
      have inside : ∀ (pc' : PC M) (q' : List M) (ev : Event M), Crit pc → Crit pc' → put ev = [] →
          (flight pc ++ s.queue = taken ev ++ flight pc' ++ q') → (pc' = .pop → q' ≠ []) →
          Inv ⟨q', s.lock, s.calls.set i ⟨m, pc'⟩⟩ (app ++ put ev) (tak ++ taken ev) := by
        intro pc' q' ev h1 h2 hput hq hpop
        refine ⟨fun hl => absurd h1 ((h.free hl).1 i _ hi), fun hl => ?_⟩
        obtain ⟨k, c', hk, hc, hu, ha, hp⟩ := h.held hl
        have := hu i _ hi h1
        subst this
        rw [hi] at hk; cases hk
        refine ⟨i, _, get_set_self hi, h2, fun j c'' hj hc'' => ?_, ?_, hpop⟩
        · rcases get_set hi hj with ⟨e, _⟩ | ⟨_, hj⟩
          · exact e
          · exact hu j c'' hj hc''
        · rw [hput, List.append_nil, ha, List.append_assoc, hq]; simp
      cases pc with
      | append => exact outside .check _ (.appended m) (by simp [Crit]) (by simp [Crit]) rfl rfl
      | check =>
        simp only [act]
        by_cases hq : s.queue = []
        · rw [if_pos hq]; exact outside .done _ .quiet (by simp [Crit]) (by simp [Crit]) rfl (by simp [put])
        · rw [if_neg hq]; exact outside .acquire _ .quiet (by simp [Crit]) (by simp [Crit]) rfl (by simp [put])
      | acquire =>
        simp only [act]
        cases hl : s.lock with
        | true =>
          have := outside .done s.queue .quiet (by simp [Crit]) (by simp [Crit]) rfl (by simp [put])
          rw [hl] at this
          exact this
        | false =>
          obtain ⟨h1, h2⟩ := h.free hl
          simp only [Bool.false_eq_true, if_false, put, taken, List.append_nil]
          refine ⟨fun hl' => (by cases hl'), fun _ => ⟨i, _, get_set_self hi, by simp [Crit], fun j c' hj hc' => ?_, ?_, fun e => by cases e⟩⟩
          · rcases get_set hi hj with ⟨e, _⟩ | ⟨_, hj⟩
            · exact e
            · exact absurd hc' (h1 j c' hj)
          · simpa [flight] using h2
      | recheck =>
        simp only [act]
        by_cases hq : s.queue = []
        · rw [if_pos hq]
          exact inside (.release false) _ .quiet (by simp [Crit]) (by simp [Crit]) rfl (by simp [flight, taken]) (fun e => by cases e)
        · rw [if_neg hq]
          exact inside .pop _ .quiet (by simp [Crit]) (by simp [Crit]) rfl (by simp [flight, taken]) (fun _ => hq)
      | pop =>
        cases hq : s.queue with
        | nil =>
          simp only [act]
          exact inside (.release true) [] .quiet (by simp [Crit]) (by simp [Crit]) rfl (by simp [flight, taken, hq]) (fun e => by cases e)
        | cons x q =>
          simp only [act]
          exact inside (.send x) q .quiet (by simp [Crit]) (by simp [Crit]) rfl (by simp [flight, taken, hq]) (fun e => by cases e)
      | send x =>
        simp only [act]
        cases fails with
        | true =>
          simp only [if_true]
          exact inside (.release true) _ (.lost x) (by simp [Crit]) (by simp [Crit]) rfl (by simp [flight, taken]) (fun e => by cases e)
        | false =>
          simp only [Bool.false_eq_true, if_false]
          exact inside (.release false) _ (.sent x) (by simp [Crit]) (by simp [Crit]) rfl (by simp [flight, taken]) (fun e => by cases e)
      | release r =>
        simp only [act, put, taken, List.append_nil]
        refine ⟨fun _ => ?_, fun hl => by cases hl⟩
        cases hl : s.lock with
        | false => exact absurd (by simp [Crit]) ((h.free hl).1 i _ hi)
        | true =>
          obtain ⟨k, c', hk, hc, hu, ha, hp⟩ := h.held hl
          have := hu i _ hi (by simp [Crit])
          subst this
          rw [hi] at hk; cases hk
          refine ⟨fun j c'' hj => ?_, by simpa [flight] using ha⟩
          rcases get_set hi hj with ⟨_, rfl⟩ | ⟨e, hj⟩
          · cases r <;> simp [Crit]
          · exact fun hc'' => e (hu j c'' hj hc'')
      | done => exact outside .done _ .quiet (by simp [Crit]) (by simp [Crit]) rfl (by simp [put, act])
      | raised => exact outside .raised _ .quiet (by simp [Crit]) (by simp [Crit]) rfl (by simp [put, act])

theorem Inv.run : ∀ (l : List (Act M)) {s : State M} {app tak : List M}, Inv s app tak →
    Inv (SendQueue.run s l).1 (app ++ (SendQueue.run s l).2.flatMap put) (tak ++ (SendQueue.run s l).2.flatMap taken)
  | [], s, app, tak, h => by simpa [SendQueue.run] using h
  | a :: l, s, app, tak, h => by
    have := Inv.run l (h.step a)
    simpa [SendQueue.run, List.flatMap_cons, List.append_assoc] using this

/-! ## Nothing is forgotten -/

/-- A call has failed or is about to. -/
def Failing (s : State M) : Prop := ∃ (i : Nat) (c : Call M), s.calls[i]? = some c ∧ (c.pc = .raised ∨ c.pc = .release true)

/-- Somebody will look at the queue. -/
def Watched (s : State M) : Prop :=
  s.queue = [] ∨ s.lock = true ∨ ∃ (i : Nat) (c : Call M), s.calls[i]? = some c ∧ (c.pc = .check ∨ c.pc = .acquire)

theorem failing_step {s : State M} (a : Act M) (h : Failing s) : Failing (step s a).1 := by
  obtain ⟨i, c, hi, hc⟩ := h
  cases a with
  | call m =>
    exact ⟨i, c, by simp only [step]; rw [List.getElem?_append_left (List.getElem?_eq_some_iff.1 hi).1]; exact hi, hc⟩
  | go j fails =>
    simp only [step]
    cases hj : s.calls[j]? with
    | none => exact ⟨i, c, hi, hc⟩
    | some c' =>
      by_cases e : j = i
      · subst e
        rw [hi] at hj; cases hj
        refine ⟨j, _, get_set_self hi, ?_⟩
        rcases hc with hc | hc <;> simp [hc, act]
      · exact ⟨i, c, by simp only; rw [List.getElem?_set_ne e]; exact hi, hc⟩

theorem watched_step {s : State M} {app tak : List M} (hinv : Inv s app tak) (a : Act M) (h : Watched s)
    (hf : ¬ Failing (step s a).1) : Watched (step s a).1 := by
  cases a with
  | call m =>
    rcases h with h | h | ⟨i, c, hi, hc⟩
    · exact Or.inl h
    · exact Or.inr (Or.inl h)
    · exact Or.inr (Or.inr ⟨i, c, by simp only [step]; rw [List.getElem?_append_left (List.getElem?_eq_some_iff.1 hi).1]; exact hi, hc⟩)
  | go j fails =>
    revert hf
    simp only [step]
    cases hj : s.calls[j]? with
    | none => exact fun _ => h
    | some c =>
      obtain ⟨m, pc⟩ := c
      simp only
      have keep : ∀ (pc' : PC M) (q' : List M), pc ≠ .check → pc ≠ .acquire → (q' = s.queue) →
          Watched ⟨q', s.lock, s.calls.set j ⟨m, pc'⟩⟩ := by
        intro pc' q' h1 h2 hq
        rcases h with h | h | ⟨i, c, hi, hc⟩
        · exact Or.inl (by rw [hq]; exact h)
        · exact Or.inr (Or.inl h)
        · have : j ≠ i := by
            intro e; subst e
            rw [hj] at hi; cases hi
            rcases hc with hc | hc
            · exact h1 hc
            · exact h2 hc
          exact Or.inr (Or.inr ⟨i, c, by simp only; rw [List.getElem?_set_ne this]; exact hi, hc⟩)
      have locked : ∀ c, s.calls[j]? = some c → Crit c.pc → s.lock = true := by
        intro c hc hcr
        cases hl : s.lock with
        | true => rfl
        | false => exact absurd hcr ((hinv.free hl).1 j c hc)
      cases pc with
      | append => exact fun _ => Or.inr (Or.inr ⟨j, _, get_set_self hj, Or.inl rfl⟩)
      | check =>
        simp only [act]
        intro _
        by_cases hq : s.queue = []
        · exact Or.inl hq
        · rw [if_neg hq]
          exact Or.inr (Or.inr ⟨j, _, get_set_self hj, Or.inr rfl⟩)
      | acquire =>
        simp only [act]
        intro _
        cases hl : s.lock with
        | true => exact Or.inr (Or.inl rfl)
        | false => exact Or.inr (Or.inl rfl)
      | recheck =>
        intro _
        exact Or.inr (Or.inl (by simp only [act]; exact locked _ hj (by simp [Crit])))
      | pop =>
        intro _
        refine Or.inr (Or.inl ?_)
        have := locked _ hj (by simp [Crit])
        cases hq : s.queue <;> simp only [act] <;> exact this
      | send x =>
        intro _
        refine Or.inr (Or.inl ?_)
        have := locked _ hj (by simp [Crit])
        cases fails <;> simp only [act] <;> exact this
      | release r =>
        intro hf
        cases r with
        | true => exact absurd ⟨j, _, get_set_self hj, Or.inl rfl⟩ hf
        | false => exact Or.inr (Or.inr ⟨j, _, get_set_self hj, Or.inl rfl⟩)
      | done => exact fun _ => keep .done _ (by simp) (by simp) rfl
      | raised => exact fun _ => keep .raised _ (by simp) (by simp) rfl

theorem failing_run : ∀ (l : List (Act M)) {s : State M}, Failing s → Failing (run s l).1
  | [], _, h => h
  | a :: l, _, h => failing_run l (failing_step a h)

theorem watched_run : ∀ (l : List (Act M)) {s : State M} {app tak : List M}, Inv s app tak → Watched s →
    ¬ Failing (run s l).1 → Watched (run s l).1
  | [], _, _, _, _, h, _ => h
  | a :: l, s, app, tak, hi, h, hf => by
    have h1 : ¬ Failing (step s a).1 := fun hx => hf (failing_run l hx)
    exact watched_run l (hi.step a) (watched_step hi a h h1) hf

theorem lost_step {s : State M} {a : Act M} {m : M} (h : (step s a).2 = .lost m) : Failing (step s a).1 := by
  cases a with
  | call x => cases h
  | go i fails =>
    simp only [step] at h ⊢
    cases hi : s.calls[i]? with
    | none => rw [hi] at h; cases h
    | some c =>
      obtain ⟨x, pc⟩ := c
      rw [hi] at h
      simp only at h
      cases pc with
      | send y =>
        cases fails with
        | true => exact ⟨i, _, get_set_self hi, Or.inr rfl⟩
        | false => cases h
      | pop => cases hq : s.queue <;> (rw [hq] at h; cases h)
      | acquire => simp only [act] at h; split at h <;> cases h
      | _ => cases h

theorem lost_run : ∀ (l : List (Act M)) {s : State M} {m : M}, Event.lost m ∈ (run s l).2 → Failing (run s l).1
  | [], _, _, h => by cases h
  | a :: l, s, m, h => by
    simp only [run, List.mem_cons] at h
    rcases h with h | h
    · exact failing_run l (lost_step h.symm)
    · exact lost_run l h

/-! ## A call alone -/

/-- `n` steps of one call. -/
def solo (i n : Nat) : List (Act M) := List.replicate n (.go i false)

theorem run_append : ∀ (l k : List (Act M)) (s : State M),
    run s (l ++ k) = ((run (run s l).1 k).1, (run s l).2 ++ (run (run s l).1 k).2)
  | [], k, s => rfl
  | a :: l, k, s => by
    simp only [List.cons_append, run, run_append l k]

theorem solo_succ (i n : Nat) : (solo i (n + 1) : List (Act M)) = .go i false :: solo i n := rfl

theorem solo_add (i a b : Nat) : (solo i (a + b) : List (Act M)) = solo i a ++ solo i b := by
  simp [solo, List.replicate_append_replicate]

theorem set_set {α : Type} (l : List α) (i : Nat) (a b : α) : (l.set i a).set i b = l.set i b := by
  simp [List.set_set]

def sentOf : Event M → List M
  | .sent m => [m]
  | _ => []

/-- A call that is at the `while` and alone: it sends everything that is in the queue. -/
theorem solo_check (m : M) (i : Nat) : ∀ (q : List M) (calls : List (Call M)), calls[i]? = some ⟨m, .check⟩ →
    (run ⟨q, false, calls⟩ (solo i (6 * q.length + 1))).1 = ⟨[], false, calls.set i ⟨m, .done⟩⟩ ∧
    (run ⟨q, false, calls⟩ (solo i (6 * q.length + 1))).2.flatMap sentOf = q
  | [], calls, h => by
    simp [solo, run, step, h, act, sentOf]
  | x :: q, calls, h => by
    have e : 6 * (x :: q).length + 1 = (6 * q.length + 1) + 1 + 1 + 1 + 1 + 1 + 1 := by simp; omega
    have ih := solo_check m i q (calls.set i ⟨m, .check⟩) (get_set_self h)
    rw [e]
    simp only [solo_succ _ (_ + 1), run, step, h, act, get_set_self h, set_set, if_false,
      Bool.false_eq_true, List.cons_ne_nil, List.flatMap_cons, sentOf, List.nil_append]
    rw [set_set] at ih
    exact ⟨ih.1, by rw [ih.2]; rfl⟩

/-- The call has returned or raised. -/
def Over (pc : PC M) : Prop := pc = .done ∨ pc = .raised

def OverIn (s : State M) (i n : Nat) : Prop := ∃ c, (run s (solo i n)).1.calls[i]? = some c ∧ Over c.pc

theorem over_stays : ∀ (n : Nat) {s : State M} {i : Nat} {c : Call M}, s.calls[i]? = some c → Over c.pc → OverIn s i n
  | 0, s, i, c, h, ho => ⟨c, h, ho⟩
  | n + 1, s, i, c, h, ho => by
    have : (step s (.go i false)).1.calls[i]? = some c := by
      simp only [step, h]
      rw [get_set_self h]
      rcases ho with ho | ho <;> (obtain ⟨m, pc⟩ := c; simp only at ho; subst ho; rfl)
    obtain ⟨c', h1, h2⟩ := over_stays n this ho
    exact ⟨c', h1, h2⟩

theorem OverIn.more {s : State M} {i n k : Nat} (h : OverIn s i n) (hk : n ≤ k) : OverIn s i k := by
  obtain ⟨d, rfl⟩ := Nat.le.dest hk
  obtain ⟨c, h1, h2⟩ := h
  obtain ⟨c', h3, h4⟩ := over_stays d h1 h2
  refine ⟨c', ?_, h4⟩
  rw [solo_add, run_append]
  exact h3

theorem OverIn.succ {s : State M} {i n : Nat} (h : OverIn (step s (.go i false)).1 i n) : OverIn s i (n + 1) := h

theorem over_check (m : M) (i : Nat) (q : List M) (l : Bool) (calls : List (Call M)) (h : calls[i]? = some ⟨m, .check⟩) :
    OverIn ⟨q, l, calls⟩ i (6 * q.length + 2) := by
  cases l with
  | false =>
    have := solo_check m i q calls h
    refine OverIn.more (n := 6 * q.length + 1) ⟨⟨m, .done⟩, ?_, Or.inl rfl⟩ (by omega)
    rw [this.1]
    exact get_set_self h
  | true =>
    refine OverIn.more (n := 2) ?_ (by omega)
    by_cases hq : q = []
    · refine OverIn.succ (over_stays 1 (c := ⟨m, .done⟩) ?_ (Or.inl rfl))
      simp only [step, h, act, if_pos hq]
      exact get_set_self h
    · refine OverIn.succ (OverIn.succ (over_stays 0 (c := ⟨m, .done⟩) ?_ (Or.inl rfl)))
      simp only [step, h, act, if_neg hq, get_set_self h, if_true]
      rw [set_set]
      exact get_set_self h

/-- Whatever the others are doing, a call that runs alone is over soon. -/
theorem over_soon (m : M) (pc : PC M) (i : Nat) (q : List M) (l : Bool) (calls : List (Call M))
    (h : calls[i]? = some ⟨m, pc⟩) (hl : Crit pc → l = true) :
    OverIn ⟨q, l, calls⟩ i (6 * q.length + 9) := by
  have rel : ∀ (q : List M) (calls : List (Call M)) r, calls[i]? = some ⟨m, .release r⟩ →
      OverIn ⟨q, true, calls⟩ i (6 * q.length + 3) := by
    intro q calls r h
    cases r with
    | true =>
      refine OverIn.succ (over_stays _ (c := ⟨m, .raised⟩) ?_ (Or.inr rfl))
      simp only [step, h, act]
      exact get_set_self h
    | false =>
      refine OverIn.succ ?_
      simp only [step, h, act]
      exact over_check m i q false _ (get_set_self h)
  have snd : ∀ (q : List M) (calls : List (Call M)) x, calls[i]? = some ⟨m, .send x⟩ →
      OverIn ⟨q, true, calls⟩ i (6 * q.length + 4) := by
    intro q calls x h
    refine OverIn.succ ?_
    simp only [step, h, act, Bool.false_eq_true, if_false]
    exact rel q _ false (get_set_self h)
  have pop : ∀ (q : List M) (calls : List (Call M)), calls[i]? = some ⟨m, .pop⟩ →
      OverIn ⟨q, true, calls⟩ i (6 * q.length + 4) := by
    intro q calls h
    cases q with
    | nil =>
      refine OverIn.succ ?_
      simp only [step, h, act]
      exact rel [] _ true (get_set_self h)
    | cons x q =>
      refine OverIn.more (n := 6 * q.length + 4 + 1) (OverIn.succ ?_) (by simp; omega)
      simp only [step, h, act]
      exact snd q _ x (get_set_self h)
  have rec' : ∀ (q : List M) (calls : List (Call M)), calls[i]? = some ⟨m, .recheck⟩ →
      OverIn ⟨q, true, calls⟩ i (6 * q.length + 5) := by
    intro q calls h
    refine OverIn.succ ?_
    simp only [step, h, act]
    by_cases hq : q = []
    · rw [if_pos hq]
      exact OverIn.more (rel q _ false (get_set_self h)) (by omega)
    · rw [if_neg hq]
      exact pop q _ (get_set_self h)
  cases pc with
  | append =>
    refine OverIn.succ ?_
    simp only [step, h, act]
    refine OverIn.more (over_check m i _ l _ (get_set_self h)) ?_
    simp; omega
  | check => exact (over_check m i q l calls h).more (by omega)
  | acquire =>
    cases l with
    | true =>
      refine OverIn.succ (over_stays _ (c := ⟨m, .done⟩) ?_ (Or.inl rfl))
      simp only [step, h, act, if_true]
      exact get_set_self h
    | false =>
      refine OverIn.succ ?_
      simp only [step, h, act, Bool.false_eq_true, if_false]
      exact (rec' q _ (get_set_self h)).more (by omega)
  | recheck => rw [hl (by simp [Crit])]; exact (rec' q calls h).more (by omega)
  | pop => rw [hl (by simp [Crit])]; exact (pop q calls h).more (by omega)
  | send x => rw [hl (by simp [Crit])]; exact (snd q calls x h).more (by omega)
  | release r => rw [hl (by simp [Crit])]; exact (rel q calls r h).more (by omega)
  | done => exact over_stays _ h (Or.inl rfl)
  | raised => exact over_stays _ h (Or.inr rfl)

/-! ## Whose messages were put into the queue -/

/-- The message of a call that has put it into the queue. -/
def given (c : Call M) : Option M := if c.pc matches .append then none else some c.msg

theorem filterMap_set_same {α β : Type} (f : α → Option β) : ∀ (l : List α) (i : Nat) (a b : α), l[i]? = some a → f a = f b →
    (l.set i b).filterMap f = l.filterMap f
  | [], i, a, b, h, _ => by simp at h
  | x :: l, 0, a, b, h, hp => by
    simp at h; subst h
    simp only [List.set_cons_zero, List.filterMap_cons, hp]
  | x :: l, i + 1, a, b, h, hp => by
    simp only [List.getElem?_cons_succ] at h
    simp only [List.set_cons_succ, List.filterMap_cons, filterMap_set_same f l i a b h hp]

theorem filterMap_set_new {α β : Type} (f : α → Option β) (y : β) : ∀ (l : List α) (i : Nat) (a b : α), l[i]? = some a →
    f a = none → f b = some y → ((l.set i b).filterMap f).Perm (l.filterMap f ++ [y])
  | [], i, a, b, h, _, _ => by simp at h
  | x :: l, 0, a, b, h, ha, hb => by
    simp at h; subst h
    simp only [List.set_cons_zero, List.filterMap_cons, ha, hb]
    exact (List.perm_append_singleton y _).symm
  | x :: l, i + 1, a, b, h, ha, hb => by
    simp only [List.getElem?_cons_succ] at h
    have ih := filterMap_set_new f y l i a b h ha hb
    simp only [List.set_cons_succ, List.filterMap_cons]
    cases f x with
    | none => exact ih
    | some z => exact ih.cons z

theorem given_step {s : State M} {app : List M} (h : app.Perm (s.calls.filterMap given)) (a : Act M) :
    (app ++ put (step s a).2).Perm ((step s a).1.calls.filterMap given) := by
  cases a with
  | call m => simpa [step, put, given, List.filterMap_append] using h
  | go i fails =>
    simp only [step]
    cases hi : s.calls[i]? with
    | none => simpa [put] using h
    | some c =>
      obtain ⟨m, pc⟩ := c
      have same : ∀ pc', (pc matches .append) = false → (pc' matches .append) = false → ∀ ev : Event M, put ev = [] →
          (app ++ put ev).Perm ((s.calls.set i ⟨m, pc'⟩).filterMap given) := by
        intro pc' h1 h2 ev he
        rw [he, List.append_nil, filterMap_set_same given _ i ⟨m, pc⟩ _ hi (by simp [given, h1, h2])]
        exact h
      cases pc with
      | append =>
        exact (h.append_right [m]).trans (filterMap_set_new given m s.calls i ⟨m, .append⟩ ⟨m, .check⟩ hi rfl rfl).symm
      | check => simp only [act]; split <;> exact same _ rfl rfl _ rfl
      | acquire => simp only [act]; split <;> exact same _ rfl rfl _ rfl
      | recheck => simp only [act]; split <;> exact same _ rfl rfl _ rfl
      | pop => cases s.queue <;> (simp only [act]; exact same _ rfl rfl _ rfl)
      | send x => simp only [act]; split <;> exact same _ rfl rfl _ rfl
      | release r => cases r <;> (simp only [act]; exact same _ rfl rfl _ rfl)
      | done => exact same _ rfl rfl _ rfl
      | raised => exact same _ rfl rfl _ rfl

theorem given_run : ∀ (l : List (Act M)) {s : State M} {app : List M}, app.Perm (s.calls.filterMap given) →
    (app ++ (run s l).2.flatMap put).Perm ((run s l).1.calls.filterMap given)
  | [], s, app, h => by simpa [run] using h
  | a :: l, s, app, h => by
    have := given_run l (given_step h a)
    simpa [run, List.flatMap_cons, List.append_assoc] using this

end Verif.SendQueue
