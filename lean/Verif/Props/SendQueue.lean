import Verif.Lemmas.SendQueue

/-!
# C81: messages that several threads send at once are sent once each, in order, and no call waits for another

The specification looks only at what is seen of a history: the messages that were put into the queue, sent and
lost, in this order, and which calls have returned or raised.
-/

namespace Verif.SendQueue

variable {M : Type}

/-- The state after a history, and what was seen. -/
def after (l : List (Act M)) : State M := (run start l).1
def seen (l : List (Act M)) : List (Event M) := (run start l).2

/-- The messages in the order in which they were handed over. -/
def handed (e : List (Event M)) : List M := e.filterMap fun | .appended m => some m | _ => none
/-- The messages in the order in which they were sent. -/
def onWire (e : List (Event M)) : List M := e.filterMap fun | .sent m => some m | _ => none
/-- The messages whose sending was tried, in this order. -/
def tried (e : List (Event M)) : List M := e.filterMap fun | .sent m => some m | .lost m => some m | _ => none

theorem handed_eq (e : List (Event M)) : handed e = e.flatMap put := by
  induction e with
  | nil => rfl
  | cons x e ih => cases x <;> simp_all [handed, put]

theorem tried_eq (e : List (Event M)) : tried e = e.flatMap taken := by
  induction e with
  | nil => rfl
  | cons x e ih => cases x <;> simp_all [tried, taken]

theorem onWire_eq (e : List (Event M)) : onWire e = e.flatMap sentOf := by
  induction e with
  | nil => rfl
  | cons x e ih => cases x <;> simp_all [onWire, sentOf]

theorem onWire_sublist (e : List (Event M)) : List.Sublist (onWire e) (tried e) := by
  induction e with
  | nil => exact .slnil
  | cons x e ih =>
    cases x with
    | appended m => exact ih
    | sent m => exact ih.cons_cons m
    | lost m => exact ih.cons m
    | quiet => exact ih

theorem onWire_tried (e : List (Event M)) (h : ∀ m, Event.lost m ∉ e) : onWire e = tried e := by
  induction e with
  | nil => rfl
  | cons x e ih =>
    have ih := ih fun m hm => h m (List.mem_cons_of_mem _ hm)
    cases x with
    | lost m => exact absurd (List.mem_cons_self ..) (h m)
    | sent m => exact congrArg (List.cons m) ih
    | appended m => exact ih
    | quiet => exact ih

theorem inv_after (l : List (Act M)) : Inv (after l) (handed (seen l)) (tried (seen l)) := by
  have := Inv.run l (Inv.start (M := M))
  rw [List.nil_append, List.nil_append] at this
  rw [handed_eq, tried_eq]
  exact this

/-- C81: in every history the messages are tried in the order in which they were handed over, each at most once:
what was tried is a beginning of what was handed over; what was sent is what was tried without what was lost. -/
theorem C81_order (l : List (Act M)) :
    tried (seen l) <+: handed (seen l) ∧ List.Sublist (onWire (seen l)) (handed (seen l)) ∧
    ((∀ m, Event.lost m ∉ seen l) → onWire (seen l) <+: handed (seen l)) := by
  have h := inv_after l
  have hp : tried (seen l) <+: handed (seen l) := by
    cases hl : (after l).lock with
    | false => exact ⟨_, (h.free hl).2.symm⟩
    | true =>
      obtain ⟨i, c, _, _, _, ha, _⟩ := h.held hl
      exact ⟨_, by rw [ha, List.append_assoc]⟩
  exact ⟨hp, (onWire_sublist _).trans hp.sublist, fun hn => by rw [onWire_tried _ hn]; exact hp⟩

/-- Two threads: the second hands its message over while the first is sending; the first sends both. -/
def exTwo : List (Act String) :=
  [.call "a", .call "b", .go 0 false, .go 0 false, .go 0 false, .go 0 false, .go 0 false, .go 1 false, .go 1 false,
   .go 1 false, .go 0 false, .go 0 false, .go 0 false, .go 0 false, .go 0 false, .go 0 false, .go 0 false, .go 0 false,
   .go 0 false]

example : onWire (seen exTwo) = ["a", "b"] ∧ (after exTwo).calls = [⟨"a", .done⟩, ⟨"b", .done⟩] := by decide

/-- C81: when all calls have returned, every message has been sent exactly once, in the order in which they were
handed over. -/
theorem C81_complete (l : List (Act M)) (h : ∀ c ∈ (after l).calls, c.pc = .done) :
    (after l).queue = [] ∧ (after l).lock = false ∧ onWire (seen l) = handed (seen l) ∧
    (handed (seen l)).Perm ((after l).calls.map (·.msg)) := by
  have hinv := inv_after l
  have hnf : ¬ Failing (after l) := by
    rintro ⟨i, c, hi, hc⟩
    have := h c (List.mem_of_getElem? hi)
    rcases hc with hc | hc <;> (rw [this] at hc; cases hc)
  have hlock : (after l).lock = false := by
    cases hl : (after l).lock with
    | false => rfl
    | true =>
      obtain ⟨i, c, hi, hc, _⟩ := hinv.held hl
      rw [h c (List.mem_of_getElem? hi)] at hc
      exact absurd hc (by simp [Crit])
  have hq : (after l).queue = [] := by
    rcases watched_run l (Inv.start (M := M)) (Or.inl rfl) hnf with hw | hw | ⟨i, c, hi, hc⟩
    · exact hw
    · have : (after l).lock = true := hw
      rw [hlock] at this; cases this
    · have := h c (List.mem_of_getElem? hi)
      rcases hc with hc | hc <;> (rw [this] at hc; cases hc)
  refine ⟨hq, hlock, ?_, ?_⟩
  · rw [onWire_tried (seen l) fun m hm => hnf (lost_run l hm), (hinv.free hlock).2, hq, List.append_nil]
  have hg := given_run l (s := start) (app := ([] : List M)) (.refl _)
  rw [List.nil_append, show (run start l).2.flatMap put = handed (seen l) from (handed_eq _).symm] at hg
  refine hg.trans (List.Perm.of_eq ?_)
  have : ∀ (cs : List (Call M)), (∀ c ∈ cs, c.pc = .done) → cs.filterMap given = cs.map (·.msg) := by
    intro cs
    induction cs with
    | nil => intro _; rfl
    | cons c cs ih =>
      intro hc
      have h1 := hc c (List.mem_cons_self ..)
      rw [List.filterMap_cons, List.map_cons, ih fun d hd => hc d (List.mem_cons_of_mem _ hd)]
      simp [given, h1]
  exact this _ h

example : (∀ c ∈ (after exTwo).calls, c.pc = .done) ∧ handed (seen exTwo) = ["a", "b"] := by decide

/-- C81: whatever all other calls are doing, even when the garbage collector interrupts the one that has the lock, a
call is over after a number of its own steps that the length of the queue bounds: it never waits for another call. -/
theorem C81_returns (l : List (Act M)) (i : Nat) (hi : i < (after l).calls.length) :
    ∃ c, (run (after l) (List.replicate (6 * (after l).queue.length + 9) (.go i false))).1.calls[i]? = some c ∧
      (c.pc = .done ∨ c.pc = .raised) := by
  have hinv := inv_after l
  generalize hs : after l = s at hinv hi ⊢
  obtain ⟨q, lk, calls⟩ := s
  have hget : calls[i]? = some calls[i] := List.getElem?_eq_getElem hi
  refine over_soon calls[i].msg calls[i].pc i q lk calls hget fun hc => ?_
  cases lk with
  | true => rfl
  | false => exact absurd hc ((hinv.free rfl).1 i _ hget)

/-- A destructor runs while the thread is in `channel.send`: it hands its message over and returns. -/
example : (after [Act.call "a", .go 0 false, .go 0 false, .go 0 false, .go 0 false, .go 0 false, .call "del"]).calls =
      [⟨"a", .send "a"⟩, ⟨"del", .append⟩] ∧
    (run (after [Act.call "a", .go 0 false, .go 0 false, .go 0 false, .go 0 false, .go 0 false, .call "del"])
      (List.replicate 9 (.go 1 false))).1 = ⟨["del"], true, [⟨"a", .send "a"⟩, ⟨"del", .done⟩]⟩ := by decide

/-- C81: when nobody is sending, a call that runs alone sends everything that was left and its own message. -/
theorem C81_drains (l : List (Act M)) (m : M) (hl : (after l).lock = false) :
    let k := (after l).calls.length
    let r := run (after l) (.call m :: List.replicate (6 * (after l).queue.length + 8) (.go k false))
    onWire r.2 = (after l).queue ++ [m] ∧ r.1.queue = [] ∧ r.1.lock = false ∧
      r.1.calls = (after l).calls ++ [⟨m, .done⟩] := by
  generalize after l = s at hl ⊢
  obtain ⟨q, lk, calls⟩ := s
  simp only at hl
  subst hl
  simp only
  have h0 : (calls ++ [⟨m, .append⟩])[calls.length]? = some ⟨m, PC.append⟩ := by simp
  have hset : ∀ pc, (calls ++ [(⟨m, .append⟩ : Call M)]).set calls.length ⟨m, pc⟩ = calls ++ [⟨m, pc⟩] := by
    intro pc
    rw [List.set_append_right _ _ (Nat.le_refl _)]
    simp
  have h1 : (calls ++ [⟨m, .check⟩])[calls.length]? = some ⟨m, PC.check⟩ := by simp
  have hset' : (calls ++ [(⟨m, .check⟩ : Call M)]).set calls.length ⟨m, .done⟩ = calls ++ [⟨m, .done⟩] := by
    rw [List.set_append_right _ _ (Nat.le_refl _)]
    simp
  have hs := solo_check m calls.length (q ++ [m]) (calls ++ [⟨m, .check⟩]) h1
  have hlen : 6 * q.length + 8 = (6 * (q ++ [m]).length + 1) + 1 := by simp; omega
  rw [hlen]
  simp only [List.replicate_succ (n := 6 * (q ++ [m]).length + 1), run, step, h0, act, hset]
  rw [onWire_eq]
  simp only [List.flatMap_cons, sentOf, List.nil_append]
  rw [hset'] at hs
  refine ⟨hs.2, ?_⟩
  rw [show List.replicate (6 * (q ++ [m]).length + 1) (Act.go calls.length false) = solo calls.length (6 * (q ++ [m]).length + 1) from rfl, hs.1]
  exact ⟨rfl, rfl, rfl⟩

/-- The first call fails to send its message; that of the second is left behind. -/
def exFail : List (Act String) :=
  [.call "a", .call "b", .go 0 false, .go 0 false, .go 0 false, .go 0 false, .go 0 false, .go 1 false, .go 1 false,
   .go 1 false, .go 0 true, .go 0 false]

example : (after exFail).lock = false ∧ (after exFail).queue = ["b"] := by decide

/-- The full claim — a message is sent unless sending it fails — is violated: a call has returned, no call is going
on, sending its message was never tried, and it is not sent before somebody else sends something. -/
theorem C81_forgotten_violated : ∃ l : List (Act String),
    (∀ c ∈ (after l).calls, c.pc = .done ∨ c.pc = .raised) ∧ (after l).queue = ["b"] ∧
    (⟨"b", .done⟩ : Call String) ∈ (after l).calls ∧ "b" ∉ tried (seen l) :=
  ⟨exFail, by decide, by decide, by decide, by decide⟩

/-- A failure is reported to the wrong caller: the call whose message was sent raises, the one whose message was
lost has returned. -/
theorem C81_blame_violated : ∃ l : List (Act String),
    (after l).calls = [⟨"a", .raised⟩, ⟨"b", .done⟩] ∧ onWire (seen l) = ["a"] ∧ Event.lost "b" ∈ seen l :=
  ⟨[.call "a", .call "b", .go 0 false, .go 0 false, .go 0 false, .go 0 false, .go 0 false, .go 1 false, .go 1 false,
    .go 1 false, .go 0 false, .go 0 false, .go 0 false, .go 0 false, .go 0 false, .go 0 false, .go 0 true, .go 0 false],
    by decide, by decide, by decide⟩

end Verif.SendQueue
