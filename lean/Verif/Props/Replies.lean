import Verif.Lemmas.Replies

/-! # C84: a remote call gives the result of that very call -/

namespace Verif.Replies

variable {Q A : Type}

/-! ## Specification -/

/-- How often something of this kind happened to the request `s` of `b`. -/
def times (w : World Q A) (k : Kind) (b : Bool) (s : Nat) : Nat :=
  (w.log.filter fun e => decide (e.kind = (k, b, s))).length

/-- All these happened, the first one last: the record starts with the latest event. -/
def InOrder (w : World Q A) (l : List (Event Q A)) : Prop := l.reverse.Sublist w.log

/-- No message is on the way or waits to be dispatched, and no handler runs. -/
def Quiet (w : World Q A) : Prop :=
  ∀ b, w.chan b = [] ∧ (w.party b).hand = [] ∧ (w.party b).serving = []

/-- The synchronous call has its answer: it has returned it, or does so when its thread goes on. -/
def Answered (x : Wire Q A) (w : World Q A) (b : Bool) (s : Nat) (a : A) : Prop :=
  .returned b s a ∈ w.log ∨ .returned b s a ∈ (w.step x (.wake b s)).log

/-- All answers can be sent and unboxed. -/
def Wire.Sound (x : Wire Q A) : Prop := ∀ a, x.sendA a = true ∧ x.unbox a = true

theorem times_eq (w : World Q A) (k : Kind) (b : Bool) (s : Nat) : times w k b s = cnt w k b s := by
  unfold times cnt
  rw [List.countP_eq_length_filter]

/-! ## Theorems -/

theorem sent_unique (x : Wire Q A) (l : List (Act Q A)) {b sync sync' : Bool} {s : Nat} {q q' : Q}
    (h : .sent b sync s q ∈ (World.run x l).log) (h' : .sent b sync' s q' ∈ (World.run x l).log) :
    sync' = sync ∧ q' = q := by
  have g := run_inv x l b s
  simp only [GoodAt, Good] at g
  have hs : sync' = sync := by
    apply sort_of (run_inv x l) h'
    exact cnt_pos h (by simp [Event.kind])
  subst hs
  have := cnt_unique (k := if sync' then .sync else .async) (b := b) (s := s)
    (by cases sync' <;> simp <;> omega) h' h (by simp [Event.kind]) (by simp [Event.kind])
  simp only [Event.sent.injEq, true_and] at this
  exact ⟨rfl, this⟩

theorem answered_unique (x : Wire Q A) (l : List (Act Q A)) {b : Bool} {s : Nat} {q q' : Q} {a a' : A}
    (h : .answered b s q a ∈ (World.run x l).log) (h' : .answered b s q' a' ∈ (World.run x l).log) :
    q' = q ∧ a' = a := by
  have g := run_inv x l b s
  simp only [GoodAt, Good] at g
  have := cnt_unique (k := .answered) (b := b) (s := s) (by omega) h' h rfl rfl
  simpa using this

/-- Whatever the two ends and their threads do, and in whatever order messages are dispatched: what a
synchronous call returns (or raises) is the answer of the one handler that the other end ran for the one
request that this call sent. -/
theorem C84_own (x : Wire Q A) (l : List (Act Q A)) (b : Bool) (s : Nat) (a : A)
    (h : .returned b s a ∈ (World.run x l).log) :
    ∃ q, InOrder (World.run x l) [.sent b true s q, .answered b s q a, .returned b s a] ∧
      (∀ sync q', .sent b sync s q' ∈ (World.run x l).log → sync = true ∧ q' = q) ∧
      ∀ q' a', .answered b s q' a' ∈ (World.run x l).log → q' = q ∧ a' = a := by
  obtain ⟨q, hq⟩ := (run_traced x l).ret b s a h
  refine ⟨q, by simpa [InOrder] using hq, fun sync q' h' => ?_, fun q' a' h' => ?_⟩
  · exact sent_unique x l (hq.subset (by simp)) h'
  · exact answered_unique x l (hq.subset (by simp)) h'

/-- The same for asynchronous requests. -/
theorem C84_own_async (x : Wire Q A) (l : List (Act Q A)) (b : Bool) (s : Nat) (a : A)
    (h : .settled b s a ∈ (World.run x l).log) :
    ∃ q, InOrder (World.run x l) [.sent b false s q, .answered b s q a, .settled b s a] ∧
      (∀ sync q', .sent b sync s q' ∈ (World.run x l).log → sync = false ∧ q' = q) ∧
      ∀ q' a', .answered b s q' a' ∈ (World.run x l).log → q' = q ∧ a' = a := by
  obtain ⟨q, hq⟩ := (run_traced x l).set b s a h
  refine ⟨q, by simpa [InOrder] using hq, fun sync q' h' => ?_, fun q' a' h' => ?_⟩
  · exact sent_unique x l (hq.subset (by simp)) h'
  · exact answered_unique x l (hq.subset (by simp)) h'

/-- A handler runs only for a request that was sent. -/
theorem C84_asked (x : Wire Q A) (l : List (Act Q A)) (b : Bool) (s : Nat) (q : Q) (a : A)
    (h : .answered b s q a ∈ (World.run x l).log) :
    ∃ sync, InOrder (World.run x l) [.sent b sync s q, .answered b s q a] := by
  obtain ⟨sy, hm⟩ := (run_traced x l).ans b s q a h
  exact ⟨sy, by simpa [InOrder] using hm⟩

/-- Nothing happens twice: a number is used for one request, the other end handles it once, a call ends
once, the result of an asynchronous request is set once. -/
theorem C84_once (x : Wire Q A) (l : List (Act Q A)) (b : Bool) (s : Nat) :
    let w := World.run x l
    times w .sync b s + times w .async b s + times w .refused b s ≤ 1 ∧
    times w .answered b s + times w .unsent b s ≤ times w .sync b s + times w .async b s ∧
    times w .returned b s + times w .failed b s ≤ times w .sync b s ∧
    times w .settled b s + times w .ignored b s ≤ times w .async b s ∧
    times w .lost b s + times w .returned b s + times w .settled b s + times w .ignored b s ≤
      times w .answered b s := by
  have g := run_inv x l b s
  simp only [GoodAt, Good] at g
  simp only [times_eq]
  omega

/-- The result of an asynchronous request that has expired is not set, before or after; the answer is
ignored only if it has expired. -/
theorem C84_late (x : Wire Q A) (l : List (Act Q A)) (b : Bool) (s : Nat) :
    (.expired b s ∈ (World.run x l).log → ∀ a, .settled b s a ∉ (World.run x l).log) ∧
    (.ignored b s ∈ (World.run x l).log → .expired b s ∈ (World.run x l).log) := by
  have hl := run_late x l b s
  have g := run_inv x l b s
  simp only [GoodAt, Good] at g
  refine ⟨fun he a hs => ?_, fun hi => hl.2 (.inr hi)⟩
  have h1 := cnt_pos (k := .settled) (b := b) (s := s) hs rfl
  rcases hl.1 he with k | k
  · have : 1 ≤ calls (World.run x l) b s := keyed_pos (mem_of_lookup k)
    omega
  · have := cnt_pos (k := .ignored) (b := b) (s := s) k rfl
    omega

theorem quiet_counts {w : World Q A} (h : Quiet w) (b : Bool) (s : Nat) : asked w b s = 0 ∧ way w b s = 0 := by
  simp [asked, way, keyed, (h (!b)).1, (h (!b)).2.1, (h (!b)).2.2, (h b).1, (h b).2.1]

/-- When no message is on the way and no handler runs, every synchronous call has its answer, every
asynchronous one has its result or had expired; unless an answer could not be sent or unboxed.
(Partial: not without this exception, see `C84_lost_violated`, `C84_unsent_violated` and
`C84_blame_violated`.) -/
theorem C84_arrives_partial (x : Wire Q A) (l : List (Act Q A)) (hq : Quiet (World.run x l)) (b sync : Bool)
    (s : Nat) (q : Q) (h : .sent b sync s q ∈ (World.run x l).log) :
    (∃ a, .answered b s q a ∈ (World.run x l).log ∧
      if sync then Answered x (World.run x l) b s a ∨ .failed b s ∈ (World.run x l).log ∨
        .lost b s ∈ (World.run x l).log
      else .settled b s a ∈ (World.run x l).log ∨ .expired b s ∈ (World.run x l).log ∨
        .lost b s ∈ (World.run x l).log) ∨
    .unsent b s ∈ (World.run x l).log := by
  obtain ⟨w, hw⟩ : ∃ w, w = World.run x l := ⟨_, rfl⟩
  have hi := run_inv x l
  have ht := run_traced x l
  have hu := @answered_unique _ _ x l
  have hsu := @sent_unique _ _ x l
  have hla := run_late x l
  rw [← hw] at hi ht hla hq h ⊢
  simp only [← hw] at hu hsu
  have g := hi b s
  simp only [GoodAt, Good] at g
  obtain ⟨e1, e2⟩ := quiet_counts hq b s
  have hs := cnt_pos (k := if sync then .sync else .async) (b := b) (s := s) h (by simp [Event.kind])
  by_cases hun : cnt w .unsent b s = 0
  · left
    have han : 1 ≤ cnt w .answered b s := by cases sync <;> simp at hs <;> omega
    obtain ⟨e, he, hk⟩ := exists_of_cnt han
    cases e <;> simp [Event.kind] at hk
    · next sy _ _ => cases sy <;> simp at hk
    next b' s' q' a =>
    obtain ⟨rfl, rfl⟩ := hk
    obtain ⟨sy, hsub⟩ := ht.ans _ _ _ _ he
    obtain ⟨rfl, rfl⟩ := hsu h (mem_of_sublist2 hsub).2
    refine ⟨a, he, ?_⟩
    by_cases hlo : cnt w .lost b' s' = 0
    · cases sy
      · simp only [Bool.false_eq_true, if_false] at *
        by_cases hse : cnt w .settled b' s' = 0
        · right; left
          by_cases hig : cnt w .ignored b' s' = 0
          · omega
          · obtain ⟨e, hem, hk⟩ := exists_of_cnt (show 1 ≤ cnt w .ignored b' s' by omega)
            cases e <;> simp [Event.kind] at hk
            · next sy _ _ => cases sy <;> simp at hk
            · obtain ⟨rfl, rfl⟩ := hk; exact (hla _ _).2 (.inr hem)
        · left
          obtain ⟨e, hem, hk⟩ := exists_of_cnt (show 1 ≤ cnt w .settled b' s' by omega)
          cases e <;> simp [Event.kind] at hk
          · next sy _ _ => cases sy <;> simp at hk
          · next a' =>
            obtain ⟨rfl, rfl⟩ := hk
            obtain ⟨q2, h2⟩ := ht.set _ _ _ hem
            obtain ⟨-, rfl⟩ := hu he (show .answered _ _ q2 a' ∈ w.log from h2.subset (by simp))
            exact hem
      · simp only [if_true] at *
        by_cases hfa : cnt w .failed b' s' = 0
        · left
          by_cases hre : cnt w .returned b' s' = 0
          · right
            obtain ⟨a', ha'⟩ := lookup_of_keyed (show 1 ≤ stored w b' s' by omega)
            have hwt : s' ∈ (w.party b').waiting := mem_of_held (show 1 ≤ waits w b' s' by omega)
            obtain ⟨q2, sy2, h2⟩ := ht.rep _ _ _ (.inr (.inr (mem_of_lookup ha')))
            obtain ⟨-, rfl⟩ := hu he (mem_of_sublist2 h2).1
            simp [World.step, ha', hwt]
          · left
            obtain ⟨e, hem, hk⟩ := exists_of_cnt (show 1 ≤ cnt w .returned b' s' by omega)
            cases e <;> simp [Event.kind] at hk
            · next sy _ _ => cases sy <;> simp at hk
            · next a' =>
              obtain ⟨rfl, rfl⟩ := hk
              obtain ⟨q2, h2⟩ := ht.ret _ _ _ hem
              obtain ⟨-, rfl⟩ := hu he (show .answered _ _ q2 a' ∈ w.log from h2.subset (by simp))
              exact hem
        · right; left
          obtain ⟨e, hem, hk⟩ := exists_of_cnt (show 1 ≤ cnt w .failed b' s' by omega)
          cases e <;> simp [Event.kind] at hk
          · next sy _ _ => cases sy <;> simp at hk
          · obtain ⟨rfl, rfl⟩ := hk; exact hem
    · have : .lost b' s' ∈ w.log := by
        obtain ⟨e, hem, hk⟩ := exists_of_cnt (show 1 ≤ cnt w .lost b' s' by omega)
        cases e <;> simp [Event.kind] at hk
        · next sy _ _ => cases sy <;> simp at hk
        · obtain ⟨rfl, rfl⟩ := hk; exact hem
      cases sy
      · exact .inr (.inr this)
      · exact .inr (.inr this)
  · right
    obtain ⟨e, hem, hk⟩ := exists_of_cnt (show 1 ≤ cnt w .unsent b s by omega)
    cases e <;> simp [Event.kind] at hk
    · next sy _ _ => cases sy <;> simp at hk
    · obtain ⟨rfl, rfl⟩ := hk; exact hem

/-- A call whose answer could not be sent or could not be unboxed, or that raised because of another
message, does not return in any continuation. -/
theorem C84_never (x : Wire Q A) (l : List (Act Q A)) (b : Bool) (s : Nat)
    (h : .lost b s ∈ (World.run x l).log ∨ .unsent b s ∈ (World.run x l).log ∨ .failed b s ∈ (World.run x l).log)
    (l' : List (Act Q A)) (a : A) : .returned b s a ∉ (World.run x (l ++ l')).log := by
  intro hr
  have g := run_inv x (l ++ l') b s
  simp only [GoodAt, Good] at g
  have h1 := cnt_pos (k := .returned) (b := b) (s := s) hr rfl
  rcases h with h | h | h
  · have := cnt_pos (k := .lost) (b := b) (s := s) (run_log x l l' h) rfl
    omega
  · have := cnt_pos (k := .unsent) (b := b) (s := s) (run_log x l l' h) rfl
    omega
  · have := cnt_pos (k := .failed) (b := b) (s := s) (run_log x l l' h) rfl
    omega

theorem quiet_of_load {w : World Q A} (h : load w = 0) :
    Quiet w ∧ ∀ b, (w.party b).replies = [] := by
  have h0 : ∀ b, todo (w.party b) (w.chan b) = 0 := by
    intro b; unfold load at h; cases b <;> omega
  have key : ∀ (f : Msg Q A → Nat), (∀ m, 0 < f m) → ∀ l : List (Msg Q A), (l.map f).sum = 0 → l = [] := by
    intro f hf l hl
    cases l with
    | nil => rfl
    | cons m l => have := hf m; simp at hl; omega
  refine ⟨fun b => ⟨?_, ?_, ?_⟩, fun b => ?_⟩ <;> have := h0 b <;> unfold todo at this
  · exact key chanWeight (fun m => by cases m <;> simp [chanWeight]) _ (by omega)
  · exact key handWeight (fun m => by cases m <;> simp [handWeight]) _ (by omega)
  · exact List.eq_nil_of_length_eq_zero (by omega)
  · exact List.eq_nil_of_length_eq_zero (by omega)

/-- If all answers can be sent and unboxed, then at any time the two ends can complete what was begun,
without new requests: afterwards every synchronous call has returned its answer and every asynchronous one
has its result or had expired. -/
theorem C84_completes (x : Wire Q A) (hx : x.Sound) (a0 : A) (l : List (Act Q A)) :
    ∃ l', (∀ act ∈ l', ∀ b sync q, act ≠ .call b sync q) ∧ Quiet (World.run x (l ++ l')) ∧
      ∀ b sync s q, .sent b sync s q ∈ (World.run x (l ++ l')).log →
        ∃ a, .answered b s q a ∈ (World.run x (l ++ l')).log ∧
          if sync then .returned b s a ∈ (World.run x (l ++ l')).log
          else .settled b s a ∈ (World.run x (l ++ l')).log ∨ .expired b s ∈ (World.run x (l ++ l')).log := by
  have h1 : ∀ a, x.sendA a = true := fun a => (hx a).1
  have h2 : ∀ a, x.unbox a = true := fun a => (hx a).2
  obtain ⟨l', hl', h0⟩ := drain h1 h2 a0 _ _ (Nat.le_refl _) (run_inv x l) (run_clean h1 h2 l)
  rw [← run_append] at h0
  obtain ⟨hq, hr⟩ := quiet_of_load h0
  refine ⟨l', hl', hq, fun b sync s q hs => ?_⟩
  have hc := run_clean h1 h2 (l ++ l') b s
  rcases C84_arrives_partial x (l ++ l') hq b sync s q hs with ⟨a, ha, h⟩ | h
  · refine ⟨a, ha, ?_⟩
    cases sync
    · simp only [Bool.false_eq_true, if_false] at h ⊢
      rcases h with h | h | h
      · exact .inl h
      · exact .inr h
      · exact absurd h hc.2.1
    · simp only [if_true] at h ⊢
      rcases h with h | h | h
      · rcases h with h | h
        · exact h
        · simpa [World.step, hr b] using h
      · exact absurd h hc.1
      · exact absurd h hc.2.1
  · exact absurd h hc.2.2

/-! ## Where the code does not keep the promise -/

/-- Answers: numbers; 7 cannot be unboxed, 9 cannot be sent. -/
def exWire : Wire Nat Nat := ⟨fun _ => true, fun a => decide (a ≠ 9), fun a => decide (a ≠ 7)⟩

/-- An answer that cannot be unboxed, dispatched by another thread: the call waits, nothing is on the way,
and it does not return in any continuation. -/
theorem C84_lost_violated : ∃ l : List (Act Nat Nat), let w := World.run exWire l
    Quiet w ∧ .sent true true 0 5 ∈ w.log ∧ .answered true 0 5 7 ∈ w.log ∧ 0 ∈ (w.party true).waiting ∧
    ∀ l' a, .returned true 0 a ∉ (World.run exWire (l ++ l')).log := by
  refine ⟨[.call true true 5, .recv false, .dispatch false 0 none, .finish false 0 7 none, .recv true,
    .dispatch true 0 none], ?_, ?_, ?_, ?_, fun l' a => ?_⟩
  · intro b; cases b <;> decide
  · decide
  · decide
  · decide
  · exact C84_never exWire _ true 0 (.inl (by decide)) l' a

/-- An answer that cannot be sent: the same, although the handler has ended. -/
theorem C84_unsent_violated : ∃ l : List (Act Nat Nat), let w := World.run exWire l
    Quiet w ∧ .sent true true 0 5 ∈ w.log ∧ 0 ∈ (w.party true).waiting ∧
    ∀ l' a, .returned true 0 a ∉ (World.run exWire (l ++ l')).log := by
  refine ⟨[.call true true 5, .recv false, .dispatch false 0 none, .finish false 0 9 none], ?_, ?_, ?_, fun l' a => ?_⟩
  · intro b; cases b <;> decide
  · decide
  · decide
  · exact C84_never exWire _ true 0 (.inr (.inl (by decide))) l' a

/-- Two calls; the answer of the second cannot be unboxed, and the first is the one that dispatches it: the
first raises although its own answer is good and arrives, and the second waits for ever. -/
theorem C84_blame_violated : ∃ l : List (Act Nat Nat), let w := World.run exWire l
    Quiet w ∧ .answered true 0 5 6 ∈ w.log ∧ .failed true 0 ∈ w.log ∧ 1 ∈ (w.party true).waiting ∧
    ∀ l' a, .returned true 0 a ∉ (World.run exWire (l ++ l')).log ∧
      .returned true 1 a ∉ (World.run exWire (l ++ l')).log := by
  refine ⟨[.call true true 5, .call true true 8, .recv false, .recv false, .dispatch false 1 none,
    .dispatch false 0 none, .finish false 0 7 none, .finish false 0 6 none, .recv true,
    .dispatch true 0 (some 0), .recv true, .dispatch true 0 none], ?_, ?_, ?_, ?_, fun l' a => ⟨?_, ?_⟩⟩
  · intro b; cases b <;> decide
  · decide
  · decide
  · decide
  · exact C84_never exWire _ true 0 (.inr (.inr (by decide))) l' a
  · exact C84_never exWire _ true 1 (.inl (by decide)) l' a

/-! ## Examples -/

/-- Both ends ask, with the same numbers; the handler of the first request calls back, and the answers come
in another order. -/
def exRun : List (Act Nat Nat) :=
  [.call true true 5, .call false true 15, .call true false 6, .call true true 8, .recv false, .dispatch false 0 none,
   .recv false, .recv false, .dispatch false 1 none, .recv true, .dispatch true 0 (some 0), .dispatch false 0 none,
   .finish true 0 100 none, .finish false 1 101 none, .finish false 1 102 none, .recv true, .recv true,
   .expire true 1, .dispatch true 1 none, .dispatch true 0 none, .wake true 2, .recv false, .dispatch false 0 none,
   .wake false 0, .finish false 0 103 none, .recv true, .dispatch true 0 none]

example : (World.run exWire exRun).log =
    [.answered true 0 5 103, .returned false 0 100, .returned true 2 101, .ignored true 1, .expired true 1,
     .answered true 1 6 102, .answered true 2 8 101, .answered false 0 15 100, .sent true true 2 8,
     .sent true false 1 6, .sent false true 0 15, .sent true true 0 5] := by decide

/-- Then nothing is on the way, and the first call has its answer though it has not returned. -/
example : Quiet (World.run exWire exRun) ∧ Answered exWire (World.run exWire exRun) true 0 103 ∧
    .returned true 0 103 ∉ (World.run exWire exRun).log := by
  refine ⟨fun b => by cases b <;> decide, .inr (by decide), by decide⟩

/-- An asynchronous result that is set. -/
example : (World.run exWire [.call true false 6, .recv false, .dispatch false 0 none, .finish false 0 1 none,
    .recv true, .dispatch true 0 none]).log = [.settled true 0 1, .answered true 0 6 1, .sent true false 0 6] := by
  decide

/-- A connection on which nothing raises. -/
example : (⟨fun _ => true, fun _ => true, fun _ => true⟩ : Wire Nat Nat).Sound := fun _ => ⟨rfl, rfl⟩

end Verif.Replies
