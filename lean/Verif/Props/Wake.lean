import Verif.Lemmas.Wake

/-! # C85: calls do not wait once their reply is there, and are not forgotten -/

namespace Verif.Wake

/-! ## Specification -/

/-- What can happen in an execution: anything. -/
def Reachable (s : State) : Prop := ∃ l, s = State.run .start l

/-- No message arrives and no time runs out. -/
def Silent (l : List Act) : Prop := ∀ a ∈ l, (∀ m, a ≠ .arrive m) ∧ ∀ i, a ≠ .go i true

/-- The call is over. -/
def Over (c : PC) : Prop := c = .returned ∨ c = .raised

/-- A call is made only when all others are over. -/
def OneByOne : State → List Act → Prop
  | _, [] => True
  | s, a :: l => (a = .call → ∀ c ∈ s.pcs, Over c) ∧ OneByOne (s.step a) l

/-- The call is inside of the section that only one thread enters: it receives and dispatches. -/
def Receiving (c : PC) : Prop := c = .clear ∨ c = .recv ∨ (∃ m, c = .dispatch m) ∨ ∃ r, c = .release r

/-- The call has to wait: for a message or for another thread. -/
def Waits (c : PC) : Prop := c = .recv ∨ c = .wait ∨ c = .blocked

/-! ## Theorems -/

/-- Only one thread receives and dispatches at any time. -/
theorem C85_one_receiver (s : State) (h : Reachable s) (i j : Nat) (c d : PC) (hi : s.pcs[i]? = some c)
    (hj : s.pcs[j]? = some d) (hc : Receiving c) (hd : Receiving d) : i = j := by
  obtain ⟨l, rfl⟩ := h
  have hh : ∀ e, Receiving e → e.holds = true := by
    rintro e (rfl | rfl | ⟨m, rfl⟩ | ⟨r, rfl⟩) <;> rfl
  have h1 := (run_inv l).owner i c hi (hh c hc)
  have h2 := (run_inv l).owner j d hj (hh d hd)
  rw [h1] at h2
  exact Option.some.inj h2

theorem keeps_check {s : State} {i j : Nat} (hij : i ≠ j) (b : Bool) (hi : s.pcs[i]? = some .check) :
    (s.step (.go j b)).pcs[i]? = some .check := by
  simp only [State.step]
  split
  · exact hi
  · next c hj =>
    cases c <;> simp only [State.go]
    · split <;> (simp only; rw [get_set hj, if_neg hij, hi])
    · split <;> (simp only; rw [get_set hj, if_neg hij, hi])
    · rw [get_set hj, if_neg hij, hi]
    · split
      · simp only; rw [get_set hj, if_neg hij, hi]
      · split
        · simp only; rw [get_set hj, if_neg hij, hi]
        · exact hi
    · split <;> (simp only; rw [get_set hj, if_neg hij, hi])
    · rw [get_set hj, if_neg hij, hi]
    · rw [get_map_set hj, if_neg hij, hi]; rfl
    · rw [get_set hj, if_neg hij, hi]
    · exact hi
    · exact hi
    · exact hi

/-- The steps that the thread inside of the section needs until the event is set. -/
def PC.need : PC → Nat
  | .clear => 5
  | .recv => 4
  | .dispatch _ => 3
  | .release _ => 2
  | .set _ => 1
  | _ => 0

theorem wakes {i j : Nat} (hij : i ≠ j) (b : Bool) : ∀ (n : Nat) (s : State) (c : PC),
    (s.chan ≠ [] ∨ b = true) →
    (s.pcs[i]? = some .check ∨ (s.pcs[i]? = some .blocked ∧ s.pcs[j]? = some c ∧ 0 < c.need ∧ c.need ≤ n)) →
    (s.run (List.replicate n (.go j b))).pcs[i]? = some .check
  | 0, s, c, _, h => by
    rcases h with h | ⟨-, -, h1, h2⟩
    · exact h
    · omega
  | n + 1, s, c, hb, h => by
    show ((s.step (.go j b)).run (List.replicate n (.go j b))).pcs[i]? = some .check
    have hall : ∀ (m : Nat) (t : State), t.pcs[i]? = some .check →
        (t.run (List.replicate m (.go j b))).pcs[i]? = some .check := by
      intro m
      induction m with
      | zero => exact fun t ht => ht
      | succ m ih => exact fun t ht => ih _ (keeps_check hij b ht)
    rcases h with h | ⟨hi, hj, h1, h2⟩
    · exact hall n _ (keeps_check hij b h)
    · have e : s.step (.go j b) = s.go j b c := by simp only [State.step, hj]
      rw [e]
      cases c <;> simp only [PC.need] at h1 h2 <;> try omega
      · refine wakes hij b n _ .recv hb (.inr ⟨?_, ?_, by simp [PC.need], by simp [PC.need]; omega⟩)
        · simp only [State.go]; rw [get_set hj, if_neg hij, hi]
        · simp only [State.go]; rw [get_set hj, if_pos rfl]
      · simp only [State.go]
        split
        · next m l hm =>
          by_cases hb' : b = true
          · refine wakes hij b n _ (.dispatch m) (.inr hb') (.inr ⟨?_, ?_, by simp [PC.need], by simp [PC.need]; omega⟩)
            · simp only; rw [get_set hj, if_neg hij, hi]
            · simp only; rw [get_set hj, if_pos rfl]
          · obtain ⟨n', rfl⟩ : ∃ n', n = n' + 1 := ⟨n - 1, by omega⟩
            obtain ⟨n'', rfl⟩ : ∃ n'', n' = n'' + 1 := ⟨n' - 1, by omega⟩
            obtain ⟨k, rfl⟩ : ∃ k, n'' = k + 1 := ⟨n'' - 1, by omega⟩
            have hbf : b = false := by cases b <;> simp_all
            subst hbf
            have s1 := get_set (d := PC.dispatch m) hj
            have g1 : (s.pcs.set j (.dispatch m))[j]? = some (.dispatch m) := by rw [s1, if_pos rfl]
            have s2 := get_set (d := PC.release false) g1
            have g2 : ((s.pcs.set j (.dispatch m)).set j (.release false))[j]? = some (.release false) := by
              rw [s2, if_pos rfl]
            have s3 := get_set (d := PC.set false) g2
            have g3 : (((s.pcs.set j (.dispatch m)).set j (.release false)).set j (.set false))[j]? = some (.set false) := by
              rw [s3, if_pos rfl]
            simp only [List.replicate, State.run, List.foldl_cons]
            refine hall k _ ?_
            simp only [State.step, g1, State.go, Bool.false_eq_true, if_false, g2, g3]
            rw [get_map_set g3, if_neg hij, s3, if_neg hij, s2, if_neg hij, s1, if_neg hij, hi]
            rfl
        · next hm =>
          have hb' : b = true := by
            rcases hb with hb | hb
            · exact absurd hm hb
            · exact hb
          rw [if_pos hb']
          refine wakes hij b n _ (.release false) (.inr hb') (.inr ⟨?_, ?_, by simp [PC.need], by simp [PC.need]; omega⟩)
          · simp only; rw [get_set hj, if_neg hij, hi]
          · simp only; rw [get_set hj, if_pos rfl]
      · simp only [State.go]
        split
        · next hb' =>
          refine wakes hij b n _ (.release true) (.inr hb') (.inr ⟨?_, ?_, by simp [PC.need], by simp [PC.need]; omega⟩)
          · simp only; rw [get_set hj, if_neg hij, hi]
          · simp only; rw [get_set hj, if_pos rfl]
        · next m hb' =>
          refine wakes hij b n _ (.release false) ?_ (.inr ⟨?_, ?_, by simp [PC.need], by simp [PC.need]; omega⟩)
          · exact hb
          · simp only; rw [get_set hj, if_neg hij, hi]
          · simp only; rw [get_set hj, if_pos rfl]
      · next r =>
        refine wakes hij b n _ (.set r) hb (.inr ⟨?_, ?_, by simp [PC.need], by simp [PC.need]; omega⟩)
        · simp only [State.go]; rw [get_set hj, if_neg hij, hi]
        · simp only [State.go]; rw [get_set hj, if_pos rfl]
      · refine hall n _ ?_
        simp only [State.go]
        rw [get_map_set hj, if_neg hij, hi]; rfl

/-- A call that is inside of `Event.wait` is not forgotten: there is another thread, and as soon as this one has
made five steps (for which it needs one message, or that its time runs out) the call goes on. -/
theorem C85_not_forgotten (s : State) (h : Reachable s) (i : Nat) (hi : s.pcs[i]? = some .blocked) :
    ∃ j, j ≠ i ∧ ∀ b, (s.chan ≠ [] ∨ b = true) →
      (s.run (List.replicate 5 (.go j b))).pcs[i]? = some .check := by
  obtain ⟨l, rfl⟩ := h
  obtain ⟨j, c, hj, hc⟩ := (run_inv l).blocked i hi
  have hij : i ≠ j := by
    rintro rfl
    rw [hi] at hj; cases hj; cases hc
  refine ⟨j, fun e => hij e.symm, fun b hb => wakes hij b 5 _ c hb (.inr ⟨hi, hj, ?_, ?_⟩)⟩
  · cases c <;> simp_all [PC.mid, PC.holds, PC.need]
  · cases c <;> simp [PC.need]

/-- What happens to a call from here on, when its reply is stored: it gets to the end of the body of the loop, by
receiving itself or by waiting for the event, and then looks for its reply and returns (or it raises, if what it
dispatches does). -/
inductive Later : PC → PC → Prop
  | here (c : PC) : Later c c
  | step {c d e : PC} : Next c d → Later d e → Later c e

theorem stays {s : State} {i : Nat} (hi : s.pcs[i]? = some .returned) (a : Act) :
    (s.step a).pcs[i]? = some .returned := by
  cases a with
  | call =>
    simp only [State.step]
    rw [List.getElem?_append_left, hi]
    rcases Nat.lt_or_ge i s.pcs.length with h' | h'
    · exact h'
    · rw [List.getElem?_eq_none h'] at hi; cases hi
  | arrive m => exact hi
  | go k b =>
    simp only [State.step]
    split
    · exact hi
    · next e hk =>
      by_cases hki : i = k
      · subst hki
        rw [hi] at hk; cases hk; exact hi
      · cases e <;> simp only [State.go]
        · split <;> (simp only; rw [get_set hk, if_neg hki, hi])
        · split <;> (simp only; rw [get_set hk, if_neg hki, hi])
        · rw [get_set hk, if_neg hki, hi]
        · split
          · simp only; rw [get_set hk, if_neg hki, hi]
          · split
            · simp only; rw [get_set hk, if_neg hki, hi]
            · exact hi
        · split <;> (simp only; rw [get_set hk, if_neg hki, hi])
        · rw [get_set hk, if_neg hki, hi]
        · rw [get_map_set hk, if_neg hki, hi]; rfl
        · rw [get_set hk, if_neg hki, hi]
        · exact hi
        · exact hi
        · exact hi

theorem later {i : Nat} : ∀ (l : List Act) (s : State) (c : PC), s.pcs[i]? = some c →
    (c = .returned ∨ i ∈ s.replies) → ∃ d, (s.run l).pcs[i]? = some d ∧ Later c d
  | [], _, c, hi, _ => ⟨c, hi, .here c⟩
  | a :: l, s, c, hi, hr => by
    rcases hr with rfl | hr
    · exact later l (s.step a) .returned (stays hi a) (.inl rfl)
    · obtain ⟨d, h1, h2, h3⟩ := stored_step hi hr a
      obtain ⟨e, h4, h5⟩ := later l (s.step a) d h1 h3
      refine ⟨e, h4, ?_⟩
      rcases h2 with rfl | h2
      · exact h5
      · exact .step h2 h5

theorem later_returned {d : PC} (h : Later .returned d) : d = .returned := by
  cases h with
  | here => rfl
  | step h _ => cases h

theorem later_raised {d : PC} (h : Later .raised d) : d = .raised := by
  cases h with
  | here => rfl
  | step h _ => cases h

theorem later_check {d : PC} (h : Later .check d) : d = .check ∨ d = .returned := by
  cases h with
  | here => exact .inl rfl
  | step h k => cases h; exact .inr (later_returned k)

theorem later_set {r : Bool} {d : PC} (h : Later (.set r) d) : d = .set r ∨ d = .check ∨ d = .returned ∨ d = .raised := by
  cases h with
  | here => exact .inl rfl
  | step h k =>
    cases h
    · rcases later_check k with h | h <;> simp [h]
    · simp [later_raised k]

theorem later_release {r : Bool} {d : PC} (h : Later (.release r) d) :
    d = .release r ∨ d = .set r ∨ d = .check ∨ d = .returned ∨ d = .raised := by
  cases h with
  | here => exact .inl rfl
  | step h k => cases h; exact .inr (later_set k)

theorem later_dispatch {m : Option Nat} {d : PC} (h : Later (.dispatch m) d) :
    d = .dispatch m ∨ ∃ r, d = .release r ∨ d = .set r ∨ d = .check ∨ d = .returned ∨ d = .raised := by
  cases h with
  | here => exact .inl rfl
  | step h k =>
    cases h
    next r => exact .inr ⟨r, later_release k⟩

theorem later_recv {d : PC} (h : Later .recv d) :
    d = .recv ∨ ∃ m r, d = .dispatch m ∨ d = .release r ∨ d = .set r ∨ d = .check ∨ d = .returned ∨ d = .raised := by
  cases h with
  | here => exact .inl rfl
  | step h k =>
    cases h
    · next m =>
      rcases later_dispatch k with h | ⟨r, h⟩
      · exact .inr ⟨m, true, .inl h⟩
      · exact .inr ⟨m, r, .inr h⟩
    · exact .inr ⟨none, false, .inr (later_release k)⟩

theorem later_clear {d : PC} (h : Later .clear d) : d = .clear ∨ d = .recv ∨
    ∃ m r, d = .dispatch m ∨ d = .release r ∨ d = .set r ∨ d = .check ∨ d = .returned ∨ d = .raised := by
  cases h with
  | here => exact .inl rfl
  | step h k => cases h; exact .inr (later_recv k)

theorem later_blocked {d : PC} (h : Later .blocked d) : d = .blocked ∨ d = .check ∨ d = .returned := by
  cases h with
  | here => exact .inl rfl
  | step h k => cases h; exact .inr (later_check k)

theorem later_wait {d : PC} (h : Later .wait d) : d = .wait ∨ d = .blocked ∨ d = .check ∨ d = .returned := by
  cases h with
  | here => exact .inl rfl
  | step h k =>
    cases h
    · exact .inr (.inr (later_check k))
    · exact .inr (later_blocked k)

/-- A call whose reply is stored gets through the loop at most once more, whatever the threads do: if it is about
to look for its reply, or has received a message itself, it does not wait any more, for anything; if it waits for
the event it does not receive; if it receives it does not wait for the event. (Partial: it may wait once, see
`C85_receives_violated` and `C85_wakeup_violated`.) -/
theorem C85_once_more_partial (s : State) (i : Nat) (c : PC) (hi : s.pcs[i]? = some c) (hr : i ∈ s.replies)
    (l : List Act) :
    ∃ d, (s.run l).pcs[i]? = some d ∧
      (c = .check → d = .check ∨ d = .returned) ∧
      ((c = .check ∨ (∃ m, c = .dispatch m) ∨ (∃ r, c = .release r) ∨ ∃ r, c = .set r) → ¬ Waits d ∧ d ≠ .acquire) ∧
      (c = .wait ∨ c = .blocked → ¬ Receiving d ∧ d ≠ .acquire) ∧
      (c = .clear ∨ c = .recv → d ≠ .wait ∧ d ≠ .blocked ∧ d ≠ .acquire) := by
  obtain ⟨d, h1, h2⟩ := later l s c hi (.inr hr)
  refine ⟨d, h1, ?_, ?_, ?_, ?_⟩
  · rintro rfl; exact later_check h2
  · rintro (rfl | ⟨m, rfl⟩ | ⟨r, rfl⟩ | ⟨r, rfl⟩)
    · rcases later_check h2 with rfl | rfl <;> simp [Waits]
    · rcases later_dispatch h2 with rfl | ⟨r, rfl | rfl | rfl | rfl | rfl⟩ <;> simp [Waits]
    · rcases later_release h2 with rfl | rfl | rfl | rfl | rfl <;> simp [Waits]
    · rcases later_set h2 with rfl | rfl | rfl | rfl <;> simp [Waits]
  · rintro (rfl | rfl)
    · rcases later_wait h2 with rfl | rfl | rfl | rfl <;> simp [Receiving]
    · rcases later_blocked h2 with rfl | rfl | rfl <;> simp [Receiving]
  · rintro (rfl | rfl)
    · rcases later_clear h2 with rfl | rfl | ⟨m, r, rfl | rfl | rfl | rfl | rfl | rfl⟩ <;> simp
    · rcases later_recv h2 with rfl | ⟨m, r, rfl | rfl | rfl | rfl | rfl | rfl⟩ <;> simp

/-- A call that looks for its reply returns if it is stored, and only then. -/
theorem C85_returns (s : State) (i : Nat) (b : Bool) (hi : s.pcs[i]? = some .check) :
    (s.step (.go i b)).pcs[i]? = some .returned ↔ i ∈ s.replies := by
  simp only [State.step, hi, State.go]
  by_cases h : i ∈ s.replies
  · rw [if_pos h]; simp only [h, iff_true]
    rw [get_set hi, if_pos rfl]
  · rw [if_neg h]; simp only [h, iff_false]
    rw [get_set hi, if_pos rfl]; simp

/-! ## One call at a time -/

def calm : PC → Bool
  | .check | .release _ | .set _ | .returned | .raised => true
  | _ => false

structure Solo (s : State) : Prop where
  inv : Inv s
  one : ∀ (i j : Nat) (c d : PC), s.pcs[i]? = some c → s.pcs[j]? = some d → ¬ Over c → ¬ Over d → i = j
  free : ∀ (i : Nat) (c : PC), s.pcs[i]? = some c → c ≠ .wait ∧ c ≠ .blocked
  calm : ∀ (i : Nat) (c : PC), i ∈ s.replies → s.pcs[i]? = some c → calm c = true

theorem solo_local {s s' : State} (h : Solo s) (hv : Inv s') {i : Nat} {c d : PC} (hi : s.pcs[i]? = some c)
    (hc : ¬ Over c) (hp : ∀ k, s'.pcs[k]? = if k = i then some d else s.pcs[k]?) (hd : d ≠ .wait ∧ d ≠ .blocked)
    (hr : i ∈ s'.replies → Wake.calm d = true) : Solo s' := by
  have others : ∀ (k : Nat) (e : PC), k ≠ i → s.pcs[k]? = some e → Over e := fun k e hk he =>
    Classical.byContradiction fun hno => hk (h.one k i e c he hi hno hc)
  constructor
  · exact hv
  · intro k j e f hk hj he hf
    rw [hp] at hk hj
    by_cases hki : k = i
    · by_cases hji : j = i
      · rw [hki, hji]
      · rw [if_neg hji] at hj; exact absurd (others j f hji hj) hf
    · rw [if_neg hki] at hk; exact absurd (others k e hki hk) he
  · intro k e hk
    rw [hp] at hk
    by_cases hki : k = i
    · rw [if_pos hki] at hk; cases hk; exact hd
    · rw [if_neg hki] at hk; exact h.free k e hk
  · intro k e hm hk
    rw [hp] at hk
    by_cases hki : k = i
    · subst hki
      rw [if_pos rfl] at hk; cases hk; exact hr hm
    · rw [if_neg hki] at hk
      rcases others k e hki hk with rfl | rfl <;> rfl

theorem solo_go {s : State} (h : Solo s) {i : Nat} {c : PC} (hi : s.pcs[i]? = some c) (b : Bool) :
    Solo (s.go i b c) := by
  have hv := go_inv h.inv hi b
  have hno : ∀ d, s.pcs[i]? = some d → Wake.calm d = false → i ∉ s.replies := fun d hd hc hm => by
    rw [h.calm i d hm hd] at hc; cases hc
  cases c <;> simp only [State.go] at hv ⊢
  · split at hv
    · next hm =>
      rw [if_pos hm]
      exact solo_local h hv hi (by simp [Over]) (fun k => get_set hi k) (by simp) (fun _ => rfl)
    · next hm =>
      rw [if_neg hm]
      exact solo_local h hv hi (by simp [Over]) (fun k => get_set hi k) (by simp) (fun h => absurd h hm)
  · split at hv
    · next hl =>
      rw [if_pos hl]
      exact solo_local h hv hi (by simp [Over]) (fun k => get_set hi k) (by simp) (fun hm => absurd hm (hno _ hi rfl))
    · next hl =>
      exfalso
      obtain ⟨j, hj⟩ : ∃ j, s.lock = some j := by
        cases e : s.lock with
        | none => exact absurd e hl
        | some j => exact ⟨j, rfl⟩
      obtain ⟨e, h1, h2⟩ := h.inv.owned j hj
      have := h.one j i e _ h1 hi (by rintro (rfl | rfl) <;> cases h2) (by simp [Over])
      subst this
      rw [hi] at h1; cases h1; cases h2
  · exact solo_local h hv hi (by simp [Over]) (fun k => get_set hi k) (by simp) (fun hm => absurd hm (hno _ hi rfl))
  · split at hv
    · next m l hm =>
      exact solo_local h hv hi (by simp [Over]) (fun k => get_set hi k) (by simp) (fun hm => absurd hm (hno _ hi rfl))
    · next hm =>
      split at hv
      · next hb =>
        rw [if_pos hb]
        exact solo_local h hv hi (by simp [Over]) (fun k => get_set hi k) (by simp) (fun _ => rfl)
      · next hb => rw [if_neg hb]; exact h
  · split at hv
    · next hb =>
      rw [if_pos hb]
      exact solo_local h hv hi (by simp [Over]) (fun k => get_set hi k) (by simp) (fun _ => rfl)
    · next hb =>
      rw [if_neg hb]
      exact solo_local h hv hi (by simp [Over]) (fun k => get_set hi k) (by simp) (fun _ => rfl)
  · exact solo_local h hv hi (by simp [Over]) (fun k => get_set hi k) (by simp) (fun _ => rfl)
  · next r =>
    refine solo_local h hv hi (d := if r then .raised else .check) (by simp [Over]) (fun k => ?_)
      (by cases r <;> simp) (fun _ => by cases r <;> rfl)
    rw [get_map_set hi]
    by_cases hki : k = i
    · rw [if_pos hki, if_pos hki]
    · rw [if_neg hki, if_neg hki]
      cases hk : s.pcs[k]? with
      | none => rfl
      | some e =>
        have := (h.free k e hk).2
        cases e <;> first | rfl | exact absurd rfl this
  · exact absurd rfl (h.free i _ hi).1
  · exact absurd rfl (h.free i _ hi).2
  · exact h
  · exact h

theorem solo_run : ∀ (l : List Act) (s : State), Solo s → OneByOne s l → Solo (s.run l)
  | [], _, h, _ => h
  | a :: l, s, h, ho => by
    refine solo_run l (s.step a) ?_ ho.2
    cases a with
    | call =>
      have hover := ho.1 rfl
      have hv := step_inv h.inv .call
      have hmem : ∀ (k : Nat) (e : PC), s.pcs[k]? = some e → Over e := fun k e hk => hover e (List.mem_of_getElem? hk)
      constructor
      · exact hv
      · intro i j c d hi hj hc hd
        rcases get_append hi with hi | ⟨hi, -⟩
        · exact absurd (hmem i c hi) hc
        · rcases get_append hj with hj | ⟨hj, -⟩
          · exact absurd (hmem j d hj) hd
          · rw [hi, hj]
      · intro i c hi
        rcases get_append hi with hi | ⟨-, rfl⟩
        · exact h.free i c hi
        · simp
      · intro i c hm hi
        rcases get_append hi with hi | ⟨-, rfl⟩
        · exact h.calm i c hm hi
        · rfl
    | arrive m => exact ⟨step_inv h.inv (.arrive m), h.one, h.free, h.calm⟩
    | go i b =>
      simp only [State.step]
      split
      · exact h
      · next c hi => exact solo_go h hi b

/-- When calls are made one at a time, none ever waits for another thread, and one whose reply is stored does not
wait at all. -/
theorem C85_alone (l : List Act) (h : OneByOne .start l) (i : Nat) (c : PC)
    (hi : (State.run .start l).pcs[i]? = some c) :
    c ≠ .wait ∧ c ≠ .blocked ∧ (i ∈ (State.run .start l).replies → ¬ Waits c ∧ c ≠ .acquire ∧ c ≠ .clear) := by
  have hs := solo_run l .start
    ⟨start_inv, by simp [State.start], by simp [State.start], by simp [State.start]⟩ h
  refine ⟨(hs.free i c hi).1, (hs.free i c hi).2, fun hm => ?_⟩
  have := hs.calm i c hm hi
  cases c <;> simp_all [calm, Waits]

/-! ## Where the code does not keep the promise -/

theorem silent_cons {a : Act} {l : List Act} (h : Silent (a :: l)) :
    ((∀ m, a ≠ .arrive m) ∧ ∀ i, a ≠ .go i true) ∧ Silent l :=
  ⟨h a (by simp), fun x hx => h x (List.mem_cons_of_mem _ hx)⟩

/-- A thread that receives keeps the others out, as long as no message arrives. -/
structure Stuck (j : Nat) (s : State) : Prop where
  inv : Inv s
  recv : s.pcs[j]? = some .recv
  empty : s.chan = []
  none : ∀ (k : Nat) (r : Bool), s.pcs[k]? ≠ some (.set r)

theorem stuck_step {j : Nat} {s : State} (h : Stuck j s) {a : Act} (h1 : ∀ m, a ≠ .arrive m)
    (h2 : ∀ i, a ≠ .go i true) : Stuck j (s.step a) ∧
      ∀ i : Nat, s.pcs[i]? = some PC.blocked → (s.step a).pcs[i]? = some .blocked := by
  have hown := h.inv.owner j _ h.recv rfl
  have hlt : ∀ (k : Nat) (c : PC), s.pcs[k]? = some c → k < s.pcs.length := fun k c hk => by
    rcases Nat.lt_or_ge k s.pcs.length with h' | h'
    · exact h'
    · rw [List.getElem?_eq_none h'] at hk; cases hk
  cases a with
  | call =>
    refine ⟨⟨step_inv h.inv _, ?_, h.empty, fun k r hk => ?_⟩, fun i hi => ?_⟩
    · simp only [State.step]; rw [List.getElem?_append_left (hlt _ _ h.recv), h.recv]
    · rcases get_append hk with hk | ⟨-, hk⟩
      · exact h.none k r hk
      · cases hk
    · simp only [State.step]; rw [List.getElem?_append_left (hlt _ _ hi), hi]
  | arrive m => exact absurd rfl (h1 m)
  | go k b =>
    have hb : b = false := by
      cases b
      · rfl
      · exact absurd rfl (h2 k)
    subst hb
    have hv := step_inv h.inv (.go k false)
    simp only [State.step] at hv ⊢
    split
    · exact ⟨h, fun _ h => h⟩
    · next c hk =>
      rw [hk] at hv
      simp only at hv
      -- a step that changes the place of `k` only
      have move : ∀ (d : PC) (r : List Nat), Inv { s with pcs := s.pcs.set k d, replies := r } → k ≠ j →
          c ≠ .blocked → (∀ q, d ≠ .set q) →
          Stuck j { s with pcs := s.pcs.set k d, replies := r } ∧
          ∀ i : Nat, s.pcs[i]? = some PC.blocked → ({ s with pcs := s.pcs.set k d, replies := r } : State).pcs[i]? = some .blocked := by
        intro d r hv hkj hcb hd
        refine ⟨⟨hv, ?_, h.empty, fun m q hm => ?_⟩, fun i hi => ?_⟩
        · simp only; rw [get_set hk, if_neg (fun e => hkj e.symm), h.recv]
        · simp only at hm
          rw [get_set hk] at hm
          split at hm
          · cases hm; exact hd q rfl
          · exact h.none m q hm
        · simp only
          rw [get_set hk]
          split
          · next e => subst e; rw [hi] at hk; cases hk; exact absurd rfl hcb
          · exact hi
      have other : ∀ d, c = d → d ≠ .recv → k ≠ j := by
        rintro d rfl hd rfl
        rw [h.recv] at hk; cases hk; exact hd rfl
      have alone : c.holds = true → c = .recv := by
        intro hc
        have := h.inv.owner k c hk hc
        rw [hown] at this; cases this
        rw [h.recv] at hk; cases hk; rfl
      cases c <;> simp only [State.go] at hv ⊢
      · split
        · next hm =>
          rw [if_pos hm] at hv
          exact move _ _ hv (other _ rfl (by simp)) (by simp) (by simp)
        · next hm =>
          rw [if_neg hm] at hv
          exact move _ _ hv (other _ rfl (by simp)) (by simp) (by simp)
      · rw [if_neg (by rw [hown]; simp)] at hv ⊢
        exact move _ _ hv (other _ rfl (by simp)) (by simp) (by simp)
      · cases alone rfl
      · simp only [h.empty]
        exact ⟨h, fun _ h => h⟩
      · cases alone rfl
      · cases alone rfl
      · exact absurd hk (h.none k _)
      · exact move _ _ hv (other _ rfl (by simp)) (by simp) (by cases s.event <;> simp)
      · exact ⟨h, fun _ h => h⟩
      · exact ⟨h, fun _ h => h⟩
      · exact ⟨h, fun _ h => h⟩

theorem stuck_run {j : Nat} : ∀ (l : List Act) (s : State), Stuck j s → Silent l →
    Stuck j (s.run l) ∧ ∀ i : Nat, s.pcs[i]? = some PC.blocked → (s.run l).pcs[i]? = some .blocked
  | [], _, h, _ => ⟨h, fun _ h => h⟩
  | a :: l, s, h, hl => by
    obtain ⟨h1, h2⟩ := silent_cons hl
    obtain ⟨h3, h4⟩ := stuck_step h h1.1 h1.2
    obtain ⟨h5, h6⟩ := stuck_run l (s.step a) h3 h2
    exact ⟨h5, fun i hi => h6 i (h4 i hi)⟩

/-- `n` steps of a call. -/
def steps (i n : Nat) : List Act := List.replicate n (.go i false)

/-- Two calls: between the moment when the second finds that its reply is not there and the moment when it takes
the lock, the first one stores it. -/
def exReceives : List Act :=
  [.call, .call, .arrive (some 1)] ++ steps 0 3 ++ steps 1 1 ++ steps 0 4 ++ steps 1 2

/-- A call whose reply is stored receives, and waits until another message arrives or the time runs out: if this
does not happen it does not return. -/
theorem C85_receives_violated : ∃ s, Reachable s ∧ 1 ∈ s.replies ∧
    ∀ l, Silent l → (s.run l).pcs[1]? = some .recv := by
  refine ⟨State.run .start exReceives, ⟨_, rfl⟩, by decide, fun l hl => ?_⟩
  refine (stuck_run l _ ⟨run_inv _, by decide, by decide, fun k r => ?_⟩ hl).1.recv
  rw [show (State.run .start exReceives).pcs = [.check, .recv] from by decide]
  match k with
  | 0 => simp
  | 1 => simp
  | k + 2 => simp

/-- Three calls: the second finds the lock taken; before it waits for the event the first one stores its reply and
sets the event, and the third takes the lock and clears the event. -/
def exWakeup : List Act :=
  [.call, .call, .call, .arrive (some 1)] ++ steps 0 3 ++ steps 1 2 ++ steps 0 4 ++ steps 2 3 ++ steps 1 1

/-- A call whose reply is stored waits for the event until another thread has received a message: if none arrives
it does not return. -/
theorem C85_wakeup_violated : ∃ s, Reachable s ∧ 1 ∈ s.replies ∧ s.pcs[2]? = some .recv ∧
    ∀ l, Silent l → (s.run l).pcs[1]? = some .blocked := by
  refine ⟨State.run .start exWakeup, ⟨_, rfl⟩, by decide, by decide, fun l hl => ?_⟩
  refine (stuck_run (j := 2) l _ ⟨run_inv _, by decide, by decide, fun k r => ?_⟩ hl).2 1 (by decide)
  rw [show (State.run .start exWakeup).pcs = [.check, .blocked, .recv] from by decide]
  match k with
  | 0 => simp
  | 1 => simp
  | 2 => simp
  | k + 3 => simp

/-- Three calls: the first one releases the lock, the second takes it and clears the event, and then the first one
sets it. -/
def exSpin : List Act :=
  [.call, .call, .call, .arrive none] ++ steps 0 6 ++ steps 1 3 ++ steps 0 1

/-- A call that has to wait runs instead: while another thread receives, it gets around its loop again and again
without waiting for anything. -/
theorem C85_spin_violated : ∃ s, Reachable s ∧ s.pcs[1]? = some .recv ∧ 2 ∉ s.replies ∧ s.pcs[2]? = some .check ∧
    ∀ n, s.run (steps 2 (3 * n)) = s ∧ (s.run (steps 2 (3 * n + 2))).pcs[2]? = some .wait := by
  have h3 : (State.run .start exSpin).run (steps 2 3) = State.run .start exSpin := by decide
  have hn : ∀ n, (State.run .start exSpin).run (steps 2 (3 * n)) = State.run .start exSpin := by
    intro n
    induction n with
    | zero => rfl
    | succ n ih =>
      have e : steps 2 (3 * (n + 1)) = steps 2 3 ++ steps 2 (3 * n) := by
        simp only [steps, List.replicate_append_replicate]; congr 1; omega
      rw [e]
      show List.foldl _ _ _ = _
      rw [List.foldl_append]
      show ((State.run .start exSpin).run (steps 2 3)).run (steps 2 (3 * n)) = _
      rw [h3, ih]
  refine ⟨State.run .start exSpin, ⟨_, rfl⟩, by decide, by decide, by decide, fun n => ⟨hn n, ?_⟩⟩
  have e : steps 2 (3 * n + 2) = steps 2 (3 * n) ++ steps 2 2 := by
    simp only [steps, List.replicate_append_replicate]
  rw [e]
  show (List.foldl _ _ _ : State).pcs[2]? = _
  rw [List.foldl_append]
  show (((State.run .start exSpin).run (steps 2 (3 * n))).run (steps 2 2)).pcs[2]? = _
  rw [hn n]
  decide

/-! ## Examples -/

/-- A call that is inside of `Event.wait`, and the other one that goes on when a message arrives. -/
example : (State.run .start ([.call, .call] ++ steps 0 3 ++ steps 1 3)).pcs = [.recv, .blocked] ∧
    (State.run .start ([.call, .call] ++ steps 0 3 ++ steps 1 3 ++ [.arrive (some 0)] ++ steps 0 4)).pcs =
      [.check, .check] := by decide

/-- A call whose reply is stored while it is about to take the lock. -/
example : (State.run .start ([.call, .call, .arrive (some 1)] ++ steps 0 3 ++ steps 1 1 ++ steps 0 2)).pcs =
      [.release false, .acquire] ∧
    1 ∈ (State.run .start ([.call, .call, .arrive (some 1)] ++ steps 0 3 ++ steps 1 1 ++ steps 0 2)).replies := by decide

/-- Calls one after the other. -/
example : OneByOne .start ([.call, .arrive (some 0)] ++ steps 0 8 ++ [.call] ++ steps 1 3) ∧
    (State.run .start ([.call, .arrive (some 0)] ++ steps 0 8 ++ [.call] ++ steps 1 3)).pcs = [.returned, .recv] := by
  constructor
  · simp [OneByOne, steps, List.replicate, State.step, State.start, State.go, Over]
  · decide

end Verif.Wake
