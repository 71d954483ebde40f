import Verif.Model.Wake

namespace Verif.Wake

/-- The thread has the lock. -/
def PC.holds : PC → Bool
  | .clear | .recv | .dispatch _ | .release _ => true
  | _ => false

/-- The thread will set the event. -/
def PC.mid : PC → Bool
  | .set _ => true
  | c => c.holds

theorem get_set {s : List PC} {i : Nat} {c d : PC} (h : s[i]? = some c) (k : Nat) :
    (s.set i d)[k]? = if k = i then some d else s[k]? := by
  have hi : i < s.length := by
    rcases Nat.lt_or_ge i s.length with h' | h'
    · exact h'
    · rw [List.getElem?_eq_none h'] at h; cases h
  by_cases hk : k = i
  · subst hk; rw [if_pos rfl, List.getElem?_set_self hi]
  · rw [if_neg hk, List.getElem?_set_ne (fun e => hk e.symm)]

theorem get_map_set {s : List PC} {i : Nat} {c d : PC} (h : s[i]? = some c) (k : Nat) :
    ((s.map awaken).set i d)[k]? = if k = i then some d else s[k]?.map awaken := by
  have h' : (s.map awaken)[i]? = some (awaken c) := by rw [List.getElem?_map, h]; rfl
  rw [get_set h', List.getElem?_map]

theorem get_append {s : List PC} {k : Nat} {c : PC} (h : (s ++ [.check])[k]? = some c) :
    s[k]? = some c ∨ (k = s.length ∧ c = .check) := by
  rcases Nat.lt_trichotomy k s.length with hk | hk | hk
  · rw [List.getElem?_append_left hk] at h; exact .inl h
  · subst hk; simp at h; exact .inr ⟨rfl, h.symm⟩
  · rw [List.getElem?_append_right (by omega)] at h
    have : 0 < k - s.length := by omega
    rw [List.getElem?_eq_none (by simp; omega)] at h; cases h

/-- The lock has an owner if and only if a thread is between taking it and releasing it; while the event is not
set and somebody waits for it, or somebody is inside of `wait`, there is a thread that will set it. -/
structure Inv (s : State) : Prop where
  owner : ∀ (i : Nat) (c : PC), s.pcs[i]? = some c → c.holds = true → s.lock = some i
  owned : ∀ i, s.lock = some i → ∃ c : PC, s.pcs[i]? = some c ∧ c.holds = true
  wait : ∀ i : Nat, s.event = false → s.pcs[i]? = some PC.wait → ∃ (j : Nat) (c : PC), s.pcs[j]? = some c ∧ c.mid = true
  blocked : ∀ i : Nat, s.pcs[i]? = some PC.blocked → ∃ (j : Nat) (c : PC), s.pcs[j]? = some c ∧ c.mid = true

theorem mid_of_holds {c : PC} (h : c.holds = true) : c.mid = true := by
  cases c <;> first | rfl | exact h

theorem start_inv : Inv .start := by
  constructor <;> intros <;> simp_all [State.start]

theorem call_inv {s : State} (h : Inv s) : Inv (s.step .call) := by
  have key : ∀ k c, s.pcs[k]? = some c → (s.pcs ++ [PC.check])[k]? = some c := fun k c hk => by
    rw [List.getElem?_append_left]
    · exact hk
    · rcases Nat.lt_or_ge k s.pcs.length with h' | h'
      · exact h'
      · rw [List.getElem?_eq_none h'] at hk; cases hk
  constructor
  · intro i c hi hc
    rcases get_append hi with hi | ⟨-, rfl⟩
    · exact h.owner i c hi hc
    · cases hc
  · intro i hi
    obtain ⟨c, h1, h2⟩ := h.owned i hi
    exact ⟨c, key _ _ h1, h2⟩
  · intro i he hi
    rcases get_append hi with hi | ⟨-, hc⟩
    · obtain ⟨j, c, h1, h2⟩ := h.wait i he hi
      exact ⟨j, c, key _ _ h1, h2⟩
    · cases hc
  · intro i hi
    rcases get_append hi with hi | ⟨-, hc⟩
    · obtain ⟨j, c, h1, h2⟩ := h.blocked i hi
      exact ⟨j, c, key _ _ h1, h2⟩
    · cases hc

/-- A step that changes one thread, neither taking nor leaving the lock or the section that sets the event. -/
theorem local_inv {s s' : State} (h : Inv s) {i : Nat} {c d : PC} (hi : s.pcs[i]? = some c)
    (hp : s'.pcs = s.pcs.set i d) (hl : s'.lock = s.lock) (he : s'.event = true ∨ s'.event = s.event ∨ d.mid = true)
    (hh : d.holds = c.holds) (hm : c.mid = true → d.mid = true)
    (hb : (d = .blocked ∨ d = .wait) → ∃ j e, j ≠ i ∧ s.pcs[j]? = some e ∧ e.mid = true) : Inv s' := by
  have hg := fun k => get_set (d := d) hi k
  have keep : (∃ (j : Nat) (e : PC), s.pcs[j]? = some e ∧ e.mid = true) → ∃ (j : Nat) (e : PC), s'.pcs[j]? = some e ∧ e.mid = true := by
    rintro ⟨j, e, hj, hme⟩
    by_cases hji : j = i
    · subst hji
      rw [hi] at hj; cases hj
      exact ⟨j, d, by rw [hp, hg, if_pos rfl], hm hme⟩
    · exact ⟨j, e, by rw [hp, hg, if_neg hji, hj], hme⟩
  constructor
  · intro k e hk hc
    rw [hp, hg] at hk
    rw [hl]
    by_cases hki : k = i
    · subst hki
      rw [if_pos rfl] at hk; cases hk
      exact h.owner k c hi (hh ▸ hc)
    · rw [if_neg hki] at hk; exact h.owner k e hk hc
  · intro k hk
    rw [hl] at hk
    obtain ⟨e, h1, h2⟩ := h.owned k hk
    by_cases hki : k = i
    · subst hki
      rw [hi] at h1; cases h1
      exact ⟨d, by rw [hp, hg, if_pos rfl], hh.trans h2⟩
    · exact ⟨e, by rw [hp, hg, if_neg hki, h1], h2⟩
  · intro k hf hk
    rw [hp, hg] at hk
    by_cases hki : k = i
    · rw [if_pos hki] at hk
      cases hk
      obtain ⟨j, e, -, h1, h2⟩ := hb (.inr rfl)
      exact keep ⟨j, e, h1, h2⟩
    · rw [if_neg hki] at hk
      rcases he with he | he | he
      · rw [he] at hf; cases hf
      · rw [he] at hf; exact keep (h.wait k hf hk)
      · exact ⟨i, d, by rw [hp, hg, if_pos rfl], he⟩
  · intro k hk
    rw [hp, hg] at hk
    by_cases hki : k = i
    · rw [if_pos hki] at hk
      cases hk
      obtain ⟨j, e, -, h1, h2⟩ := hb (.inl rfl)
      exact keep ⟨j, e, h1, h2⟩
    · rw [if_neg hki] at hk
      exact keep (h.blocked k hk)

theorem go_inv {s : State} (h : Inv s) {i : Nat} {c : PC} (hi : s.pcs[i]? = some c) (b : Bool) : Inv (s.go i b c) := by
  cases c with
  | check =>
    simp only [State.go]
    split
    · exact local_inv h hi rfl rfl (.inr (.inl rfl)) rfl (by simp [PC.mid, PC.holds]) (by simp)
    · exact local_inv h hi rfl rfl (.inr (.inl rfl)) rfl (by simp [PC.mid, PC.holds]) (by simp)
  | acquire =>
    simp only [State.go]
    split
    · next hl =>
      have hg := fun k => get_set (d := PC.clear) hi k
      have hno : ∀ (k : Nat) (e : PC), s.pcs[k]? = some e → e.holds = false := by
        intro k e hk
        cases he : e.holds with
        | false => rfl
        | true => rw [h.owner k e hk he] at hl; cases hl
      constructor
      · intro k e hk hc
        rw [hg] at hk
        by_cases hki : k = i
        · rw [hki]
        · rw [if_neg hki] at hk; rw [hno k e hk] at hc; cases hc
      · intro k hk
        cases hk
        exact ⟨.clear, by rw [hg, if_pos rfl], rfl⟩
      · intro k _ _
        exact ⟨i, .clear, by rw [hg, if_pos rfl], rfl⟩
      · intro k _
        exact ⟨i, .clear, by rw [hg, if_pos rfl], rfl⟩
    · next hl =>
      refine local_inv h hi rfl rfl (.inr (.inl rfl)) rfl (by simp [PC.mid, PC.holds]) (fun _ => ?_)
      obtain ⟨j, hj⟩ : ∃ j, s.lock = some j := by
        cases e : s.lock with
        | none => exact absurd e hl
        | some j => exact ⟨j, rfl⟩
      obtain ⟨e, h1, h2⟩ := h.owned j hj
      refine ⟨j, e, ?_, h1, mid_of_holds h2⟩
      rintro rfl
      rw [hi] at h1; cases h1; cases h2
  | clear =>
    simp only [State.go]
    exact local_inv h hi rfl rfl (.inr (.inr rfl)) rfl (fun _ => rfl) (by simp)
  | recv =>
    simp only [State.go]
    split
    · exact local_inv h hi rfl rfl (.inr (.inl rfl)) rfl (fun _ => rfl) (by simp)
    · split
      · exact local_inv h hi rfl rfl (.inr (.inl rfl)) rfl (fun _ => rfl) (by simp)
      · exact h
  | dispatch m =>
    simp only [State.go]
    split
    · exact local_inv h hi rfl rfl (.inr (.inl rfl)) rfl (fun _ => rfl) (by simp)
    · exact local_inv h hi rfl rfl (.inr (.inl rfl)) rfl (fun _ => rfl) (by simp)
  | release r =>
    simp only [State.go]
    have hg := fun k => get_set (d := PC.set r) hi k
    have hown := h.owner i _ hi rfl
    have hno : ∀ (k : Nat) (e : PC), k ≠ i → s.pcs[k]? = some e → e.holds = false := by
      intro k e hki hk
      cases he : e.holds with
      | false => rfl
      | true =>
        have := h.owner k e hk he
        rw [hown] at this; cases this; exact absurd rfl hki
    constructor
    · intro k e hk hc
      rw [hg] at hk
      by_cases hki : k = i
      · rw [if_pos hki] at hk; cases hk; cases hc
      · rw [if_neg hki] at hk; rw [hno k e hki hk] at hc; cases hc
    · intro k hk; cases hk
    · intro k _ _
      exact ⟨i, .set r, by rw [hg, if_pos rfl], rfl⟩
    · intro k _
      exact ⟨i, .set r, by rw [hg, if_pos rfl], rfl⟩
  | set r =>
    simp only [State.go]
    have hg := fun k => get_map_set (d := if r then PC.raised else .check) hi k
    have hend : (if r then PC.raised else PC.check).holds = false := by cases r <;> rfl
    have hne : ∀ x : PC, (if r then PC.raised else PC.check) = x → x ≠ .wait ∧ x ≠ .blocked := by
      intro x hx; subst hx; cases r <;> simp
    have haw : ∀ e : PC, (awaken e).holds = e.holds := by intro e; cases e <;> rfl
    constructor
    · intro k e hk hc
      rw [hg] at hk
      by_cases hki : k = i
      · rw [if_pos hki] at hk; cases hk; rw [hend] at hc; cases hc
      · rw [if_neg hki] at hk
        obtain ⟨e', h1, rfl⟩ := Option.map_eq_some_iff.1 hk
        rw [haw] at hc
        exact h.owner k e' h1 hc
    · intro k hk
      obtain ⟨e, h1, h2⟩ := h.owned k hk
      have hki : k ≠ i := by
        rintro rfl
        rw [hi] at h1; cases h1; cases h2
      exact ⟨awaken e, by rw [hg, if_neg hki, h1]; rfl, (haw e).trans h2⟩
    · intro k hf _; cases hf
    · intro k hk
      rw [hg] at hk
      by_cases hki : k = i
      · rw [if_pos hki, Option.some.injEq] at hk; exact absurd rfl (hne _ hk).2
      · rw [if_neg hki] at hk
        obtain ⟨e', h1, h2⟩ := Option.map_eq_some_iff.1 hk
        cases e' <;> cases h2
  | wait =>
    simp only [State.go]
    cases he : s.event with
    | true => exact local_inv h hi rfl rfl (.inl rfl) rfl (by simp [PC.mid, PC.holds]) (by simp)
    | false =>
      refine local_inv h hi rfl rfl (.inr (.inl he.symm)) rfl (by simp [PC.mid, PC.holds]) (fun _ => ?_)
      obtain ⟨j, e, h1, h2⟩ := h.wait i he hi
      refine ⟨j, e, ?_, h1, h2⟩
      rintro rfl
      rw [hi] at h1; cases h1; cases h2
  | blocked => exact h
  | returned => exact h
  | raised => exact h

theorem step_inv {s : State} (h : Inv s) (a : Act) : Inv (s.step a) := by
  cases a with
  | call => exact call_inv h
  | arrive m => exact ⟨h.owner, h.owned, h.wait, h.blocked⟩
  | go i b =>
    simp only [State.step]
    split
    · exact h
    · next c hi => exact go_inv h hi b

theorem run_keeps {P : State → Prop} (hs : ∀ s a, P s → P (s.step a)) :
    ∀ (l : List Act) (s : State), P s → P (s.run l)
  | [], _, h => h
  | a :: l, s, h => run_keeps hs l (s.step a) (hs s a h)

theorem run_inv (l : List Act) : Inv (State.run .start l) := run_keeps (P := Inv) (fun _ a h => step_inv h a) l _ start_inv

/-! ## A call whose reply is stored -/

/-- Where a call goes with its next step, when its reply is stored. -/
inductive Next : PC → PC → Prop
  | look : Next .check .returned
  | enter : Next .acquire .clear
  | refused : Next .acquire .wait
  | clear : Next .clear .recv
  | recv (m : Option Nat) : Next .recv (.dispatch m)
  | timeout : Next .recv (.release false)
  | dispatch (m : Option Nat) (r : Bool) : Next (.dispatch m) (.release r)
  | release (r : Bool) : Next (.release r) (.set r)
  | set : Next (.set false) .check
  | raise : Next (.set true) .raised
  | pass : Next .wait .check
  | block : Next .wait .blocked
  | wake : Next .blocked .check

theorem next_awaken (c : PC) : awaken c = c ∨ Next c (awaken c) := by
  cases c <;> first | exact .inl rfl | exact .inr .wake

/-- A step of any thread brings the call nearer to its end or leaves it where it is; its reply stays until it
returns. -/
theorem stored_step {s : State} {i : Nat} {c : PC} (hi : s.pcs[i]? = some c) (hr : i ∈ s.replies) (a : Act) :
    ∃ d, (s.step a).pcs[i]? = some d ∧ (d = c ∨ Next c d) ∧ (d = .returned ∨ i ∈ (s.step a).replies) := by
  have hlt : i < s.pcs.length := by
    rcases Nat.lt_or_ge i s.pcs.length with h' | h'
    · exact h'
    · rw [List.getElem?_eq_none h'] at hi; cases hi
  cases a with
  | call => exact ⟨c, by simp only [State.step]; rw [List.getElem?_append_left hlt, hi], (.inl rfl), .inr hr⟩
  | arrive m => exact ⟨c, hi, (.inl rfl), .inr hr⟩
  | go k b =>
    simp only [State.step]
    split
    · exact ⟨c, hi, (.inl rfl), .inr hr⟩
    · next e hk =>
      by_cases hki : i = k
      · subst hki
        rw [hi] at hk; cases hk
        cases c <;> simp only [State.go]
        · rw [if_pos hr]
          exact ⟨.returned, by simp only; rw [get_set hi, if_pos rfl], .inr .look, .inl rfl⟩
        · split
          · exact ⟨.clear, by simp only; rw [get_set hi, if_pos rfl], .inr .enter, .inr hr⟩
          · exact ⟨.wait, by simp only; rw [get_set hi, if_pos rfl], .inr .refused, .inr hr⟩
        · exact ⟨.recv, by rw [get_set hi, if_pos rfl], .inr .clear, .inr hr⟩
        · split
          · exact ⟨.dispatch _, by simp only; rw [get_set hi, if_pos rfl], .inr (.recv _), .inr hr⟩
          · split
            · exact ⟨.release false, by simp only; rw [get_set hi, if_pos rfl], .inr .timeout, .inr hr⟩
            · exact ⟨.recv, hi, (.inl rfl), .inr hr⟩
        · split
          · exact ⟨.release true, by simp only; rw [get_set hi, if_pos rfl], .inr (.dispatch _ _), .inr hr⟩
          · exact ⟨.release false, by simp only; rw [get_set hi, if_pos rfl], .inr (.dispatch _ _),
              .inr (List.mem_append.2 (.inr hr))⟩
        · exact ⟨.set _, by rw [get_set hi, if_pos rfl], .inr (.release _), .inr hr⟩
        · next r =>
          exact ⟨if r then .raised else .check, by rw [get_map_set hi, if_pos rfl],
            (by
              cases r
              · exact .inr .set
              · exact .inr .raise), .inr hr⟩
        · exact ⟨if s.event then .check else .blocked, by rw [get_set hi, if_pos rfl],
            (by
              cases s.event
              · exact .inr .block
              · exact .inr .pass), .inr hr⟩
        · exact ⟨.blocked, hi, (.inl rfl), .inr hr⟩
        · exact ⟨.returned, hi, (.inl rfl), .inr hr⟩
        · exact ⟨.raised, hi, (.inl rfl), .inr hr⟩
      · cases e <;> simp only [State.go]
        · split
          · refine ⟨c, by simp only; rw [get_set hk, if_neg hki, hi], (.inl rfl), .inr ?_⟩
            exact List.mem_filter.2 ⟨hr, by simpa using hki⟩
          · exact ⟨c, by simp only; rw [get_set hk, if_neg hki, hi], (.inl rfl), .inr hr⟩
        · split
          · exact ⟨c, by simp only; rw [get_set hk, if_neg hki, hi], (.inl rfl), .inr hr⟩
          · exact ⟨c, by simp only; rw [get_set hk, if_neg hki, hi], (.inl rfl), .inr hr⟩
        · exact ⟨c, by rw [get_set hk, if_neg hki, hi], (.inl rfl), .inr hr⟩
        · split
          · exact ⟨c, by simp only; rw [get_set hk, if_neg hki, hi], (.inl rfl), .inr hr⟩
          · split
            · exact ⟨c, by simp only; rw [get_set hk, if_neg hki, hi], (.inl rfl), .inr hr⟩
            · exact ⟨c, hi, (.inl rfl), .inr hr⟩
        · split
          · exact ⟨c, by simp only; rw [get_set hk, if_neg hki, hi], (.inl rfl), .inr hr⟩
          · exact ⟨c, by simp only; rw [get_set hk, if_neg hki, hi], (.inl rfl),
              .inr (List.mem_append.2 (.inr hr))⟩
        · exact ⟨c, by rw [get_set hk, if_neg hki, hi], (.inl rfl), .inr hr⟩
        · exact ⟨awaken c, by rw [get_map_set hk, if_neg hki, hi]; rfl, next_awaken c, .inr hr⟩
        · exact ⟨c, by rw [get_set hk, if_neg hki, hi], (.inl rfl), .inr hr⟩
        · exact ⟨c, hi, (.inl rfl), .inr hr⟩
        · exact ⟨c, hi, (.inl rfl), .inr hr⟩
        · exact ⟨c, hi, (.inl rfl), .inr hr⟩

end Verif.Wake
