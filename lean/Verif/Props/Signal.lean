import Verif.Lemmas.Signal

/-!
# C43: signals reach exactly the connected listeners

* `C43_fire`: what `fire` calls, for all listeners, whatever they do while they are called.
* `C43_disconnect`, `C43_undo`: in all states that programs reach; `C43_undo_violated` about the order.
* `C43_remove_partial`, `C43_remove_exact`, `C43_remove_violated`, `C43_remove_pass_violated`:
  `remove_signals_listeners` disconnects every other signal of a method.
* `C43_first_violated`: a bound method as first responder.
-/

namespace Verif.Signal

/-! ## Firing -/

/-- **C43**: `fire` calls the listeners connected at that moment, once per connection, in the order of
connection, with the given argument and the flag given when connecting, whatever the listeners do
meanwhile; all other calls made meanwhile belong to nested `fire` calls.  If a listener raises, it is the
last one called and the exception goes to the caller. -/
theorem C43_fire (body : Body) (f d : Nat) (s : Sig) (a : Nat) (st st' : St) (raised : Bool)
    (h : fire body f d s a st = some (st', raised)) :
    ∃ new, st'.log = st.log ++ new ∧ (∀ c ∈ new, d ≤ c.depth) ∧
      ∃ called rest, st.listeners s = called ++ rest ∧
        new.filter (fun c => c.depth = d) = called.map (fun i => ⟨d, s, i, a⟩) ∧
        (raised = false → rest = []) ∧ (raised = true → called ≠ []) := by
  cases f with
  | zero => cases h
  | succ f =>
    simp only [fire] at h
    generalize st.listeners s = is at h
    induction is generalizing st with
    | nil => cases h; exact ⟨[], by simp, by simp, [], [], by simp⟩
    | cons i is ih =>
      simp only [fireLoop, Option.bind_eq_some_iff] at h
      obtain ⟨r1, h1, h2⟩ := h
      obtain ⟨n1, e1, k1⟩ := deeper_exec (d := d + 1) (fun s a st r h => deeper_fire body f (d + 1) s a st r h)
        _ _ _ h1
      have hn : n1.filter (fun c => c.depth = d) = [] := by
        rw [List.filter_eq_nil_iff]
        intro c hc
        have := k1 c hc
        simp; omega
      split at h2
      · rename_i hr
        cases h2
        refine ⟨⟨d, s, i, a⟩ :: n1, by rw [e1, List.append_assoc]; rfl, ?_, [i], is, rfl, ?_, ?_, by simp⟩
        · intro c hc
          rcases List.mem_cons.1 hc with rfl | hc
          · exact Nat.le_refl _
          · have := k1 c hc; omega
        · simp [hn]
        · intro he; rw [he] at hr; cases hr
      · obtain ⟨n2, e2, k2, called, rest, c1, c2, c3, c4⟩ := ih _ h2
        refine ⟨⟨d, s, i, a⟩ :: n1 ++ n2, by simp [e2, e1], ?_, i :: called, rest, by simp [c1], ?_, c3,
          by simp⟩
        · intro c hc
          simp only [List.cons_append, List.mem_cons, List.mem_append] at hc
          rcases hc with rfl | hc | hc
          · exact Nat.le_refl _
          · have := k1 c hc; omega
          · exact k2 c hc
        · simp [hn, c2]

/-- **C43**, arguments: a listener gets the argument given to `fire`.  Seen from outside: when the listeners
of `s` pass what they get on to the signal `t`, the listeners of `t` get the same argument. -/
theorem C43_args (body : Body) (f d : Nat) (s t : Sig) (a : Nat) (st st' : St) (raised : Bool)
    (hb : ∀ st i a, body st i s a = .fire t a (fun _ => .done))
    (h : fire body f d s a st = some (st', raised)) :
    ∃ new, st'.log = st.log ++ new ∧ ∀ c ∈ new, c.depth = d + 1 → c.sig = t ∧ c.arg = a := by
  cases f with
  | zero => cases h
  | succ f =>
    simp only [fire, hb] at h
    generalize st.listeners s = is at h
    induction is generalizing st with
    | nil => cases h; exact ⟨[], by simp, by simp⟩
    | cons i is ih =>
      simp only [fireLoop, execWith, Option.bind_eq_some_iff] at h
      obtain ⟨r1, ⟨r0, h0, h1⟩, h2⟩ := h
      cases h1
      rw [if_neg (by simp)] at h2
      obtain ⟨n2, e2, k2⟩ := ih _ h2
      obtain ⟨n1, e1, -, called, rest, -, c2, -⟩ := C43_fire body f (d + 1) t a _ r0.1 r0.2 h0
      refine ⟨⟨d, s, i, a⟩ :: n1 ++ n2, by simp [e2, e1], ?_⟩
      intro c hc hd
      simp only [List.cons_append, List.mem_cons, List.mem_append] at hc
      rcases hc with rfl | hc | hc
      · simp at hd
      · have : c ∈ n1.filter (fun c => c.depth = d + 1) := by simp [hc, hd]
        rw [c2, List.mem_map] at this
        obtain ⟨i, -, rfl⟩ := this
        exact ⟨rfl, rfl⟩
      · exact k2 c hc hd

example : (fire (fun _ _ s a => if s = 0 then .fire 1 a (fun _ => .done) else .done) 5 0 0 7
    (init fun s => [⟨⟨s, none⟩, false⟩])).map (fun r => r.1.log) =
    some [⟨0, 0, ⟨⟨0, none⟩, false⟩, 7⟩, ⟨1, 1, ⟨⟨1, none⟩, false⟩, 7⟩] := by decide +kernel

/-- The limit on nested calls does not matter unless it is reached. -/
theorem C43_fuel (body : Body) (f : Nat) : ∀ (d : Nat) (s : Sig) (a : Nat) (st : St) (r : St × Bool),
    fire body f d s a st = some r → fire body (f + 1) d s a st = some r := by
  induction f with
  | zero => intro d s a st r h; cases h
  | succ f ih =>
    intro d s a st r h
    have he : ∀ p st r, execWith (fire body f (d + 1)) p st = some r →
        execWith (fire body (f + 1) (d + 1)) p st = some r := by
      intro p
      induction p with
      | done => exact fun _ _ h => h
      | raise => exact fun _ _ h => h
      | connect s l p k ihp => exact fun _ _ h => ihp _ _ h
      | disconnect s l p k ihp => exact fun _ _ h => ihp _ _ _ h
      | removeAll o k ihp => exact fun _ _ h => ihp _ _ _ h
      | fire s a k ihp =>
        intro st r h
        rw [execWith, Option.bind_eq_some_iff] at h ⊢
        obtain ⟨r1, h1, h2⟩ := h
        exact ⟨r1, ih (d + 1) s a st r1 h1, ihp _ _ _ h2⟩
    rw [fire] at h ⊢
    generalize st.listeners s = is at h ⊢
    induction is generalizing st with
    | nil => exact h
    | cons i is ihl =>
      rw [fireLoop, Option.bind_eq_some_iff] at h ⊢
      obtain ⟨r1, h1, h2⟩ := h
      refine ⟨r1, he _ _ _ h1, ?_⟩
      split at h2
      · rename_i hr; rw [if_pos hr]; exact h2
      · rename_i hr; rw [if_neg hr]; exact ihl _ h2

/-! ## Connecting and disconnecting -/

/-- A state that some program reaches, from signals whose first responders are no bound methods. -/
def Reachable (body : Body) (st : St) : Prop :=
  ∃ first f d p r, (∀ s, ∀ i ∈ first s, i.listener.owner = none) ∧
    execWith (fire body f d) p (init first) = some (st, r)

theorem tracked_init (first : Sig → List Info) (h : ∀ s, ∀ i ∈ first s, i.listener.owner = none) :
    Tracked (init first) := by
  refine ⟨?_, by simp [init], by simp [init]⟩
  intro l o ho s
  have : conn (init first) l s = 0 := by
    simp only [conn, init, List.countP_eq_zero]
    intro i hi hl
    have h1 := h s i hi
    have h2 : i.listener = l := by simpa using hl
    rw [h2, ho] at h1; cases h1
  rw [this]; simp [known, init, entry]

theorem tracked_of {body : Body} {st : St} (h : Reachable body st) : Tracked st := by
  obtain ⟨first, f, d, p, r, h1, h2⟩ := h
  exact (exec_keeps (P := Tracked) (fun _ _ h => tracked_log _ h) (fun s l p _ h => tracked_connect h s l p)
    (fun s l p _ h => (disconnect_ok h s l p).2.2.1) (fun o st h => tracked_removeAll o st h) body f d).2
    p _ _ (tracked_init first h1) h2

/-- **C43**, disconnecting: it raises exactly when there is no such connection, and then nothing
changes; otherwise the first such connection goes and nothing else changes. -/
theorem C43_disconnect (body : Body) (st : St) (hr : Reachable body st) (s : Sig) (l : Listener)
    (p : Bool) :
    ((disconnect s l p st).2 = true ↔ ⟨l, p⟩ ∉ st.listeners s) ∧
    (⟨l, p⟩ ∉ st.listeners s → (disconnect s l p st).1 = st) ∧
    ∀ pre post, st.listeners s = pre ++ ⟨l, p⟩ :: post → ⟨l, p⟩ ∉ pre →
      (disconnect s l p st).1.listeners s = pre ++ post ∧
      (∀ t, t ≠ s → (disconnect s l p st).1.listeners t = st.listeners t) := by
  obtain ⟨h1, h2, _⟩ := disconnect_ok (tracked_of hr) s l p
  refine ⟨?_, h2, ?_⟩
  · cases hd : (disconnect s l p st).2
    · simp [h1.1 hd]
    · simp only [true_iff]
      intro hm
      rw [h1.2 hm] at hd; cases hd
  · intro pre post he hpre
    rw [disconnect_listeners]
    refine ⟨?_, fun t ht => set_ne _ _ ht⟩
    rw [set_same, he, List.erase_append_right _ hpre, List.erase_cons_head]

/-- **C43**, connecting: the new connection is the last one, nothing else changes. -/
theorem C43_connect (s : Sig) (l : Listener) (p : Bool) (st : St) :
    (connect s l p st).listeners s = st.listeners s ++ [⟨l, p⟩] ∧
    ∀ t, t ≠ s → (connect s l p st).listeners t = st.listeners t := by
  rw [connect_listeners]
  exact ⟨set_same _ _ _, fun t ht => set_ne _ _ ht⟩

/-- **C43**, undoing: connecting and then disconnecting never raises, and all listeners are connected
as often as before; they are even in the same order if that connection did not exist before. -/
theorem C43_undo (body : Body) (st : St) (hr : Reachable body st) (s : Sig) (l : Listener) (p : Bool) :
    (disconnect s l p (connect s l p st)).2 = false ∧
    (∀ t, ((disconnect s l p (connect s l p st)).1.listeners t).Perm (st.listeners t)) ∧
    (⟨l, p⟩ ∉ st.listeners s →
      ∀ t, (disconnect s l p (connect s l p st)).1.listeners t = st.listeners t) := by
  have ht := tracked_connect (tracked_of hr) s l p
  obtain ⟨c1, c2⟩ := C43_connect s l p st
  refine ⟨(disconnect_ok ht s l p).1.2 (by simp [c1]), ?_, ?_⟩
  · intro t
    rw [disconnect_listeners]
    by_cases h : t = s
    · subst h
      rw [set_same, c1]
      have h1 : (⟨l, p⟩ : Info) ∈ st.listeners t ++ [⟨l, p⟩] := by simp
      have h2 := (List.perm_cons_erase h1).symm.trans
        (List.perm_append_comm (l₁ := st.listeners t) (l₂ := [(⟨l, p⟩ : Info)]))
      exact (List.perm_cons _).1 h2
    · rw [set_ne _ _ h, c2 t h]
  · intro hn t
    rw [disconnect_listeners]
    by_cases h : t = s
    · subst h
      rw [set_same, c1, List.erase_append_right _ hn]
      simp
    · rw [set_ne _ _ h, c2 t h]

/-- No bound methods to start with. -/
def noFirst : Sig → List Info := fun _ => []

def quiet : Body := fun _ _ _ _ => .done

/-- Two listeners, the first one twice. -/
def l1 : Listener := ⟨1, none⟩
def l2 : Listener := ⟨2, none⟩

/-- **C43** does not hold for the order when the listener was connected before: `disconnect` removes the
oldest connection, not the newest one. -/
theorem C43_undo_violated : ∃ st, Reachable quiet st ∧ st.listeners 0 = [⟨l1, false⟩, ⟨l2, false⟩] ∧
    (disconnect 0 l1 false (connect 0 l1 false st)).1.listeners 0 = [⟨l2, false⟩, ⟨l1, false⟩] := by
  refine ⟨connect 0 l2 false (connect 0 l1 false (init noFirst)), ?_, by decide +kernel, by decide +kernel⟩
  exact ⟨noFirst, 0, 0, .connect 0 l1 false (.connect 0 l2 false .done), false, by simp [noFirst], rfl⟩

/-! ## `remove_signals_listeners` -/

/-- A method has at most one connection. -/
def AtMostOne (st : St) (l : Listener) : Prop :=
  ∀ s t, 0 < conn st l s → 0 < conn st l t → s = t ∧ conn st l s = 1

/-- No connection of an object. -/
def Gone (st : St) (o : Nat) : Prop := ∀ s, ∀ i ∈ st.listeners s, i.listener.owner ≠ some o

theorem known_le_one {st : St} (ht : Tracked st) {o : Nat} {l : Listener} (hl : l.owner = some o) :
    (known st o l).length ≤ 1 ↔ AtMostOne st l := by
  have hc := ht.count l o hl
  constructor
  · intro h s t hs hst
    rw [← hc s] at hs ⊢
    rw [← hc t] at hst
    match hk : known st o l with
    | [] => rw [hk] at hs; simp at hs
    | [x] =>
      rw [hk] at hs hst
      have e1 : x = s := by simpa using List.count_pos_iff.1 hs |> List.mem_singleton.1 |> Eq.symm
      have e2 : x = t := by simpa using List.count_pos_iff.1 hst |> List.mem_singleton.1 |> Eq.symm
      subst e1; subst e2; simp
    | x :: y :: m => rw [hk] at h; simp at h
  · intro h
    match hk : known st o l with
    | [] => simp
    | [x] => simp
    | x :: y :: m =>
      exfalso
      have hx : 0 < conn st l x := by rw [← hc x, hk]; simp
      have hy : 0 < conn st l y := by rw [← hc y, hk]; exact List.count_pos_iff.2 (by simp)
      obtain ⟨e1, e2⟩ := h x y hx hy
      subst e1
      rw [← hc x, hk] at e2
      simp at e2

theorem known_nil {st : St} (ht : Tracked st) {o : Nat} {l : Listener} (hl : l.owner = some o) :
    known st o l = [] ↔ ∀ s, ∀ i ∈ st.listeners s, i.listener ≠ l := by
  have hc := ht.count l o hl
  constructor
  · intro h s i hi hil
    have : 0 < conn st l s := List.countP_pos_iff.2 ⟨i, hi, by simp [hil]⟩
    rw [← hc s, h] at this; simp at this
  · intro h
    match hk : known st o l with
    | [] => rfl
    | x :: m =>
      exfalso
      have hx : 0 < conn st l x := by rw [← hc x, hk]; simp
      obtain ⟨i, hi, hil⟩ := List.countP_pos_iff.1 hx
      exact h x i hi (by simpa using hil)

/-- What `remove_signals_listeners` does to a reachable state. -/
theorem remove_spec {st : St} (ht : Tracked st) (o : Nat) (hb : Bare st o) :
    (removeAll o st).2 = false ∧ Tracked (removeAll o st).1 ∧ Only o st (removeAll o st).1 ∧
    ∀ l, l.owner = some o → (known (removeAll o st).1 o l).length = (known st o l).length / 2 := by
  unfold removeAll
  split
  · rename_i h
    exact ⟨rfl, ht, ⟨rfl, fun _ _ => rfl, fun _ => rfl⟩, by simp [known, h, entry]⟩
  · rename_i dd h
    have hd : (st.track o).getD [] = dd := by simp [h]
    obtain ⟨r1, r2, r3, r4, r5⟩ := removeEach_spec o (dd.map (·.1)) st ht hb
      (fun l hl => (ht.owned o l (by rw [hd]; exact hl)).1) (by have := ht.nodup o; rwa [hd] at this)
    refine ⟨r1, r2, r3, ?_⟩
    intro l hl
    by_cases hm : l ∈ dd.map (·.1)
    · exact r4 l hm
    · have : known st o l = [] := by
        by_cases hk : known st o l = []
        · exact hk
        · exact absurd (by simpa [known, hd] using mem_entry hk) hm
      rw [r5 l hm, this]; rfl

/-- **C43**, removing, partial: if each method of the object has at most one connection and none asked
for the signal argument, `remove_signals_listeners` leaves no listener of the object connected,
raises nothing and touches nothing else.  Full statement: for all states
(`C43_remove_violated`, `C43_remove_pass_violated`). -/
theorem C43_remove_partial (body : Body) (st : St) (hr : Reachable body st) (o : Nat)
    (hb : Bare st o) (h1 : ∀ l, l.owner = some o → AtMostOne st l) :
    (removeAll o st).2 = false ∧ Gone (removeAll o st).1 o ∧
    ∀ s, ((removeAll o st).1.listeners s) =
      (st.listeners s).filter fun i => i.listener.owner ≠ some o := by
  have ht := tracked_of hr
  obtain ⟨r1, r2, r3, r4⟩ := remove_spec ht o hb
  have hg : Gone (removeAll o st).1 o := by
    intro s i hi ho
    have hk : known (removeAll o st).1 o i.listener = [] := by
      have := r4 i.listener ho
      have h2 := (known_le_one ht ho).2 (h1 _ ho)
      exact List.length_eq_zero_iff.1 (by omega)
    exact (known_nil r2 ho).1 hk s i hi rfl
  refine ⟨r1, hg, fun s => ?_⟩
  rw [← r3.2.2 s, List.filter_eq_self.2]
  intro i hi
  simpa using hg s i hi

/-- **C43**, removing, exactly: without the signal argument, nothing is left if and only if no method had
more than one connection. -/
theorem C43_remove_exact (body : Body) (st : St) (hr : Reachable body st) (o : Nat) (hb : Bare st o) :
    Gone (removeAll o st).1 o ↔ ∀ l, l.owner = some o → AtMostOne st l := by
  refine ⟨?_, fun h => (C43_remove_partial body st hr o hb h).2.1⟩
  intro hg l hl
  have ht := tracked_of hr
  obtain ⟨_, r2, _, r4⟩ := remove_spec ht o hb
  rw [← known_le_one ht hl]
  have := (known_nil r2 hl).2 (fun s i hi he => hg s i hi (by rw [he]; exact hl))
  have h2 := r4 l hl
  rw [this] at h2
  simp at h2
  omega

/-- A method of object 7. -/
def m7 : Listener := ⟨3, some 7⟩

/-- **C43** does not hold for `remove_signals_listeners`: a method connected to two signals stays
connected to the second one. -/
theorem C43_remove_violated : ∃ st, Reachable quiet st ∧
    st.listeners 0 = [⟨m7, false⟩] ∧ st.listeners 1 = [⟨m7, false⟩] ∧
    (removeAll 7 st).2 = false ∧ (removeAll 7 st).1.listeners 0 = [] ∧
    (removeAll 7 st).1.listeners 1 = [⟨m7, false⟩] := by
  refine ⟨connect 1 m7 false (connect 0 m7 false (init noFirst)), ?_, by decide +kernel, by decide +kernel,
    by decide +kernel, by decide +kernel, by decide +kernel⟩
  exact ⟨noFirst, 0, 0, .connect 0 m7 false (.connect 1 m7 false .done), false, by simp [noFirst], rfl⟩

/-- **C43** does not hold either for a method that asked for the signal argument: `ValueError`, and it
stays connected. -/
theorem C43_remove_pass_violated : ∃ st, Reachable quiet st ∧ (∀ l, l.owner = some 7 → AtMostOne st l) ∧
    (removeAll 7 st).2 = true ∧ (removeAll 7 st).1.listeners 0 = [⟨m7, true⟩] := by
  refine ⟨connect 0 m7 true (init noFirst), ?_, ?_, by decide +kernel, by decide +kernel⟩
  · exact ⟨noFirst, 0, 0, .connect 0 m7 true .done, false, by simp [noFirst], rfl⟩
  · intro l _ s t hs ht
    rw [conn_connect] at hs ht ⊢
    simp only [conn, init, noFirst, List.countP_nil, Nat.zero_add] at hs ht ⊢
    split at hs
    · rename_i h; split at ht
      · rename_i h'; exact ⟨h.2.trans h'.2.symm, by simp [h]⟩
      · simp at ht
    · simp at hs

/-- A bound method as first responder is connected but not known to its object. -/
def m7First : Sig → List Info := fun s => if s = 0 then [⟨m7, false⟩] else []

/-- **C43** does not hold for a signal made of a bound method: disconnecting it removes it and raises
`ValueError` all the same if its object has been connected to anything else. -/
theorem C43_first_violated :
    let st := connect 1 ⟨4, some 7⟩ false (init m7First)
    (⟨m7, false⟩ : Info) ∈ st.listeners 0 ∧ (disconnect 0 m7 false st).2 = true ∧
      (disconnect 0 m7 false st).1.listeners 0 = [] := by
  refine ⟨by decide +kernel, by decide +kernel, by decide +kernel⟩

/-! ## A run -/

/-- Listener 1 disconnects listener 2, connects listener 3 and fires another signal; listener 2 does
nothing; listener 5 raises. -/
def busy : Body := fun _ i s _ =>
  if i.listener.id = 1 then
    .disconnect s l2 false fun _ => .connect s ⟨3, none⟩ false (.fire 9 1 fun _ => .done)
  else if i.listener.id = 5 then .raise
  else .done

def busyFirst : Sig → List Info := fun s =>
  if s = 0 then [⟨l1, true⟩, ⟨l2, false⟩] else if s = 9 then [⟨⟨5, none⟩, false⟩, ⟨l2, false⟩] else []

/-- Listener 2 is called although it has just been disconnected, listener 3 is not called; listener 2
is not called by the nested `fire` because listener 5 raises. -/
example : (fire busy 3 0 0 8 (init busyFirst)).map (fun r => (r.2, r.1.log, r.1.listeners 0)) =
    some (false, [⟨0, 0, ⟨l1, true⟩, 8⟩, ⟨1, 9, ⟨⟨5, none⟩, false⟩, 1⟩, ⟨0, 0, ⟨l2, false⟩, 8⟩],
      [⟨l1, true⟩, ⟨⟨3, none⟩, false⟩]) := by decide +kernel

/-- The hypotheses of `C43_remove_partial`, with one method each on two signals. -/
example : ∃ st, Reachable quiet st ∧ Bare st 7 ∧ (∀ l, l.owner = some 7 → AtMostOne st l) ∧
    st.listeners 0 = [⟨m7, false⟩] ∧ st.listeners 1 = [⟨⟨4, some 7⟩, false⟩] := by
  refine ⟨connect 1 ⟨4, some 7⟩ false (connect 0 m7 false (init noFirst)), ?_, ?_, ?_, by decide +kernel,
    by decide +kernel⟩
  · exact ⟨noFirst, 0, 0, .connect 0 m7 false (.connect 1 ⟨4, some 7⟩ false .done), false,
      by simp [noFirst], rfl⟩
  · intro s i hi _
    rw [connect_listeners, connect_listeners] at hi
    by_cases h1 : s = 1
    · subst h1
      rw [set_same, set_ne _ _ (by decide)] at hi
      cases hi with
      | head => rfl
      | tail _ h => cases h
    · rw [set_ne _ _ h1] at hi
      by_cases h0 : s = 0
      · subst h0
        rw [set_same] at hi
        cases hi with
        | head => rfl
        | tail _ h => cases h
      · rw [set_ne _ _ h0] at hi; cases hi
  · intro l _ s t hs ht
    have h : ∀ s, conn (connect 1 ⟨4, some 7⟩ false (connect 0 m7 false (init noFirst))) l s =
        (if l = m7 ∧ s = 0 then 1 else 0) + if l = ⟨4, some 7⟩ ∧ s = 1 then 1 else 0 := by
      intro s
      rw [conn_connect, conn_connect]
      simp only [conn, init, noFirst, List.countP_nil, Nat.zero_add]
    rw [h] at hs ht ⊢
    have hne : (m7 : Listener) ≠ ⟨4, some 7⟩ := by decide
    by_cases h1 : l = m7
    · subst h1
      simp only [hne, true_and, false_and, if_false, Nat.add_zero] at hs ht ⊢
      split at hs <;> split at ht <;> simp_all
    · simp only [h1, false_and, if_false, Nat.zero_add] at hs ht ⊢
      split at hs <;> split at ht <;> simp_all

end Verif.Signal
