import Verif.Model.Signal

/-! Invariants of signals and of the lists that objects keep of the signals they listen to. -/

namespace Verif.Signal

@[simp] theorem set_same {α β : Type} [DecidableEq α] (f : α → β) (a : α) (b : β) : set f a b a = b := by
  simp [set]

theorem set_ne {α β : Type} [DecidableEq α] (f : α → β) {a x : α} (b : β) (h : x ≠ a) :
    set f a b x = f x := by simp [set, h]

theorem entry_cons (l k : Listener) (v : List Sig) (d : List (Listener × List Sig)) :
    entry l ((k, v) :: d) = if k = l then v else entry l d := by
  simp only [entry, List.lookup_cons]
  by_cases h : k = l
  · subst h; simp
  · have : (l == k) = false := by simpa using fun e => h e.symm
    simp [this, h]

theorem entry_put (l k : Listener) (v : List Sig) (d : List (Listener × List Sig)) :
    entry k (put l v d) = if k = l then v else entry k d := by
  induction d with
  | nil => simp only [put, entry_cons]; simp [entry, eq_comm]
  | cons e d ih =>
    obtain ⟨j, w⟩ := e
    simp only [put]
    split
    · rename_i h
      subst h
      simp only [entry_cons]
      by_cases hk : j = k
      · simp [hk]
      · simp [hk, Ne.symm hk]
    · rename_i h
      simp only [entry_cons, ih]
      by_cases hk : j = k
      · subst hk; simp [h]
      · simp [hk]

theorem entry_del (l k : Listener) (d : List (Listener × List Sig)) :
    entry k (del l d) = if k = l then [] else entry k d := by
  induction d with
  | nil => simp [del, entry]
  | cons e d ih =>
    obtain ⟨j, w⟩ := e
    simp only [del] at ih ⊢
    rw [List.filter_cons]
    by_cases h : j = l
    · subst h
      simp only [ne_eq, not_true_eq_false, decide_false, Bool.false_eq_true, if_false, ih, entry_cons]
      by_cases hk : k = j
      · simp [hk]
      · simp [hk, Ne.symm hk]
    · simp only [ne_eq, h, not_false_eq_true, decide_true, if_true, entry_cons, ih]
      by_cases hk : j = k
      · subst hk; simp [h]
      · simp [hk]

theorem keys_put (l : Listener) (v : List Sig) (d : List (Listener × List Sig)) (k : Listener) :
    k ∈ (put l v d).map (·.1) ↔ k = l ∨ k ∈ d.map (·.1) := by
  induction d with
  | nil => simp [put]
  | cons e d ih =>
    obtain ⟨j, w⟩ := e
    simp only [put]
    split
    · rename_i h; subst h; simp
    · simp only [List.map_cons, List.mem_cons, ih]
      constructor
      · rintro (h | h | h) <;> simp [h]
      · rintro (h | h | h) <;> simp [h]

theorem nodup_put (l : Listener) (v : List Sig) (d : List (Listener × List Sig))
    (h : (d.map (·.1)).Nodup) : ((put l v d).map (·.1)).Nodup := by
  induction d with
  | nil => simp [put]
  | cons e d ih =>
    obtain ⟨j, w⟩ := e
    simp only [List.map_cons, List.nodup_cons] at h
    simp only [put]
    split
    · simpa using h
    · rename_i hj
      simp only [List.map_cons, List.nodup_cons]
      refine ⟨?_, ih h.2⟩
      rw [keys_put]
      rintro (e | e)
      · exact hj e
      · exact h.1 e

theorem keys_del (l : Listener) (d : List (Listener × List Sig)) (k : Listener) :
    k ∈ (del l d).map (·.1) ↔ k ≠ l ∧ k ∈ d.map (·.1) := by
  simp only [del, List.mem_map, List.mem_filter]
  constructor
  · rintro ⟨e, ⟨h1, h2⟩, rfl⟩; exact ⟨by simpa using h2, e, h1, rfl⟩
  · rintro ⟨h, e, h1, rfl⟩; exact ⟨e, ⟨h1, by simpa using h⟩, rfl⟩

theorem nodup_del (l : Listener) (d : List (Listener × List Sig)) (h : (d.map (·.1)).Nodup) :
    ((del l d).map (·.1)).Nodup := by
  refine List.Nodup.sublist ?_ h
  exact (List.filter_sublist).map _

theorem mem_entry {l : Listener} {d : List (Listener × List Sig)} (h : entry l d ≠ []) :
    l ∈ d.map (·.1) := by
  induction d with
  | nil => simp [entry] at h
  | cons e d ih =>
    obtain ⟨j, w⟩ := e
    rw [entry_cons] at h
    by_cases hj : j = l
    · simp [hj]
    · simp only [hj, if_false] at h
      exact List.mem_cons_of_mem _ (ih h)

/-- How often a listener is connected to a signal. -/
def conn (st : St) (l : Listener) (s : Sig) : Nat := (st.listeners s).countP fun i => i.listener = l

/-- What an object knows about one of its methods. -/
def known (st : St) (o : Nat) (l : Listener) : List Sig := entry l ((st.track o).getD [])

/-- Objects know all connections of their methods, and nothing else. -/
structure Tracked (st : St) : Prop where
  count : ∀ l o, l.owner = some o → ∀ s, (known st o l).count s = conn st l s
  owned : ∀ o l, l ∈ ((st.track o).getD []).map (·.1) → l.owner = some o ∧ known st o l ≠ []
  nodup : ∀ o, (((st.track o).getD []).map (·.1)).Nodup

theorem connect_log (s : Sig) (l : Listener) (p : Bool) (st : St) : (connect s l p st).log = st.log := by
  unfold connect; cases l.owner <;> rfl

theorem connect_listeners (s : Sig) (l : Listener) (p : Bool) (st : St) :
    (connect s l p st).listeners = set st.listeners s (st.listeners s ++ [⟨l, p⟩]) := by
  unfold connect; cases l.owner <;> rfl

theorem disconnect_log (s : Sig) (l : Listener) (p : Bool) (st : St) :
    (disconnect s l p st).1.log = st.log := by
  simp only [disconnect]
  (repeat' split) <;> rfl

theorem disconnect_listeners (s : Sig) (l : Listener) (p : Bool) (st : St) :
    (disconnect s l p st).1.listeners = set st.listeners s ((st.listeners s).erase ⟨l, p⟩) := by
  simp only [disconnect]
  split
  · (repeat' split) <;> rfl
  · rename_i h
    rw [List.erase_of_not_mem h]
    funext t
    by_cases ht : t = s
    · subst ht; simp
    · rw [set_ne _ _ ht]

theorem conn_connect (s : Sig) (l : Listener) (p : Bool) (st : St) (k : Listener) (t : Sig) :
    conn (connect s l p st) k t = conn st k t + if k = l ∧ t = s then 1 else 0 := by
  simp only [conn, connect_listeners]
  by_cases ht : t = s
  · subst ht
    simp only [set_same, List.countP_append, List.countP_cons, List.countP_nil]
    by_cases hk : k = l
    · simp [hk]
    · simp [hk, Ne.symm hk]
  · simp [set_ne _ _ ht, ht]

theorem conn_disconnect (s : Sig) (l : Listener) (p : Bool) (st : St) (k : Listener) (t : Sig)
    (h : ⟨l, p⟩ ∈ st.listeners s) :
    conn (disconnect s l p st).1 k t + (if k = l ∧ t = s then 1 else 0) = conn st k t := by
  simp only [conn, disconnect_listeners]
  by_cases ht : t = s
  · subst ht
    simp only [set_same, and_true]
    have := (List.perm_cons_erase h).countP_eq fun i : Info => decide (i.listener = k)
    rw [this, List.countP_cons]
    by_cases hk : k = l
    · simp [hk]
    · simp [hk, Ne.symm hk]
  · simp [set_ne _ _ ht, ht]

theorem tracked_connect {st : St} (h : Tracked st) (s : Sig) (l : Listener) (p : Bool) :
    Tracked (connect s l p st) := by
  have hk : ∀ o k, known (connect s l p st) o k =
      if l.owner = some o ∧ k = l then known st o k ++ [s] else known st o k := by
    intro o k
    simp only [known, connect]
    cases hl : l.owner with
    | none => simp
    | some o' =>
      simp only [Option.some.injEq]
      by_cases ho : o' = o
      · subst ho
        simp only [set_same, Option.getD_some, entry_put, true_and]
        by_cases hk : k = l
        · simp [hk]
        · simp [hk]
      · simp [set_ne _ _ (Ne.symm ho), ho]
  have hkeys : ∀ o k, k ∈ (((connect s l p st).track o).getD []).map (·.1) →
      (k = l ∧ l.owner = some o) ∨ k ∈ ((st.track o).getD []).map (·.1) := by
    intro o k hm
    unfold connect at hm
    cases hl : l.owner with
    | none => simp only [hl] at hm; exact .inr hm
    | some o' =>
      simp only [hl] at hm
      by_cases ho : o' = o
      · subst ho
        simp only [set_same, Option.getD_some, keys_put] at hm
        rcases hm with hm | hm
        · exact .inl ⟨hm, rfl⟩
        · exact .inr hm
      · rw [set_ne _ _ (Ne.symm ho)] at hm; exact .inr hm
  refine ⟨?_, ?_, ?_⟩
  · intro k o ho t
    rw [hk, conn_connect, ← h.count k o ho t]
    by_cases hkl : k = l
    · subst hkl
      simp only [ho, true_and, if_true, List.count_append]
      by_cases hts : t = s
      · simp [hts]
      · simp [hts, Ne.symm hts]
    · simp [hkl]
  · intro o k hm
    rcases hkeys o k hm with ⟨rfl, h2⟩ | h2
    · exact ⟨h2, by rw [hk]; simp [h2]⟩
    · refine ⟨(h.owned o k h2).1, ?_⟩
      rw [hk]; split
      · simp
      · exact (h.owned o k h2).2
  · intro o
    unfold connect
    cases hl : l.owner with
    | none => exact h.nodup o
    | some o' =>
      simp only
      by_cases ho : o' = o
      · subst ho; simp only [set_same, Option.getD_some]; exact nodup_put _ _ _ (h.nodup o')
      · rw [set_ne _ _ (Ne.symm ho)]; exact h.nodup o

/-- In a state where objects know their connections, `disconnect` raises only if there is nothing to
disconnect, and then it changes nothing. -/
theorem disconnect_ok {st : St} (h : Tracked st) (s : Sig) (l : Listener) (p : Bool) :
    ((disconnect s l p st).2 = false ↔ ⟨l, p⟩ ∈ st.listeners s) ∧
    (⟨l, p⟩ ∉ st.listeners s → (disconnect s l p st).1 = st) ∧
    Tracked (disconnect s l p st).1 ∧
    (⟨l, p⟩ ∈ st.listeners s → ∀ o k, known (disconnect s l p st).1 o k =
      if l.owner = some o ∧ k = l then (known st o k).erase s else known st o k) := by
  by_cases hm : (⟨l, p⟩ : Info) ∈ st.listeners s
  · cases hl : l.owner with
    | none =>
      have hd : disconnect s l p st =
          ({ st with listeners := set st.listeners s ((st.listeners s).erase ⟨l, p⟩) }, false) := by
        simp [disconnect, hm, hl]
      refine ⟨by simp [hd, hm], fun h => absurd hm h, ⟨?_, ?_, ?_⟩, ?_⟩
      · intro k o ho t
        have := conn_disconnect s l p st k t hm
        have hkl : k ≠ l := by rintro rfl; rw [hl] at ho; cases ho
        simp only [hkl, false_and, if_false, Nat.add_zero] at this
        rw [this, hd]
        exact h.count k o ho t
      · rw [hd]; exact h.owned
      · rw [hd]; exact h.nodup
      · intro _ o k; simp [hd, known]
    | some o =>
      have hc := h.count l o hl s
      have hpos : 0 < conn st l s := List.countP_pos_iff.2 ⟨_, hm, by simp⟩
      have hin : s ∈ known st o l := List.count_pos_iff.1 (by omega)
      have htr : ∃ d, st.track o = some d := by
        cases ht : st.track o with
        | none => simp [known, ht, entry] at hin
        | some d => exact ⟨d, rfl⟩
      obtain ⟨d, hd⟩ := htr
      have hkn : known st o l = entry l d := by simp [known, hd]
      rw [hkn] at hin
      have hres : ∃ d', disconnect s l p st =
          ({ st with listeners := set st.listeners s ((st.listeners s).erase ⟨l, p⟩),
                     track := set st.track o (some d') }, false) ∧
          d' = if (entry l d).erase s = [] then del l d else put l ((entry l d).erase s) d := by
        refine ⟨_, ?_, rfl⟩
        simp only [disconnect, hm, if_true, hl, hd, hin]
        split <;> rfl
      obtain ⟨d', hres, hd'⟩ := hres
      have hent : ∀ k, entry k d' = if k = l then (entry k d).erase s else entry k d := by
        intro k
        rw [hd']
        split
        · rename_i he; rw [entry_del]
          by_cases hk : k = l
          · simp [hk, he]
          · simp [hk]
        · rw [entry_put]
          by_cases hk : k = l
          · simp [hk]
          · simp [hk]
      have hknown : ∀ o' k, known (disconnect s l p st).1 o' k =
          if some o = some o' ∧ k = l then (known st o' k).erase s else known st o' k := by
        intro o' k
        rw [hres]
        simp only [known, Option.some.injEq]
        by_cases ho : o = o'
        · subst ho; simp [hent, hd]
        · simp [set_ne _ _ (Ne.symm ho), ho]
      refine ⟨by simp [hres, hm], fun h => absurd hm h, ⟨?_, ?_, ?_⟩, fun _ => hknown⟩
      · intro k o' ho' t
        have := conn_disconnect s l p st k t hm
        rw [hknown]
        have hc' := h.count k o' ho' t
        by_cases hkl : k = l
        · subst hkl
          have : o = o' := by rw [hl] at ho'; simpa using ho'
          subst this
          simp only [true_and, if_true] at this ⊢
          rw [List.count_erase]
          by_cases hts : t = s
          · subst hts; simp at *; omega
          · simp [hts, Ne.symm hts] at *; omega
        · simp only [hkl, and_false, if_false, false_and, Nat.add_zero] at this ⊢
          omega
      · intro o' k hk
        rw [hknown]
        rw [hres] at hk
        by_cases ho : o = o'
        · subst ho
          simp only [set_same, Option.getD_some] at hk
          rw [hd'] at hk
          split at hk
          · rw [keys_del] at hk
            have := h.owned o k (by rw [hd]; exact hk.2)
            simp only [hk.1, and_false, if_false]
            exact this
          · rename_i he
            rw [keys_put] at hk
            by_cases hkl : k = l
            · subst hkl; refine ⟨hl, ?_⟩; simp [hkn, he]
            · have := h.owned o k (by rw [hd]; exact hk.resolve_left hkl)
              simp only [hkl, and_false, if_false]; exact this
        · simp only [set_ne _ _ (Ne.symm ho)] at hk
          simp only [Option.some.injEq, ho, false_and, if_false]
          exact h.owned o' k hk
      · intro o'
        rw [hres]
        by_cases ho : o = o'
        · subst ho
          simp only [set_same, Option.getD_some]
          have := h.nodup o
          rw [hd] at this
          rw [hd']; split
          · exact nodup_del _ _ this
          · exact nodup_put _ _ _ this
        · simp only [set_ne _ _ (Ne.symm ho)]; exact h.nodup o'
  · have hd : disconnect s l p st = (st, true) := by simp [disconnect, hm]
    exact ⟨by simp [hd, hm], fun _ => by rw [hd], by rw [hd]; exact h, fun h => absurd h hm⟩

/-! ## `remove_signals_listeners` -/

/-- The method of an object is connected without the signal argument only. -/
def Bare (st : St) (o : Nat) : Prop := ∀ s, ∀ i ∈ st.listeners s, i.listener.owner = some o → i.pass = false

theorem bare_disconnect {st : St} {o : Nat} (h : Bare st o) (s : Sig) (l : Listener) (p : Bool) :
    Bare (disconnect s l p st).1 o := by
  intro t i hi ho
  rw [disconnect_listeners] at hi
  by_cases ht : t = s
  · subst ht; rw [set_same] at hi; exact h t i (List.mem_of_mem_erase hi) ho
  · rw [set_ne _ _ ht] at hi; exact h t i hi ho

/-- Nothing but the listeners of one object may go. -/
def Only (o : Nat) (st st' : St) : Prop :=
  st'.log = st.log ∧ (∀ o', o' ≠ o → st'.track o' = st.track o') ∧
  ∀ s, (st'.listeners s).filter (fun i => i.listener.owner ≠ some o) =
    (st.listeners s).filter (fun i => i.listener.owner ≠ some o)

theorem Only.trans {o : Nat} {a b c : St} (h1 : Only o a b) (h2 : Only o b c) : Only o a c :=
  ⟨h2.1.trans h1.1, fun o' h => (h2.2.1 o' h).trans (h1.2.1 o' h), fun s => (h2.2.2 s).trans (h1.2.2 s)⟩

theorem filter_erase_of_not {α : Type} [DecidableEq α] (p : α → Bool) (a : α) (h : p a = false)
    (l : List α) : (l.erase a).filter p = l.filter p := by
  induction l with
  | nil => rfl
  | cons x l ih =>
    rw [List.erase_cons]
    by_cases hx : x = a
    · subst hx; simp [h]
    · have : (x == a) = false := by simpa using hx
      simp [this, List.filter_cons, ih]

theorem only_disconnect {st : St} {o : Nat} (s : Sig) (l : Listener) (p : Bool)
    (hl : l.owner = some o) : Only o st (disconnect s l p st).1 := by
  refine ⟨disconnect_log s l p st, ?_, ?_⟩
  · intro o' ho
    simp only [disconnect, hl]
    split
    · split
      · rfl
      · split
        · split
          · exact set_ne _ _ ho
          · exact set_ne _ _ ho
        · exact set_ne _ _ ho
    · rfl
  · intro t
    rw [disconnect_listeners]
    by_cases ht : t = s
    · subst ht; rw [set_same]; exact filter_erase_of_not _ _ (by simp [hl]) _
    · rw [set_ne _ _ ht]

/-- The loop skips every other signal. -/
theorem removeLoop_spec (o : Nat) (l : Listener) (hl : l.owner = some o) (n i : Nat) (st : St)
    (ht : Tracked st) (hb : Bare st o) (hn : (known st o l).length < n + 2 * i + 1 ∨ (known st o l).length ≤ i)
    (hni : (known st o l).length ≤ n + i) :
    (removeLoop o l n i st).2 = false ∧ Tracked (removeLoop o l n i st).1 ∧
    Bare (removeLoop o l n i st).1 o ∧ Only o st (removeLoop o l n i st).1 ∧
    (known (removeLoop o l n i st).1 o l).length =
      (known st o l).length - ((known st o l).length - i + 1) / 2 ∧
    ∀ k, k ≠ l → known (removeLoop o l n i st).1 o k = known st o k := by
  induction n generalizing i st with
  | zero =>
    have : (known st o l).length - i = 0 := by omega
    refine ⟨rfl, ht, hb, ⟨rfl, fun _ _ => rfl, fun _ => rfl⟩, ?_, fun _ _ => rfl⟩
    simp [removeLoop, this]
  | succ n ih =>
    simp only [removeLoop]
    split
    · rename_i hnone
      have hle : (known st o l).length ≤ i := List.getElem?_eq_none_iff.1 hnone
      have : (known st o l).length - i = 0 := by omega
      refine ⟨rfl, ht, hb, ⟨rfl, fun _ _ => rfl, fun _ => rfl⟩, ?_, fun _ _ => rfl⟩
      simp [this]
    · rename_i s hs
      have hlt : i < (known st o l).length := by
        obtain ⟨h, _⟩ := List.getElem?_eq_some_iff.1 hs; exact h
      have hmem : s ∈ known st o l := List.mem_of_getElem? hs
      have hconn : 0 < conn st l s := by
        rw [← ht.count l o hl s]; exact List.count_pos_iff.2 hmem
      have hin : (⟨l, false⟩ : Info) ∈ st.listeners s := by
        obtain ⟨j, hj, hjl⟩ := List.countP_pos_iff.1 hconn
        obtain ⟨jl, jp⟩ := j
        have h1 : jl = l := by simpa using hjl
        subst h1
        have h2 : jp = false := hb s _ hj hl
        subst h2
        exact hj
      obtain ⟨h1, _, h3, h4⟩ := disconnect_ok ht s l false
      have h1 := h1.2 hin
      have h4 := h4 hin
      have hlen : (known (disconnect s l false st).1 o l).length = (known st o l).length - 1 := by
        rw [h4]; simp [hl, List.length_erase_of_mem hmem]
      simp only [h1, Bool.false_eq_true, if_false]
      obtain ⟨r1, r2, r3, r4, r5, r6⟩ := ih (i + 1) (disconnect s l false st).1 h3
        (bare_disconnect hb s l false) (by omega) (by omega)
      refine ⟨r1, r2, r3, (only_disconnect s l false hl).trans r4, ?_, ?_⟩
      · rw [r5, hlen]; omega
      · intro k hk; rw [r6 k hk, h4]; simp [hk]

theorem removeEach_spec (o : Nat) (ls : List Listener) (st : St) (ht : Tracked st) (hb : Bare st o)
    (hls : ∀ l ∈ ls, l.owner = some o) (hnd : ls.Nodup) :
    (removeEach o ls st).2 = false ∧ Tracked (removeEach o ls st).1 ∧
    Only o st (removeEach o ls st).1 ∧
    (∀ l ∈ ls, (known (removeEach o ls st).1 o l).length = (known st o l).length / 2) ∧
    ∀ l, l ∉ ls → known (removeEach o ls st).1 o l = known st o l := by
  induction ls generalizing st with
  | nil => exact ⟨rfl, ht, ⟨rfl, fun _ _ => rfl, fun _ => rfl⟩, by simp, fun _ _ => rfl⟩
  | cons l ls ih =>
    simp only [List.nodup_cons] at hnd
    obtain ⟨r1, r2, r3, r4, r5, r6⟩ := removeLoop_spec o l (hls l (by simp))
      ((known st o l).length + 1) 0 st ht hb (by omega) (by omega)
    simp only [removeEach]
    have e : (entry l ((st.track o).getD [])).length = (known st o l).length := rfl
    rw [e]
    simp only [r1, Bool.false_eq_true, if_false]
    obtain ⟨q1, q2, q3, q4, q5⟩ := ih _ r2 r3 (fun x hx => hls x (by simp [hx])) hnd.2
    refine ⟨q1, q2, r4.trans q3, ?_, ?_⟩
    · intro k hk
      rcases List.mem_cons.1 hk with rfl | hk'
      · rw [q5 k hnd.1, r5]; omega
      · rw [q4 k hk', r6 k (by rintro rfl; exact hnd.1 hk')]
    · intro k hk
      simp only [List.mem_cons, not_or] at hk
      rw [q5 k hk.2, r6 k hk.1]

theorem tracked_removeLoop (o : Nat) (l : Listener) (n i : Nat) (st : St) (ht : Tracked st) :
    Tracked (removeLoop o l n i st).1 ∧ (removeLoop o l n i st).1.log = st.log := by
  induction n generalizing i st with
  | zero => exact ⟨ht, rfl⟩
  | succ n ih =>
    simp only [removeLoop]
    split
    · exact ⟨ht, rfl⟩
    · rename_i s _
      have h := (disconnect_ok ht s l false).2.2.1
      split
      · exact ⟨h, disconnect_log _ _ _ _⟩
      · have := ih (i + 1) _ h; rw [disconnect_log] at this; exact this

theorem tracked_removeEach (o : Nat) (ls : List Listener) (st : St) (ht : Tracked st) :
    Tracked (removeEach o ls st).1 ∧ (removeEach o ls st).1.log = st.log := by
  induction ls generalizing st with
  | nil => exact ⟨ht, rfl⟩
  | cons l ls ih =>
    simp only [removeEach]
    have h := tracked_removeLoop o l ((entry l ((st.track o).getD [])).length + 1) 0 st ht
    split
    · exact h
    · have := ih _ h.1; rw [h.2] at this; exact this

theorem tracked_removeAll (o : Nat) (st : St) (ht : Tracked st) : Tracked (removeAll o st).1 := by
  unfold removeAll
  split
  · exact ht
  · exact (tracked_removeEach _ _ _ ht).1

theorem removeLoop_log (o : Nat) (l : Listener) (n i : Nat) (st : St) :
    (removeLoop o l n i st).1.log = st.log := by
  induction n generalizing i st with
  | zero => rfl
  | succ n ih =>
    simp only [removeLoop]
    split
    · rfl
    · split
      · exact disconnect_log _ _ _ _
      · rw [ih, disconnect_log]

theorem removeEach_log (o : Nat) (ls : List Listener) (st : St) :
    (removeEach o ls st).1.log = st.log := by
  induction ls generalizing st with
  | nil => rfl
  | cons l ls ih =>
    simp only [removeEach]
    split
    · exact removeLoop_log _ _ _ _ _
    · rw [ih, removeLoop_log]

theorem removeAll_log (o : Nat) (st : St) : (removeAll o st).1.log = st.log := by
  unfold removeAll
  split
  · rfl
  · exact removeEach_log _ _ _

/-! ## Nested calls -/

/-- Calls were added, all inside at least `d` calls of `fire`. -/
def Deeper (d : Nat) (st st' : St) : Prop := ∃ new, st'.log = st.log ++ new ∧ ∀ c ∈ new, d ≤ c.depth

theorem Deeper.refl (d : Nat) {st st' : St} (h : st'.log = st.log) : Deeper d st st' :=
  ⟨[], by simp [h], by simp⟩

theorem Deeper.trans {d : Nat} {a b c : St} (h1 : Deeper d a b) (h2 : Deeper d b c) : Deeper d a c := by
  obtain ⟨n1, e1, h1⟩ := h1
  obtain ⟨n2, e2, h2⟩ := h2
  refine ⟨n1 ++ n2, by rw [e2, e1, List.append_assoc], ?_⟩
  intro x hx
  rcases List.mem_append.1 hx with h | h
  · exact h1 x h
  · exact h2 x h

theorem deeper_exec {d : Nat} {fire : Sig → Nat → St → Option (St × Bool)}
    (hf : ∀ s a st r, fire s a st = some r → Deeper d st r.1) (p : Prog) (st : St) (r : St × Bool)
    (h : execWith fire p st = some r) : Deeper d st r.1 := by
  induction p generalizing st with
  | done => cases h; exact .refl d rfl
  | raise => cases h; exact .refl d rfl
  | connect s l p k ih => exact (Deeper.refl d (connect_log s l p st)).trans (ih _ h)
  | disconnect s l p k ih => exact (Deeper.refl d (disconnect_log s l p st)).trans (ih _ _ h)
  | removeAll o k ih => exact (Deeper.refl d (removeAll_log o st)).trans (ih _ _ h)
  | fire s a k ih =>
    simp only [execWith, Option.bind_eq_some_iff] at h
    obtain ⟨r1, h1, h2⟩ := h
    exact (hf s a st r1 h1).trans (ih _ _ h2)

theorem deeper_loop {d : Nat} {call : Info → St → Option (St × Bool)}
    (hc : ∀ i st r, call i st = some r → Deeper d st r.1) (is : List Info) (st : St) (r : St × Bool)
    (h : fireLoop call is st = some r) : Deeper d st r.1 := by
  induction is generalizing st with
  | nil => cases h; exact .refl d rfl
  | cons i is ih =>
    simp only [fireLoop, Option.bind_eq_some_iff] at h
    obtain ⟨r1, h1, h2⟩ := h
    split at h2
    · cases h2; exact hc i st _ h1
    · exact (hc i st r1 h1).trans (ih _ h2)

theorem Deeper.mono {d e : Nat} (h : e ≤ d) {st st' : St} (hd : Deeper d st st') : Deeper e st st' := by
  obtain ⟨n, h1, h2⟩ := hd
  exact ⟨n, h1, fun c hc => Nat.le_trans h (h2 c hc)⟩

theorem deeper_fire (body : Body) (f d : Nat) (s : Sig) (a : Nat) (st : St) (r : St × Bool)
    (h : fire body f d s a st = some r) : Deeper d st r.1 := by
  induction f generalizing d s a st r with
  | zero => cases h
  | succ f ih =>
    refine deeper_loop ?_ _ _ _ h
    intro i st1 r1 h1
    have h2 := deeper_exec (d := d + 1) (fun s a st r h => ih (d + 1) s a st r h) _ _ _ h1
    exact Deeper.trans ⟨[_], rfl, by simp⟩ (h2.mono (by omega))

/-- A property that every operation keeps is kept by programs. -/
theorem exec_keeps {P : St → Prop} (hlog : ∀ st l, P st → P { st with log := l })
    (hc : ∀ s l p st, P st → P (connect s l p st))
    (hd : ∀ s l p st, P st → P (disconnect s l p st).1) (hr : ∀ o st, P st → P (removeAll o st).1)
    (body : Body) (f : Nat) : ∀ (d : Nat),
    (∀ s a st r, P st → fire body f d s a st = some r → P r.1) ∧
    ∀ p st r, P st → execWith (fire body f d) p st = some r → P r.1 := by
  have he : ∀ f d, (∀ s a st r, P st → fire body f d s a st = some r → P r.1) →
      ∀ p st r, P st → execWith (fire body f d) p st = some r → P r.1 := by
    intro f d hf p
    induction p with
    | done => intro st r hp h; cases h; exact hp
    | raise => intro st r hp h; cases h; exact hp
    | connect s l p k ih => intro st r hp h; exact ih _ _ (hc s l p st hp) h
    | disconnect s l p k ih => intro st r hp h; exact ih _ _ _ (hd s l p st hp) h
    | removeAll o k ih => intro st r hp h; exact ih _ _ _ (hr o st hp) h
    | fire s a k ih =>
      intro st r hp h
      simp only [execWith, Option.bind_eq_some_iff] at h
      obtain ⟨r1, h1, h2⟩ := h
      exact ih _ _ _ (hf s a st r1 hp h1) h2
  induction f with
  | zero =>
    intro d
    have : ∀ s a st r, P st → fire body 0 d s a st = some r → P r.1 := by intro s a st r _ h; cases h
    exact ⟨this, he 0 d this⟩
  | succ f ih =>
    intro d
    have : ∀ s a st r, P st → fire body (f + 1) d s a st = some r → P r.1 := by
      intro s a st r hp h
      simp only [fire] at h
      generalize st.listeners s = is at h
      induction is generalizing st with
      | nil => cases h; exact hp
      | cons i is ih' =>
        simp only [fireLoop, Option.bind_eq_some_iff] at h
        obtain ⟨r1, h1, h2⟩ := h
        have hp1 := (ih (d + 1)).2 _ _ _ (hlog st _ hp) h1
        split at h2
        · cases h2; exact hp1
        · exact ih' _ hp1 h2
    exact ⟨this, he (f + 1) d this⟩

theorem tracked_log {st : St} (l : List Call) (h : Tracked st) : Tracked { st with log := l } :=
  ⟨h.count, h.owned, h.nodup⟩

end Verif.Signal
