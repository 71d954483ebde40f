import Verif.Model.Netref

/-! Lemmas about reference counts: the balance of references, proxies and deletions. -/

set_option linter.unusedSectionVars false

namespace Verif.Netref

variable {O : Type} [DecidableEq O]

theorem countP_set_same {α : Type} (p : α → Bool) : ∀ (l : List α) (i : Nat) (a b : α), l[i]? = some a → p a = p b →
    (l.set i b).countP p = l.countP p
  | [], i, a, b, h, _ => by simp at h
  | x :: l, 0, a, b, h, hp => by
    simp at h; subst h
    simp only [List.set_cons_zero, List.countP_cons, hp]
  | x :: l, i + 1, a, b, h, hp => by
    simp only [List.getElem?_cons_succ] at h
    simp only [List.set_cons_succ, List.countP_cons, countP_set_same p l i a b h hp]

theorem countP_eraseIdx {α : Type} (p : α → Bool) : ∀ (l : List α) (i : Nat) (a : α), l[i]? = some a →
    (l.eraseIdx i).countP p + (if p a then 1 else 0) = l.countP p
  | [], i, a, h => by simp at h
  | x :: l, 0, a, h => by
    simp at h; subst h
    simp only [List.eraseIdx_cons_zero, List.countP_cons]
  | x :: l, i + 1, a, h => by
    simp only [List.getElem?_cons_succ] at h
    have := countP_eraseIdx p l i a h
    simp only [List.eraseIdx_cons_succ, List.countP_cons]
    omega

/-- How many references the collection counts. -/
def cnt (c : Coll O) (k : Nat) : Nat :=
  match c k with
  | none => 0
  | some s => s.n + 1

def nref (k : Nat) (l : List (Nat × O)) : Nat := l.countP fun r => decide (r.1 = k)
def nprox (k : Nat) (l : List (Proxy O)) : Nat := l.countP fun p => decide (p.key = k)
def isDel (k : Nat) : Msg O → Bool
  | .del i _ => decide (i = k)
  | _ => false
def ndel (k : Nat) (l : List (Msg O)) : Nat := l.countP (isDel k)

theorem cnt_set (c : Coll O) (k i : Nat) (s : Option (Slot O)) :
    cnt (set c k s) i = if i = k then (match s with | none => 0 | some s => s.n + 1) else cnt c i := by
  by_cases h : i = k
  · simp only [cnt, set, if_pos h]
  · simp only [cnt, set, if_neg h]

theorem cnt_add (c : Coll O) (k i : Nat) (o : O) : cnt (add c k o) i = cnt c i + if i = k then 1 else 0 := by
  unfold add
  cases h : c k with
  | none =>
    simp only [cnt_set]
    split
    · rename_i hi; subst hi; simp [cnt, h]
    · rfl
  | some s =>
    simp only [cnt_set]
    split
    · rename_i hi; subst hi; simp [cnt, h]
    · rfl

theorem add_obj (c : Coll O) (k i : Nat) (o : O) (s : Slot O) (h : add c k o i = some s) :
    (∃ t, c i = some t ∧ t.obj = s.obj) ∨ (i = k ∧ c i = none ∧ s.obj = o) := by
  unfold add at h
  cases hk : c k with
  | none =>
    rw [hk] at h
    simp only [set] at h
    split at h
    · rename_i hi; subst hi; cases h; exact Or.inr ⟨rfl, hk, rfl⟩
    · exact Or.inl ⟨s, h, rfl⟩
  | some t =>
    rw [hk] at h
    simp only [set] at h
    split at h
    · rename_i hi; subst hi; cases h; exact Or.inl ⟨t, hk, rfl⟩
    · exact Or.inl ⟨s, h, rfl⟩

theorem decref_one {c c' : Coll O} {k : Nat} (h : decref c k 1 = some c') :
    (∀ i, cnt c' i + (if i = k then 1 else 0) = cnt c i) ∧ ∀ i s, c' i = some s → ∃ t, c i = some t ∧ t.obj = s.obj := by
  unfold decref at h
  cases hk : c k with
  | none => rw [hk] at h; cases h
  | some s =>
    rw [hk] at h
    simp only at h
    split at h
    · cases h
      refine ⟨fun i => ?_, fun i t ht => ?_⟩
      · rw [cnt_set]
        split
        · rename_i hi; subst hi; simp only [cnt, hk]; omega
        · rfl
      · simp only [set] at ht
        split at ht
        · cases ht
        · exact ⟨t, ht, rfl⟩
    · cases h
      refine ⟨fun i => ?_, fun i t ht => ?_⟩
      · rw [cnt_set]
        split
        · rename_i hi; subst hi; simp only [cnt, hk]; omega
        · rfl
      · simp only [set] at ht
        split at ht
        · rename_i hi; subst hi; cases ht; exact ⟨s, hk, rfl⟩
        · exact ⟨t, ht, rfl⟩

theorem decref_none {c : Coll O} {k : Nat} (h : decref c k 1 = none) : c k = none := by
  unfold decref at h
  cases hk : c k with
  | none => rfl
  | some s => rw [hk] at h; simp only at h; split at h <;> cases h

theorem cnt_pos {c : Coll O} {k : Nat} (h : 0 < cnt c k) : ∃ s, c k = some s := by
  unfold cnt at h
  cases hk : c k with
  | none => rw [hk] at h; simp at h
  | some s => exact ⟨s, rfl⟩

/-- The references that are counted for an address are on the way, belong to a proxy, or will be deleted by a
request that is on the way, except for the `hits`; and everything means the same object. -/
structure Good (w : World O) (hits : Nat → Nat) : Prop where
  bal : ∀ k, cnt w.coll k = nref k w.refs + nprox k w.proxies + ndel k w.msgs + hits k
  ref : ∀ k o s, (k, o) ∈ w.refs → w.coll k = some s → s.obj = o
  prox : ∀ p s, p ∈ w.proxies → w.coll p.key = some s → s.obj = p.obj
  use : ∀ pre k o post, w.msgs = pre ++ .use k o :: post →
    1 ≤ nprox k w.proxies + ndel k post ∧ ∀ s, w.coll k = some s → s.obj = o

/-- A reference arrives for which there is a proxy. -/
def hit (k : Nat) (a : Act O) (w : World O) : Nat :=
  match a, w.refs with
  | .unbox (some i) _, (k', _) :: _ =>
    if k' = k ∧ (w.proxies[i]?).any (fun p => decide (p.key = k')) = true then 1 else 0
  | _, _ => 0

theorem nref_pos {k : Nat} {o : O} {l : List (Nat × O)} (h : (k, o) ∈ l) : 1 ≤ nref k l :=
  List.countP_pos_iff.2 ⟨_, h, by simp⟩

theorem nprox_pos {p : Proxy O} {l : List (Proxy O)} (h : p ∈ l) : 1 ≤ nprox p.key l :=
  List.countP_pos_iff.2 ⟨_, h, by simp⟩

theorem ndel_append (k : Nat) (a b : List (Msg O)) : ndel k (a ++ b) = ndel k a + ndel k b := List.countP_append

/-- Appending a request that is not a use. -/
theorem split_del {msgs pre post : List (Msg O)} {k i c : Nat} {o : O}
    (h : msgs ++ [.del i c] = pre ++ .use k o :: post) : ∃ post', post = post' ++ [.del i c] ∧ msgs = pre ++ .use k o :: post' := by
  rcases List.eq_nil_or_concat post with hp | ⟨post', x, hp⟩
  · subst hp
    have := List.append_inj' h rfl
    simp at this
  · rw [List.concat_eq_append] at hp
    subst hp
    rw [show pre ++ Msg.use k o :: (post' ++ [x]) = (pre ++ .use k o :: post') ++ [x] by simp] at h
    have := List.append_inj' h rfl
    simp only [List.cons.injEq, and_true] at this
    exact ⟨post', by rw [this.2], this.1⟩

theorem split_use {msgs pre post : List (Msg O)} {k i : Nat} {o p : O}
    (h : msgs ++ [.use i p] = pre ++ .use k o :: post) :
    (post = [] ∧ i = k ∧ p = o) ∨ ∃ post', post = post' ++ [.use i p] ∧ msgs = pre ++ .use k o :: post' := by
  rcases List.eq_nil_or_concat post with hp | ⟨post', x, hp⟩
  · subst hp
    have := List.append_inj' h rfl
    simp only [List.cons.injEq, Msg.use.injEq, and_true] at this
    exact Or.inl ⟨rfl, this.2⟩
  · rw [List.concat_eq_append] at hp
    subst hp
    rw [show pre ++ Msg.use k o :: (post' ++ [x]) = (pre ++ .use k o :: post') ++ [x] by simp] at h
    have := List.append_inj' h rfl
    simp only [List.cons.injEq, and_true] at this
    exact Or.inr ⟨post', by rw [this.2], this.1⟩

theorem Good.start : Good (start : World O) fun _ => 0 :=
  ⟨fun _ => rfl, fun _ _ _ h => (by cases h), fun _ _ h => (by cases h), fun pre _ _ _ h => (by cases pre <;> cases h)⟩

theorem Good.step {w : World O} {hits : Nat → Nat} (h : Good w hits) (a : Act O) (ha : a ≠ .disconnect) :
    Good (Netref.step a w).1 (fun k => hits k + hit k a w) := by
  have same : ∀ {a}, (∀ k, hit k a w = 0) → Good w (fun k => hits k + hit k a w) := by
    intro a h0
    have : (fun k => hits k + hit k a w) = hits := by funext k; rw [h0 k]; rfl
    rw [this]; exact h
  cases a with
  | disconnect => exact absurd rfl ha
  | box k o =>
    simp only [Netref.step]
    by_cases hc : (w.coll k).all (fun s => decide (s.obj = o)) = true
    · rw [if_pos hc]
      have hob : ∀ i s, add w.coll k o i = some s → (∃ t, w.coll i = some t ∧ t.obj = s.obj) ∨ (i = k ∧ w.coll i = none ∧ s.obj = o) :=
        fun i s hs => add_obj _ _ _ _ _ hs
      refine ⟨fun i => ?_, fun i x s hx hs => ?_, fun p s hp hs => ?_, fun pre i x post hm => ?_⟩
      · rw [cnt_add, h.bal i]
        simp only [nref, List.countP_append, List.countP_cons, List.countP_nil, hit, decide_eq_true_eq]
        by_cases hi : i = k
        · subst hi; simp; omega
        · rw [if_neg hi, if_neg (fun e => hi e.symm)]; omega
      · rcases hob i s hs with ⟨t, ht, he⟩ | ⟨rfl, hn, he⟩
        · rcases List.mem_append.1 hx with hx | hx
          · rw [← he]; exact h.ref i x t hx ht
          · rw [List.mem_singleton] at hx
            cases hx
            rw [ht] at hc
            rw [← he]; simpa using hc
        · rcases List.mem_append.1 hx with hx | hx
          · have := nref_pos hx
            have hb := h.bal i
            rw [cnt, hn] at hb
            simp only at hb
            omega
          · rw [List.mem_singleton] at hx
            cases hx; exact he
      · rcases hob p.key s hs with ⟨t, ht, he⟩ | ⟨hk, hn, he⟩
        · rw [← he]; exact h.prox p t hp ht
        · have : 1 ≤ nprox p.key w.proxies := nprox_pos hp
          have hb := h.bal p.key
          rw [cnt, hn] at hb
          simp only at hb
          omega
      · obtain ⟨h1, h2⟩ := h.use pre i x post hm
        refine ⟨h1, fun s hs => ?_⟩
        rcases hob i s hs with ⟨t, ht, he⟩ | ⟨hk, hn, he⟩
        · rw [← he]; exact h2 t ht
        · have hb := h.bal i
          rw [cnt, hn, hm, ndel_append] at hb
          simp only [ndel, List.countP_cons] at hb h1
          omega
    · rw [if_neg hc]; exact same fun _ => rfl
  | unbox cached inspect =>
    simp only [Netref.step]
    cases hr : w.refs with
    | nil => exact same fun k => by cases cached <;> simp [hit, hr]
    | cons r refs =>
      obtain ⟨k, o⟩ := r
      simp only
      have hre : ∀ i, nref i w.refs = nref i refs + if k = i then 1 else 0 := by
        intro i
        rw [hr]
        simp only [nref, List.countP_cons, decide_eq_true_eq]
      have hks : ∀ s, w.coll k = some s → s.obj = o := fun s => h.ref k o s (by rw [hr]; exact List.mem_cons_self ..)
      cases cached with
      | some i =>
        simp only
        cases hp : w.proxies[i]? with
        | none => exact same fun k => by simp [hit, hr, hp]
        | some p =>
          simp only
          by_cases hk : p.key = k
          · rw [if_pos hk]
            have hn : ∀ j, nprox j (w.proxies.set i { p with count := p.count + 1 }) = nprox j w.proxies :=
              fun j => countP_set_same _ _ _ p _ hp rfl
            refine ⟨fun j => ?_, fun j x s hx hs => ?_, fun q s hq hs => ?_, fun pre j x post hm => ?_⟩
            · rw [h.bal j, hre j, hn j]
              simp only [hit, hr, hp, Option.any_some, hk, decide_true, and_true]
              omega
            · exact h.ref j x s (by rw [hr]; exact List.mem_cons_of_mem _ hx) hs
            · rcases List.mem_or_eq_of_mem_set hq with hq | hq
              · exact h.prox q s hq hs
              · subst hq; exact h.prox p s (List.mem_of_getElem? hp) hs
            · obtain ⟨h1, h2⟩ := h.use pre j x post hm
              exact ⟨by rw [hn]; exact h1, h2⟩
          · rw [if_neg hk]
            exact same fun j => by simp [hit, hr, hp, hk]
      | none =>
        simp only
        have hn : ∀ j, nprox j (w.proxies ++ [⟨k, 1, o⟩]) = nprox j w.proxies + if k = j then 1 else 0 := by
          intro j
          simp only [nprox, List.countP_append, List.countP_cons, List.countP_nil, decide_eq_true_eq, Nat.zero_add]
        refine ⟨fun j => ?_, fun j x s hx hs => ?_, fun q s hq hs => ?_, fun pre j x post hm => ?_⟩
        · rw [h.bal j, hre j]
          have : ndel j (if inspect = true then w.msgs ++ [.use k o] else w.msgs) = ndel j w.msgs := by
            split
            · rw [ndel_append]; rfl
            · rfl
          rw [this, hn j]
          simp only [hit]
          omega
        · exact h.ref j x s (by rw [hr]; exact List.mem_cons_of_mem _ hx) hs
        · rcases List.mem_append.1 hq with hq | hq
          · exact h.prox q s hq hs
          · rw [List.mem_singleton] at hq
            subst hq; exact hks s hs
        · rw [hn]
          have old : ∀ post', w.msgs = pre ++ .use j x :: post' → ndel j post' = ndel j post →
              1 ≤ nprox j w.proxies + (if k = j then 1 else 0) + ndel j post ∧ ∀ s, w.coll j = some s → s.obj = x := by
            intro post' hm' he
            obtain ⟨h1, h2⟩ := h.use pre j x post' hm'
            exact ⟨by omega, h2⟩
          by_cases hi : inspect = true
          · rw [if_pos hi] at hm
            rcases split_use hm with ⟨_, rfl, rfl⟩ | ⟨post', hp, hm'⟩
            · exact ⟨by simp; omega, hks⟩
            · exact old post' hm' (by rw [hp, ndel_append]; rfl)
          · rw [if_neg hi] at hm
            exact old post hm rfl
  | use i =>
    simp only [Netref.step]
    cases hp : w.proxies[i]? with
    | none => exact same fun _ => rfl
    | some p =>
      have hpm := List.mem_of_getElem? hp
      refine ⟨fun j => ?_, h.ref, h.prox, fun pre j x post hm => ?_⟩
      · have : ndel j (w.msgs ++ [.use p.key p.obj]) = ndel j w.msgs := by rw [ndel_append]; rfl
        rw [h.bal j, this]; rfl
      · rcases split_use hm with ⟨rfl, rfl, rfl⟩ | ⟨post', hp', hm'⟩
        · exact ⟨by have := nprox_pos hpm; simp only; omega, fun s hs => h.prox p s hpm hs⟩
        · obtain ⟨h1, h2⟩ := h.use pre j x post' hm'
          refine ⟨?_, h2⟩
          rw [hp', ndel_append]
          simp only
          omega
  | drop i =>
    simp only [Netref.step]
    cases hp : w.proxies[i]? with
    | none => exact same fun _ => rfl
    | some p =>
      have hn : ∀ j, nprox j (w.proxies.eraseIdx i) + (if p.key = j then 1 else 0) = nprox j w.proxies := by
        intro j
        have := countP_eraseIdx (fun q : Proxy O => decide (q.key = j)) w.proxies i p hp
        simp only [decide_eq_true_eq] at this
        exact this
      have hd : ∀ j (l : List (Msg O)), ndel j (l ++ [.del p.key p.count]) = ndel j l + if p.key = j then 1 else 0 := by
        intro j l
        simp only [ndel, List.countP_append, List.countP_cons, List.countP_nil, isDel, decide_eq_true_eq, Nat.zero_add]
      refine ⟨fun j => ?_, h.ref, fun q s hq hs => h.prox q s (List.mem_of_mem_eraseIdx hq) hs, fun pre j x post hm => ?_⟩
      · have := hn j
        rw [h.bal j]
        simp only [hd, hit]
        omega
      · obtain ⟨post', hp', hm'⟩ := split_del hm
        obtain ⟨h1, h2⟩ := h.use pre j x post' hm'
        refine ⟨?_, h2⟩
        have := hn j
        rw [hp', hd]
        simp only
        omega
  | serve =>
    simp only [Netref.step]
    cases hm : w.msgs with
    | nil => exact same fun _ => rfl
    | cons m msgs =>
      cases m with
      | use k o =>
        refine ⟨fun j => ?_, h.ref, h.prox, fun pre j x post hm' => ?_⟩
        · have : ndel j w.msgs = ndel j msgs := by
            rw [hm]; rw [show Msg.use k o :: msgs = [.use k o] ++ msgs from rfl, ndel_append]
            show 0 + _ = _
            omega
          rw [h.bal j, this]; rfl
        · exact h.use (.use k o :: pre) j x post (by rw [hm]; simp only at hm'; rw [hm']; rfl)
      | del k c =>
        simp only
        have hd : ∀ j, ndel j w.msgs = ndel j msgs + if k = j then 1 else 0 := by
          intro j
          rw [hm]
          simp only [ndel, List.countP_cons, isDel, decide_eq_true_eq]
        cases hdec : decref w.coll k 1 with
        | none =>
          have hk := decref_none hdec
          have hb := h.bal k
          have := hd k
          rw [if_pos rfl] at this
          rw [cnt, hk] at hb
          simp only at hb
          omega
        | some c' =>
          obtain ⟨h1, h2⟩ := decref_one hdec
          refine ⟨fun j => ?_, fun j x s hx hs => ?_, fun q s hq hs => ?_, fun pre j x post hm' => ?_⟩
          · have a1 := h1 j
            have a2 := h.bal j
            have a3 := hd j
            simp only [hit]
            by_cases hj : j = k
            · rw [if_pos hj] at a1; rw [if_pos hj.symm] at a3; omega
            · rw [if_neg hj] at a1; rw [if_neg (fun e => hj e.symm)] at a3; omega
          · obtain ⟨t, ht, he⟩ := h2 j s hs
            rw [← he]; exact h.ref j x t hx ht
          · obtain ⟨t, ht, he⟩ := h2 q.key s hs
            rw [← he]; exact h.prox q t hq ht
          · obtain ⟨a, b⟩ := h.use (.del k c :: pre) j x post (by rw [hm]; simp only at hm'; rw [hm']; rfl)
            refine ⟨a, fun s hs => ?_⟩
            obtain ⟨t, ht, he⟩ := h2 j s hs
            rw [← he]; exact b t ht

/-- The number of references, in a history, that arrived when there was a proxy. -/
def hitsOf (k : Nat) : List (Act O) → World O → Nat
  | [], _ => 0
  | a :: l, w => hit k a w + hitsOf k l (step a w).1

theorem Good.run : ∀ (l : List (Act O)) {w : World O} {hits : Nat → Nat}, Good w hits → (∀ a ∈ l, a ≠ .disconnect) →
    Good (Netref.run l w).1 (fun k => hits k + hitsOf k l w)
  | [], w, hits, h, _ => h
  | a :: l, w, hits, h, hl => by
    have := Good.run l (h.step a (hl a (List.mem_cons_self ..))) fun b hb => hl b (List.mem_cons_of_mem _ hb)
    simp only [Netref.run, hitsOf]
    have he : (fun k => hits k + (hit k a w + hitsOf k l (Netref.step a w).1)) =
        (fun k => hits k + hit k a w + hitsOf k l (Netref.step a w).1) := by funext k; omega
    rw [he]; exact this

/-- What follows from the balance for one step. -/
theorem Good.out {w : World O} {hits : Nat → Nat} (h : Good w hits) (a : Act O) :
    (Netref.step a w).2 ≠ .keyError ∧ ∀ m x, (Netref.step a w).2 = .found m x → m = x := by
  cases a with
  | serve =>
    simp only [Netref.step]
    cases hm : w.msgs with
    | nil => simp
    | cons m msgs =>
      cases m with
      | use k o =>
        obtain ⟨h1, h2⟩ := h.use [] k o msgs (by rw [hm]; rfl)
        have hb := h.bal k
        have : ndel k w.msgs = ndel k msgs := by
          rw [hm]; rw [show Msg.use k o :: msgs = [.use k o] ++ msgs from rfl, ndel_append]
          show 0 + _ = _
          omega
        obtain ⟨s, hs⟩ := cnt_pos (c := w.coll) (k := k) (by omega)
        simp only [getitem, hs, Option.map_some]
        refine ⟨by simp, fun m x hx => ?_⟩
        cases hx
        exact (h2 s hs).symm
      | del k c =>
        simp only
        cases hdec : decref w.coll k 1 with
        | none =>
          have hk := decref_none hdec
          have hb := h.bal k
          have : ndel k w.msgs = ndel k msgs + 1 := by
            rw [hm]; simp [ndel, isDel]
          rw [cnt, hk] at hb
          simp only at hb
          omega
        | some c' => simp
  | box k o => simp only [Netref.step]; split <;> simp
  | unbox cached inspect =>
    simp only [Netref.step]
    cases w.refs with
    | nil => simp
    | cons r refs =>
      cases cached with
      | none => simp
      | some i =>
        cases hp : w.proxies[i]? with
        | none => simp [hp]
        | some p => simp only [hp]; split <;> simp
  | use i => simp only [Netref.step]; cases w.proxies[i]? <;> simp
  | drop i => simp only [Netref.step]; cases w.proxies[i]? <;> simp
  | disconnect => simp [Netref.step]

theorem checkAttr_some {cfg : Config} {has : List Char → Bool} {name n : List Char} (h : checkAttr cfg has name = some n) :
    (cfg.allowExposed = true ∧ has n = true ∧ cfg.pref <+: n) ∨ (cfg.allowAll = true ∧ n = name) ∨
    (cfg.allowSafe = true ∧ n ∈ cfg.safe ∧ n = name) ∨ (cfg.allowPublic = true ∧ ¬ "_".toList <+: n ∧ n = name) := by
  have hp : cfg.pref <+: if cfg.pref.isPrefixOf name = true then name else cfg.pref ++ name := by
    by_cases e : cfg.pref.isPrefixOf name = true
    · rw [if_pos e]; exact List.isPrefixOf_iff_prefix.1 e
    · rw [if_neg e]; exact List.prefix_append _ _
  unfold checkAttr at h
  simp only at h
  generalize (if cfg.pref.isPrefixOf name = true then name else cfg.pref ++ name) = n2 at h hp
  by_cases h1 : (cfg.allowExposed && has n2) = true
  · rw [if_pos h1] at h
    cases h
    simp only [Bool.and_eq_true] at h1
    exact Or.inl ⟨h1.1, h1.2, hp⟩
  · rw [if_neg h1] at h
    by_cases h2 : cfg.allowAll = true
    · rw [if_pos h2] at h
      cases h
      exact Or.inr (Or.inl ⟨h2, rfl⟩)
    · rw [if_neg h2] at h
      by_cases h3 : (cfg.allowSafe && cfg.safe.contains name) = true
      · rw [if_pos h3] at h
        cases h
        simp only [Bool.and_eq_true] at h3
        exact Or.inr (Or.inr (Or.inl ⟨h3.1, by simpa using h3.2, rfl⟩))
      · rw [if_neg h3] at h
        generalize hu : "_".toList = u at h ⊢
        by_cases h4 : (cfg.allowPublic && !(u.isPrefixOf name)) = true
        · rw [if_pos h4] at h
          cases h
          simp only [Bool.and_eq_true, Bool.not_eq_true'] at h4
          refine Or.inr (Or.inr (Or.inr ⟨h4.1, fun e => ?_, rfl⟩))
          rw [List.isPrefixOf_iff_prefix.2 e] at h4
          cases h4.2
        · rw [if_neg h4] at h; cases h

theorem access_done {cfg : Config} {has : List Char → Bool} {kind : Kind} {name : Option (List Char)} {n : List Char}
    (h : access cfg has (fun _ => false) kind name = .done n) :
    ∃ nm, name = some nm ∧ cfg.allows kind = true ∧ n ≠ [] ∧ checkAttr cfg has nm = some n := by
  cases name with
  | none => simp [access] at h
  | some nm =>
    cases hc : checkAttr cfg has nm with
    | none => simp [access, hc] at h
    | some n2 =>
      simp only [access, hc, Bool.false_eq_true, if_false] at h
      by_cases hcond : n2 = [] ∨ (!cfg.allows kind) = true
      · rw [if_pos hcond] at h; cases h
      · rw [if_neg hcond] at h
        cases h
        refine ⟨nm, rfl, ?_, fun e => hcond (Or.inl e), hc⟩
        cases ha : cfg.allows kind with
        | true => rfl
        | false => exact absurd (Or.inr (by rw [ha]; rfl)) hcond

end Verif.Netref
