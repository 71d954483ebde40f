import Verif.Model.Registry
import Verif.Lemmas.Sort

/-! # Lemmas about the table of the registry server -/

namespace Verif.Registry

variable {K V : Type} [DecidableEq K]

theorem get_put (k : K) (v : V) (l : List (K × V)) (k' : K) : get k' (put k v l) = if k' = k then some v else get k' l := by
  induction l with
  | nil =>
    simp only [put, get]
    by_cases h : k = k'
    · rw [if_pos h, if_pos h.symm]
    · rw [if_neg h, if_neg (Ne.symm h)]
  | cons x l ih =>
    obtain ⟨a, b⟩ := x
    simp only [put]
    by_cases h : a = k
    · rw [if_pos h]
      simp only [get]
      by_cases h' : k = k'
      · rw [if_pos h', if_pos h'.symm]
      · rw [if_neg h', if_neg (Ne.symm h'), if_neg (fun e => h' (h.symm.trans e))]
    · rw [if_neg h]
      simp only [get]
      by_cases h' : a = k'
      · rw [if_pos h', if_pos h', if_neg (fun e => h (h'.trans e))]
      · rw [if_neg h', if_neg h', ih]

theorem get_del (k : K) (l : List (K × V)) (k' : K) : get k' (del k l) = if k' = k then none else get k' l := by
  induction l with
  | nil => simp [del, get]
  | cons x l ih =>
    obtain ⟨a, b⟩ := x
    simp only [del] at ih ⊢
    by_cases h : a = k
    · rw [List.filter_cons_of_neg (by simp [h]), ih]
      by_cases h' : k' = k
      · rw [if_pos h', if_pos h']
      · rw [if_neg h', if_neg h', get, if_neg (fun e => h' (e.symm.trans h))]
    · rw [List.filter_cons_of_pos (by simp [h]), get, get, ih]
      by_cases h' : a = k'
      · rw [if_pos h', if_pos h', if_neg (fun e => h (h'.trans e))]
      · rw [if_neg h', if_neg h']

theorem keys_put (k : K) (v : V) (l : List (K × V)) (h : (l.map (·.1)).Nodup) :
    ((put k v l).map (·.1)).Nodup ∧ ∀ x, x ∈ (put k v l).map (·.1) ↔ x = k ∨ x ∈ l.map (·.1) := by
  induction l with
  | nil => simp [put]
  | cons x l ih =>
    obtain ⟨a, b⟩ := x
    rw [List.map_cons, List.nodup_cons] at h
    obtain ⟨i1, i2⟩ := ih h.2
    simp only [put]
    by_cases hk : a = k
    · subst hk
      rw [if_pos rfl]
      simp only [List.map_cons, List.nodup_cons, List.mem_cons]
      exact ⟨h, fun x => by simp⟩
    · rw [if_neg hk]
      simp only [List.map_cons, List.nodup_cons, List.mem_cons]
      refine ⟨⟨?_, i1⟩, fun x => ?_⟩
      · rw [i2]
        rintro (e | e)
        · exact hk e
        · exact h.1 e
      · rw [i2]
        constructor
        · rintro (e | e | e)
          · exact .inr (.inl e)
          · exact .inl e
          · exact .inr (.inr e)
        · rintro (e | e | e)
          · exact .inr (.inl e)
          · exact .inl e
          · exact .inr (.inr e)

theorem keys_del (k : K) (l : List (K × V)) (h : (l.map (·.1)).Nodup) : ((del k l).map (·.1)).Nodup :=
  h.sublist ((List.filter_sublist).map _)

theorem get_isSome (k : K) (l : List (K × V)) : (get k l).isSome = true ↔ k ∈ l.map (·.1) := by
  induction l with
  | nil => simp [get]
  | cons x l ih =>
    obtain ⟨a, b⟩ := x
    simp only [get, List.map_cons, List.mem_cons]
    by_cases h : a = k
    · simp [h]
    · rw [if_neg h, ih]
      simp [Ne.symm h]

theorem get_iff (k : K) (v : V) (l : List (K × V)) (h : (l.map (·.1)).Nodup) : get k l = some v ↔ (k, v) ∈ l := by
  induction l with
  | nil => simp [get]
  | cons x l ih =>
    obtain ⟨a, b⟩ := x
    rw [List.map_cons, List.nodup_cons] at h
    simp only [get, List.mem_cons, Prod.mk.injEq]
    by_cases hk : a = k
    · subst hk
      rw [if_pos rfl]
      constructor
      · intro e; exact .inl ⟨rfl, (Option.some.inj e).symm⟩
      · rintro (⟨_, e⟩ | e)
        · rw [e]
        · exact absurd (List.mem_map.2 ⟨_, e, rfl⟩) h.1
    · rw [if_neg hk, ih h.2]
      constructor
      · exact .inr
      · rintro (⟨e, _⟩ | e)
        · exact absurd e.symm hk
        · exact e

variable {A : Type} [DecidableEq A]

/-- The time of an address in the table. -/
def stamp (t : Table A) (n : Text) (a : A) : Option Nat := (get n t).bind (get a)

/-- Every key is there once. -/
def Keys (t : Table A) : Prop := (t.map (·.1)).Nodup ∧ ∀ n d, get n t = some d → (d.map (·.1)).Nodup

omit [DecidableEq A] in
theorem keys_inner {t : Table A} (h : Keys t) (n : Text) : (((get n t).getD []).map (·.1)).Nodup := by
  cases e : get n t with
  | none => exact List.nodup_nil
  | some d => exact h.2 n d e

theorem add_stamp (now : Nat) (n : Text) (a : A) (t : Table A) (n' : Text) (a' : A) :
    stamp (addService now n a t).1 n' a' = if n' = n ∧ a' = a then some now else stamp t n' a' := by
  simp only [stamp, addService]
  rw [get_put]
  by_cases h : n' = n
  · subst h
    rw [if_pos rfl, Option.bind_some, get_put]
    by_cases h' : a' = a
    · rw [if_pos h', if_pos ⟨rfl, h'⟩]
    · rw [if_neg h', if_neg (fun e => h' e.2)]
      cases get n' t <;> rfl
  · rw [if_neg h, if_neg (fun e => h e.1)]

theorem add_keys (now : Nat) (n : Text) (a : A) (t : Table A) (h : Keys t) : Keys (addService now n a t).1 := by
  refine ⟨(keys_put _ _ _ h.1).1, fun n' d e => ?_⟩
  simp only [addService] at e
  rw [get_put] at e
  by_cases hn : n' = n
  · rw [if_pos hn] at e
    cases e
    exact (keys_put _ _ _ (keys_inner h n)).1
  · rw [if_neg hn] at e
    exact h.2 _ _ e

theorem add_event (now : Nat) (n : Text) (a : A) (t : Table A) :
    (addService now n a t).2 = if stamp t n a = none then [.added n a] else [] := by
  simp only [addService]
  have key : ∀ o : Option (List (A × Nat)), (get a (o.getD [])).isNone = true ↔ o.bind (get a) = none := by
    intro o
    cases o with
    | none => simp [get]
    | some d => simp
  by_cases h : stamp t n a = none
  · rw [if_pos h, if_pos ((key _).2 h)]
  · rw [if_neg h, if_neg (fun e => h ((key _).1 e))]

theorem remove_spec (n : Text) (a : A) (t : Table A) (h : Keys t) (hn : n ∈ t.map (·.1)) :
    ∃ r, removeService n a t = some r ∧ Keys r.1 ∧
      (∀ n' a', stamp r.1 n' a' = if n' = n ∧ a' = a then none else stamp t n' a') ∧
      (∀ n', n' ≠ n → (n' ∈ r.1.map (·.1) ↔ n' ∈ t.map (·.1))) ∧
      (∀ a' s, stamp r.1 n a' = some s → n ∈ r.1.map (·.1)) := by
  have hs := (get_isSome n t).2 hn
  obtain ⟨d, hd⟩ := Option.isSome_iff_exists.1 hs
  have hst : ∀ a' s (t' : Table A), stamp t' n a' = some s → n ∈ t'.map (·.1) := by
    intro a' s t' e
    rw [← get_isSome]
    simp only [stamp] at e
    cases e2 : get n t' with
    | none => rw [e2] at e; cases e
    | some d => rfl
  unfold removeService
  rw [hd, Option.bind_some]
  by_cases he : (del a d).isEmpty = true
  · rw [if_pos he]
    refine ⟨_, rfl, ⟨keys_del _ _ h.1, fun n' d' e => ?_⟩, fun n' a' => ?_, fun n' hne => ?_, fun a' s e => hst _ _ _ e⟩
    · simp only at e
      rw [get_del] at e
      by_cases hn' : n' = n
      · rw [if_pos hn'] at e; cases e
      · rw [if_neg hn'] at e; exact h.2 _ _ e
    · simp only [stamp]
      rw [get_del]
      by_cases hn' : n' = n
      · subst hn'
        rw [if_pos rfl, hd, Option.bind_none, Option.bind_some]
        by_cases ha : a' = a
        · rw [if_pos ⟨rfl, ha⟩]
        · rw [if_neg (fun e => ha e.2)]
          have := get_del a d a'
          rw [if_neg ha, List.isEmpty_iff.1 he] at this
          rw [← this]; rfl
      · rw [if_neg hn', if_neg (fun e => hn' e.1)]
    · rw [← get_isSome, ← get_isSome]
      simp only
      rw [get_del, if_neg hne]
  · rw [if_neg he]
    refine ⟨_, rfl, ⟨(keys_put _ _ _ h.1).1, fun n' d' e => ?_⟩, fun n' a' => ?_, fun n' hne => ?_, fun a' s e => hst _ _ _ e⟩
    · simp only at e
      rw [get_put] at e
      by_cases hn' : n' = n
      · rw [if_pos hn'] at e
        cases e
        exact keys_del _ _ (h.2 _ _ hd)
      · rw [if_neg hn'] at e; exact h.2 _ _ e
    · simp only [stamp]
      rw [get_put]
      by_cases hn' : n' = n
      · subst hn'
        rw [if_pos rfl, hd, Option.bind_some, Option.bind_some, get_del]
        by_cases ha : a' = a
        · rw [if_pos ha, if_pos ⟨rfl, ha⟩]
        · rw [if_neg ha, if_neg (fun e => ha e.2)]
      · rw [if_neg hn', if_neg (fun e => hn' e.1)]
    · rw [← get_isSome, ← get_isSome]
      simp only
      rw [get_put, if_neg hne]

open scoped Classical in
theorem prune_spec (timeout now : Nat) (n : Text) (l : List (A × Nat)) (t : Table A) (h : Keys t)
    (hl : (l.map (·.1)).Nodup) (hs : ∀ x ∈ l, stamp t n x.1 = some x.2) :
    ∃ r, prune timeout now n l t = some r ∧ Keys r.2.1 ∧
      r.1 = (l.filter fun x => decide (now ≤ x.2 + timeout)).map (·.1) ∧
      (∀ n' a', stamp r.2.1 n' a' =
        if n' = n ∧ ∃ s, (a', s) ∈ l ∧ s + timeout < now then none else stamp t n' a') := by
  induction l generalizing t with
  | nil =>
    refine ⟨_, rfl, h, rfl, fun n' a' => ?_⟩
    rw [if_neg (fun e => by obtain ⟨_, s, e, _⟩ := e; cases e)]
  | cons x l ih =>
    obtain ⟨a, s⟩ := x
    rw [List.map_cons, List.nodup_cons] at hl
    simp only [prune]
    by_cases hst : s + timeout < now
    · rw [if_pos hst]
      have h0 : stamp t n a = some s := hs (a, s) (List.mem_cons_self ..)
      have hmem : n ∈ t.map (·.1) := by
        rw [← get_isSome]
        simp only [stamp] at h0
        cases e2 : get n t with
        | none => rw [e2] at h0; cases h0
        | some d => rfl
      obtain ⟨r, hr, k1, k2, _, _⟩ := remove_spec n a t h hmem
      rw [hr, Option.bind_some]
      obtain ⟨q, hq, q1, q2, q3⟩ := ih r.1 k1 hl.2 (fun x hx => by
        rw [k2, if_neg, hs x (List.mem_cons_of_mem _ hx)]
        rintro ⟨_, e⟩
        exact hl.1 (e ▸ List.mem_map.2 ⟨x, hx, rfl⟩))
      rw [hq]
      refine ⟨_, rfl, q1, ?_, fun n' a' => ?_⟩
      · rw [List.filter_cons_of_neg (by simp; omega)]
        exact q2
      · simp only
        rw [q3, k2]
        by_cases hn : n' = n
        · subst hn
          by_cases e1 : ∃ s', (a', s') ∈ l ∧ s' + timeout < now
          · obtain ⟨s', e1, e2⟩ := e1
            rw [if_pos ⟨rfl, s', e1, e2⟩, if_pos ⟨rfl, s', List.mem_cons_of_mem _ e1, e2⟩]
          · rw [if_neg (fun e => e1 e.2)]
            by_cases ha : a' = a
            · rw [if_pos ⟨rfl, ha⟩, if_pos ⟨rfl, s, ha ▸ List.mem_cons_self .., hst⟩]
            · rw [if_neg (fun e => ha e.2), if_neg]
              rintro ⟨_, s', e2, e3⟩
              rcases List.mem_cons.1 e2 with e2 | e2
              · cases e2; exact ha rfl
              · exact e1 ⟨s', e2, e3⟩
        · rw [if_neg (fun e => hn e.1), if_neg (fun e => hn e.1), if_neg (fun e => hn e.1)]
    · rw [if_neg hst]
      obtain ⟨q, hq, q1, q2, q3⟩ := ih t h hl.2 (fun x hx => hs x (List.mem_cons_of_mem _ hx))
      rw [hq]
      refine ⟨_, rfl, q1, ?_, fun n' a' => ?_⟩
      · rw [List.filter_cons_of_pos (by simp; omega)]
        simp only [List.map_cons]
        rw [q2]
      · simp only
        rw [q3]
        by_cases e1 : n' = n ∧ ∃ s', (a', s') ∈ l ∧ s' + timeout < now
        · obtain ⟨e0, s', e1, e2⟩ := e1
          rw [if_pos ⟨e0, s', e1, e2⟩, if_pos ⟨e0, s', List.mem_cons_of_mem _ e1, e2⟩]
        · rw [if_neg e1, if_neg]
          rintro ⟨e0, s', e2, e3⟩
          rcases List.mem_cons.1 e2 with e2 | e2
          · cases e2; exact hst e3
          · exact e1 ⟨e0, s', e2, e3⟩

open scoped Classical in
/-- The servers of one name, by time. -/
theorem query_spec (upper : Text → Text) (timeout now : Nat) (name : Text) (t : Table A) (h : Keys t) :
    ∃ r, query upper timeout now name t = some r ∧ Keys r.2.1 ∧
      (∃ l : List (A × Nat), r.1 = l.map (·.1) ∧ (l.map (·.1)).Nodup ∧ (l.Pairwise fun x y => x.2 ≤ y.2) ∧
        ∀ a s, (a, s) ∈ l ↔ stamp t (upper name) a = some s ∧ now ≤ s + timeout) ∧
      (∀ n' a', stamp r.2.1 n' a' = if n' = upper name ∧ ∃ s, stamp t n' a' = some s ∧ s + timeout < now then none
        else stamp t n' a') := by
  unfold query
  cases e : get (upper name) t with
  | none =>
    have hs : ∀ a, stamp t (upper name) a = none := fun a => by simp only [stamp, e, Option.bind_none]
    refine ⟨_, rfl, h, ⟨[], rfl, List.nodup_nil, .nil, fun a s => ?_⟩, fun n' a' => ?_⟩
    · rw [hs]; simp
    · rw [if_neg]
      rintro ⟨rfl, s, e1, _⟩
      rw [hs] at e1; cases e1
  | some d =>
    have hs : ∀ a, stamp t (upper name) a = get a d := fun a => by simp only [stamp, e, Option.bind_some]
    have hd := h.2 _ _ e
    have hp := Sort.sortBy_perm (le := fun (x y : A × Nat) => decide (x.2 ≤ y.2)) d
    have hsort := Sort.sortBy_sorted (le := fun (x y : A × Nat) => decide (x.2 ≤ y.2))
      (fun a b => by simp; omega) (fun a b c => by simp; omega) d
    obtain ⟨r, hr, r1, r2, r3⟩ := prune_spec timeout now (upper name) _ t h
      ((hp.map (·.1)).nodup_iff.2 hd) (fun x hx => by
        rw [hs]
        exact (get_iff _ _ _ hd).2 (hp.mem_iff.1 hx))
    refine ⟨r, hr, r1, ⟨_, r2, ?_, ?_, fun a s => ?_⟩, fun n' a' => ?_⟩
    · exact ((hp.map (·.1)).nodup_iff.2 hd).sublist ((List.filter_sublist).map _)
    · exact (hsort.imp (by intro a b hab; simpa using hab)).filter _
    · rw [List.mem_filter, hp.mem_iff, hs, get_iff _ _ _ hd, decide_eq_true_iff]
    · rw [r3]
      by_cases hn : n' = upper name
      · subst hn
        simp only [true_and, hp.mem_iff, hs, get_iff _ _ _ hd]
      · rw [if_neg (fun e => hn e.1), if_neg (fun e => hn e.1)]

open scoped Classical in
theorem register_spec (upper : Text → Text) (now : Nat) (names : List Text) (a : A) (t : Table A) (h : Keys t) :
    Keys (register upper now names a t).1 ∧
      ∀ n' a', stamp (register upper now names a t).1 n' a' =
        if a' = a ∧ ∃ n ∈ names, upper n = n' then some now else stamp t n' a' := by
  induction names generalizing t with
  | nil =>
    refine ⟨h, fun n' a' => ?_⟩
    rw [if_neg (by simp)]
    rfl
  | cons n names ih =>
    simp only [register]
    obtain ⟨i1, i2⟩ := ih _ (add_keys now (upper n) a t h)
    refine ⟨i1, fun n' a' => ?_⟩
    rw [i2, add_stamp]
    by_cases e1 : a' = a ∧ ∃ m ∈ names, upper m = n'
    · obtain ⟨e0, m, hm, e⟩ := e1
      rw [if_pos ⟨e0, m, hm, e⟩, if_pos ⟨e0, m, List.mem_cons_of_mem _ hm, e⟩]
    · rw [if_neg e1]
      by_cases e2 : n' = upper n ∧ a' = a
      · rw [if_pos e2, if_pos ⟨e2.2, n, List.mem_cons_self .., e2.1.symm⟩]
      · rw [if_neg e2, if_neg]
        rintro ⟨e0, m, hm, e⟩
        rcases List.mem_cons.1 hm with rfl | hm
        · exact e2 ⟨e.symm, e0⟩
        · exact e1 ⟨e0, m, hm, e⟩

theorem unregisterAll_spec (a : A) (names : List Text) (t : Table A) (h : Keys t) (hn : names.Nodup)
    (hm : ∀ n ∈ names, n ∈ t.map (·.1)) :
    ∃ r, unregisterAll a names t = some r ∧ Keys r.1 ∧
      ∀ n' a', stamp r.1 n' a' = if a' = a ∧ n' ∈ names then none else stamp t n' a' := by
  induction names generalizing t with
  | nil =>
    refine ⟨_, rfl, h, fun n' a' => ?_⟩
    rw [if_neg (by simp)]
  | cons n names ih =>
    rw [List.nodup_cons] at hn
    obtain ⟨r, hr, k1, k2, k3, _⟩ := remove_spec n a t h (hm n (List.mem_cons_self ..))
    obtain ⟨q, hq, q1, q2⟩ := ih r.1 k1 hn.2 (fun m hmem =>
      (k3 m (fun e => hn.1 (e ▸ hmem))).2 (hm m (List.mem_cons_of_mem _ hmem)))
    simp only [unregisterAll]
    rw [hr, Option.bind_some, hq]
    refine ⟨_, rfl, q1, fun n' a' => ?_⟩
    simp only
    rw [q2, k2]
    by_cases ha : a' = a
    · by_cases hm' : n' ∈ names
      · rw [if_pos ⟨ha, hm'⟩, if_pos ⟨ha, List.mem_cons_of_mem _ hm'⟩]
      · rw [if_neg (fun e => hm' e.2)]
        by_cases hn' : n' = n
        · rw [if_pos ⟨hn', ha⟩, if_pos ⟨ha, hn' ▸ List.mem_cons_self ..⟩]
        · rw [if_neg (fun e => hn' e.1), if_neg]
          rintro ⟨_, e⟩
          rcases List.mem_cons.1 e with e | e
          · exact hn' e
          · exact hm' e
    · rw [if_neg (fun e => ha e.1), if_neg (fun e => ha e.2), if_neg (fun e => ha e.1)]

theorem unregister_spec (a : A) (t : Table A) (h : Keys t) :
    ∃ r, unregister a t = some r ∧ Keys r.1 ∧
      ∀ n' a', stamp r.1 n' a' = if a' = a then none else stamp t n' a' := by
  obtain ⟨r, hr, r1, r2⟩ := unregisterAll_spec a (t.map (·.1)) t h h.1 (fun _ h => h)
  refine ⟨r, hr, r1, fun n' a' => ?_⟩
  rw [r2]
  by_cases ha : a' = a
  · rw [if_pos ha]
    by_cases hm : n' ∈ t.map (·.1)
    · rw [if_pos ⟨ha, hm⟩]
    · rw [if_neg (fun e => hm e.2)]
      simp only [stamp]
      rw [← get_isSome] at hm
      cases e : get n' t with
      | none => rfl
      | some d => rw [e] at hm; exact absurd rfl hm
  · rw [if_neg ha, if_neg (fun e => ha e.1)]

end Verif.Registry
