import Verif.Model.Life

/-! Lemmas for C78. -/

set_option linter.unusedSectionVars false

namespace Verif.Life

open Verif.Assistant (put started resumed bootable normal ended)

variable {I A K O : Type} [DecidableEq I] [DecidableEq A] [DecidableEq K] [DecidableEq O]

/-! ## Storages -/

theorem look_cons (i j : I) (c : Content A K O) (l : List (I × Content A K O)) :
    look ((j, c) :: l) i = if j = i then some c else look l i := by
  unfold look
  rw [List.find?_cons]
  by_cases h : j = i <;> simp [h]

theorem look_write (stores : List (I × Content A K O)) (i j : I) (s : Sess A K O) :
    look (write stores i s) j = if j = i then (look stores i).map (fun _ => .saved s) else look stores j := by
  induction stores with
  | nil => simp [write, look]
  | cons e l ih =>
    obtain ⟨k, c⟩ := e
    have hw : write ((k, c) :: l) i s = (if k = i then (i, .saved s) else (k, c)) :: write l i s := rfl
    rw [hw]
    by_cases hk : k = i
    · rw [if_pos hk, look_cons, ih, look_cons, look_cons, if_pos hk]
      by_cases hj : j = i
      · simp [hj]
      · rw [if_neg (fun h => hj h.symm), if_neg hj, if_neg hj, if_neg (fun h => hj (h.symm.trans hk))]
    · rw [if_neg hk, look_cons, ih, look_cons, look_cons, if_neg hk]
      by_cases hj : j = i
      · subst hj; simp [hk]
      · rw [if_neg hj, if_neg hj]

theorem look_filter (stores : List (I × Content A K O)) (ids : List I) (j : I) :
    look (stores.filter fun e => !decide (e.1 ∈ ids)) j = if j ∈ ids then none else look stores j := by
  induction stores with
  | nil => simp [look]
  | cons e l ih =>
    obtain ⟨k, c⟩ := e
    rw [List.filter_cons]
    by_cases hk : k ∈ ids
    · simp only [hk, decide_true, Bool.not_true, Bool.false_eq_true, if_false]
      rw [ih, look_cons]
      by_cases hj : j ∈ ids
      · simp [hj]
      · rw [if_neg hj, if_neg hj, if_neg (fun h : k = j => hj (h ▸ hk))]
    · simp only [hk, decide_false, Bool.not_false, if_true]
      rw [look_cons, ih, look_cons]
      by_cases hj : j ∈ ids
      · rw [if_pos hj, if_pos hj, if_neg (fun h : k = j => hk (h ▸ hj))]
      · rw [if_neg hj, if_neg hj]

theorem look_of_mem {stores : List (I × Content A K O)} (h : (stores.map (·.1)).Nodup) {i : I}
    {c : Content A K O} (hm : (i, c) ∈ stores) : look stores i = some c := by
  induction stores with
  | nil => simp at hm
  | cons e l ih =>
    obtain ⟨k, d⟩ := e
    rw [List.map_cons, List.nodup_cons] at h
    rw [look_cons]
    rcases List.mem_cons.mp hm with he | hm
    · obtain ⟨rfl, rfl⟩ := Prod.mk.inj he
      simp
    · rw [if_neg (fun hk : k = i => h.1 (hk ▸ List.mem_map.mpr ⟨_, hm, rfl⟩))]
      exact ih h.2 hm

theorem mem_of_look {stores : List (I × Content A K O)} {i : I} {c : Content A K O}
    (h : look stores i = some c) : (i, c) ∈ stores := by
  induction stores with
  | nil => simp [look] at h
  | cons e l ih =>
    obtain ⟨k, d⟩ := e
    rw [look_cons] at h
    by_cases hk : k = i
    · rw [if_pos hk] at h
      rw [Option.some.inj h, hk]
      simp
    · rw [if_neg hk] at h
      exact List.mem_cons_of_mem _ (ih h)

theorem look_none {stores : List (I × Content A K O)} {i : I} :
    look stores i = none ↔ i ∉ stores.map (·.1) := by
  induction stores with
  | nil => simp [look]
  | cons e l ih =>
    obtain ⟨k, d⟩ := e
    rw [look_cons, List.map_cons, List.mem_cons]
    by_cases hk : k = i
    · simp [hk]
    · rw [if_neg hk, ih]
      simp [Ne.symm hk]

theorem write_fst (stores : List (I × Content A K O)) (i : I) (s : Sess A K O) :
    (write stores i s).map (·.1) = stores.map (·.1) := by
  unfold write
  rw [List.map_map]
  apply List.map_congr_left
  intro e _
  show (if e.1 = i then (i, Content.saved s) else e).1 = e.1
  split
  · next h => exact h.symm
  · rfl

/-! ## Ways through a step -/

theorem enforce_ind {P : World I A K O × Res I → Prop} (w : World I A K O) (c : Assistant.Call)
    (f : Proc I A K O → World I A K O × Res I) (h0 : ∀ r, r ≠ .ok → P (w, r))
    (h : ∀ p, w.proc = some p → p.pc = .free → p.allowed c = true → P (f p)) : P (enforce w c f) := by
  unfold enforce
  cases hp : w.proc with
  | none => exact h0 _ (by simp)
  | some p =>
    dsimp only
    by_cases h1 : p.pc ≠ .free
    · rw [if_pos h1]; exact h0 _ (by simp)
    · rw [if_neg h1]
      by_cases h2 : p.allowed c = true
      · rw [if_pos h2]; exact h p hp (Decidable.not_not.mp h1) h2
      · rw [if_neg h2]; exact h0 _ (by simp)

theorem withSess_ind {P : World I A K O × Res I → Prop} (w : World I A K O) (p : Proc I A K O)
    (f : I → Sess A K O → World I A K O × Res I) (h0 : ∀ r, r ≠ .ok → P (w, r))
    (h : ∀ i s, p.cur = some (i, s) → P (f i s)) : P (withSess w p f) := by
  unfold withSess
  cases hc : p.cur with
  | none => exact h0 _ (by simp)
  | some e => exact h e.1 e.2 hc

theorem inside_ind {P : World I A K O × Res I → Prop} (w : World I A K O) (ok : Pc K → Bool)
    (f : Proc I A K O → I → Sess A K O → World I A K O × Res I) (h0 : ∀ r, r ≠ .ok → P (w, r))
    (h : ∀ p i s, w.proc = some p → ok p.pc = true → p.cur = some (i, s) → P (f p i s)) :
    P (inside w ok f) := by
  unfold inside
  cases hp : w.proc with
  | none => exact h0 _ (by simp)
  | some p =>
    dsimp only
    by_cases h1 : ok p.pc = true
    · rw [if_pos h1]
      cases hc : p.cur with
      | none => exact h0 _ (by simp)
      | some e => exact h p e.1 e.2 hp h1 hc
    · rw [if_neg h1]; exact h0 _ (by simp)

theorem saving_ind {P : World I A K O × Res I → Prop} (w : World I A K O) (p : Proc I A K O) (i : I)
    (s : Sess A K O) (ck : Bool) (p' : Proc I A K O)
    (h0 : P (⟨w.stores, some { p with cur := some (i, s) }⟩, .raised))
    (h : (look w.stores i).isSome = true →
      P (⟨write w.stores i s, some { p' with cur := some (i, s) }⟩, .ok)) :
    P (saving w p i s ck p') := by
  unfold saving save
  by_cases hc : ck = true ∧ (look w.stores i).isSome = true
  · rw [if_pos hc]; exact h hc.2
  · rw [if_neg hc]; exact h0

/-- What `next` of a generator does. -/
theorem advance_ind {P : World I A K O × Res I → Prop} (w : World I A K O) (p : Proc I A K O) (g : Nat) (l : List I)
    (h0 : ∀ r l', r ≠ .ok → (∀ i, r ≠ .found i) → (l = [] → l' = []) →
      P (⟨w.stores, some { p with gens := p.gens.set g (some l') }⟩, r))
    (h : ∀ i l', l ≠ [] → (∃ c, look w.stores i = some c ∧ resumable p.app c = true) →
      P (⟨w.stores, some { p with
        gens := p.gens.set g (some l')
        cand := p.cand ++ [i]
        allowed := put .resume true p.allowed }⟩, .found i)) : P (advance w p g l) := by
  have key : ∀ l l' i, scan w.stores p.app l = some (some i, l') →
      l ≠ [] ∧ ∃ c, look w.stores i = some c ∧ resumable p.app c = true := by
    intro l
    induction l with
    | nil => intro l' i h; simp [scan] at h
    | cons j js ih =>
      intro l' i h
      unfold scan at h
      cases hl : look w.stores j with
      | none => rw [hl] at h; simp at h
      | some c =>
        rw [hl] at h
        dsimp only at h
        by_cases hc : resumable p.app c = true
        · rw [if_pos hc] at h
          have := (Prod.mk.inj (Option.some.inj h)).1
          have := Option.some.inj this
          subst this
          exact ⟨by simp, c, hl, hc⟩
        · rw [if_neg hc] at h
          exact ⟨by simp, (ih _ _ h).2⟩
  have key2 : ∀ l l', scan w.stores p.app l = some (none, l') → l' = [] := by
    intro l
    induction l with
    | nil => intro l' h; simp [scan] at h; exact h
    | cons j js ih =>
      intro l' h
      unfold scan at h
      cases hl : look w.stores j with
      | none => rw [hl] at h; simp at h
      | some c =>
        rw [hl] at h
        dsimp only at h
        by_cases hc : resumable p.app c = true
        · rw [if_pos hc] at h; simp at h
        · rw [if_neg hc] at h; exact ih _ h
  unfold advance
  cases hs : scan w.stores p.app l with
  | none => exact h0 _ [] (by simp) (by simp) (fun _ => rfl)
  | some x =>
    obtain ⟨o, l'⟩ := x
    cases o with
    | none => exact h0 _ l' (by simp) (by simp) (fun _ => key2 _ _ hs)
    | some i => exact h i l' (key _ _ _ hs).1 (key _ _ _ hs).2

/-- What `next` does. -/
theorem next_ind {P : World I A K O × Res I → Prop} (jobs : Jobs K O) (w : World I A K O) (g : Nat)
    (h0 : ∀ r, r ≠ .ok → (∀ i, r ≠ .found i) → P (w, r))
    (h1 : ∀ p, w.proc = some p → p.pc = .free → ∀ r l' cand, r ≠ .ok → (∀ i, r ≠ .found i) →
      (cand = p.cand ∨ cand = [] ∧ p.gens[g]? = some none) →
      (l' ≠ [] → p.gens[g]? = some none ∨ ∃ l, l ≠ [] ∧ p.gens[g]? = some (some l)) →
      (cand = p.cand → p.gens[g]? = some none → l' = [] ∨ p.cand = []) →
      P (⟨w.stores, some { p with
        gens := p.gens.set g (some l')
        cand := cand }⟩, r))
    (h2 : ∀ p, w.proc = some p → p.pc = .free → ∀ i l' cand,
      (cand = p.cand ∧ (∃ l, l ≠ [] ∧ p.gens[g]? = some (some l)) ∨
        cand = [] ∧ p.gens[g]? = some none ∧ p.allowed .getResumable = true) →
      (∃ c, look w.stores i = some c ∧ resumable p.app c = true) →
      P (⟨w.stores, some { p with
        gens := p.gens.set g (some l')
        cand := cand ++ [i]
        allowed := put .resume true p.allowed }⟩, .found i)) :
    P (step jobs (.next g) w) := by
  unfold step
  dsimp only
  cases hp : w.proc with
  | none => exact h0 _ (by simp) (by simp)
  | some p =>
    dsimp only
    by_cases hf : p.pc ≠ .free
    · rw [if_pos hf]; exact h0 _ (by simp) (by simp)
    · rw [if_neg hf]
      have hf' := Decidable.not_not.mp hf
      cases hg : p.gens[g]? with
      | none => exact h0 _ (by simp) (by simp)
      | some x =>
        cases x with
        | none =>
          dsimp only
          by_cases ha : p.allowed .getResumable = true
          · rw [if_pos ha]
            refine advance_ind w { p with cand := [] } g _ ?_ ?_
            · intro r l' hr1 hr2 _
              refine h1 p hp hf' r l' [] hr1 hr2 (.inr ⟨rfl, hg⟩) (fun _ => .inl hg) ?_
              intro hc _
              exact .inr hc.symm
            · intro i l' _ hi
              exact h2 p hp hf' i l' [] (.inr ⟨rfl, hg, ha⟩) hi
          · rw [if_neg ha]
            exact h1 p hp hf' _ [] p.cand (by simp) (by simp) (.inl rfl) (fun h => absurd rfl h)
              (fun _ _ => .inl rfl)
        | some l =>
          dsimp only
          refine advance_ind w p g l ?_ ?_
          · intro r l' hr1 hr2 hl
            refine h1 p hp hf' r l' p.cand hr1 hr2 (.inl rfl) ?_ ?_
            · intro hl'
              exact .inr ⟨l, fun h => hl' (hl h), hg⟩
            · intro _ h
              rw [hg] at h
              simp at h
          · intro i l' hl hi
            exact h2 p hp hf' i l' p.cand (.inl ⟨rfl, l, hl, hg⟩) hi

/-! ## The invariant -/

/-- Storages have different names; sessions in memory and candidates belong to the application of the process;
the results in memory go on from those in the storage. -/
structure Good (w : World I A K O) : Prop where
  nodup : (w.stores.map (·.1)).Nodup
  cur : ∀ p, w.proc = some p → ∀ i s, p.cur = some (i, s) → s.app = p.app ∧
    ∀ s0, look w.stores i = some (.saved s0) → s0.app = p.app ∧ s0.results <+: s.results
  cand : ∀ p, w.proc = some p → ∀ i ∈ p.cand, ∀ s0, look w.stores i = some (.saved s0) → s0.app = p.app

/-- The session in memory may only be changed like this. -/
def Edit (s s' : Sess A K O) : Prop := s'.app = s.app ∧ s.results <+: s'.results

theorem Edit.rfl' {s : Sess A K O} : Edit s s := ⟨rfl, List.prefix_rfl⟩

theorem Good.mem {w : World I A K O} (h : Good w) {p p' : Proc I A K O} (hp : w.proc = some p)
    (ha : p'.app = p.app) (hc : ∀ i ∈ p'.cand, i ∈ p.cand)
    (hs : ∀ i s', p'.cur = some (i, s') → ∃ s, p.cur = some (i, s) ∧ Edit s s') :
    Good ⟨w.stores, some p'⟩ := by
  refine ⟨h.nodup, ?_, ?_⟩
  · intro q hq i s' hcur
    obtain rfl := Option.some.inj hq
    obtain ⟨s, h1, h2, h3⟩ := hs i s' hcur
    obtain ⟨a1, a2⟩ := h.cur p hp i s h1
    refine ⟨by rw [h2, a1, ha], fun s0 h0 => ?_⟩
    obtain ⟨b1, b2⟩ := a2 s0 h0
    exact ⟨by rw [b1, ha], b2.trans h3⟩
  · intro q hq i hi s0 h0
    obtain rfl := Option.some.inj hq
    rw [h.cand p hp i (hc i hi) s0 h0, ha]

theorem Good.save {w : World I A K O} (h : Good w) {p p' : Proc I A K O} (hp : w.proc = some p)
    (ha : p'.app = p.app) (hc : ∀ i ∈ p'.cand, i ∈ p.cand) {i : I} {s s' : Sess A K O}
    (hs : s.app = p.app) (he : Edit s s') (hcur : p'.cur = some (i, s')) :
    Good ⟨write w.stores i s', some p'⟩ := by
  refine ⟨by rw [write_fst]; exact h.nodup, ?_, ?_⟩
  · intro q hq j t ht
    obtain rfl := Option.some.inj hq
    rw [hcur] at ht
    obtain ⟨rfl, rfl⟩ := Prod.mk.inj (Option.some.inj ht)
    refine ⟨by rw [he.1, hs, ha], fun s0 h0 => ?_⟩
    rw [look_write, if_pos rfl] at h0
    obtain ⟨c, _, h2⟩ := Option.map_eq_some_iff.mp h0
    obtain rfl := Content.saved.inj h2
    exact ⟨by rw [he.1, hs, ha], List.prefix_rfl⟩
  · intro q hq j hj s0 h0
    obtain rfl := Option.some.inj hq
    rw [look_write] at h0
    by_cases hji : j = i
    · rw [if_pos hji] at h0
      obtain ⟨c, _, h2⟩ := Option.map_eq_some_iff.mp h0
      obtain rfl := Content.saved.inj h2
      rw [he.1, hs, ha]
    · rw [if_neg hji] at h0
      rw [h.cand p hp j (hc j hj) s0 h0, ha]

/-- A call that edits the session and makes a checkpoint. -/
theorem Good.saving {w : World I A K O} (h : Good w) {p p1 p' : Proc I A K O} (hp : w.proc = some p)
    (ha1 : p1.app = p.app) (hc1 : p1.cand = p.cand) (ha : p'.app = p.app) (hc : p'.cand = p.cand) {i : I}
    {s s' : Sess A K O} (hcur : p.cur = some (i, s)) (he : Edit s s') (ck : Bool) :
    Good (saving w p1 i s' ck p').1 := by
  refine saving_ind (P := fun x => Good x.1) w p1 i s' ck p' ?_ ?_
  · refine h.mem hp ha1 (fun i hi => by rw [← hc1]; exact hi) ?_
    intro j t ht
    obtain ⟨rfl, rfl⟩ := Prod.mk.inj (Option.some.inj ht)
    exact ⟨s, hcur, he⟩
  · intro _
    exact h.save (p' := { p' with cur := some (i, s') }) hp ha (fun i hi => by rw [← hc]; exact hi)
      (h.cur p hp i s hcur).1 he rfl

theorem edit_results (s : Sess A K O) (l : List (K × O)) : Edit s { s with results := s.results ++ l } :=
  ⟨rfl, List.prefix_append _ _⟩

theorem revive_edit (jobs : Jobs K O) (s : Sess A K O) : Edit s (revive jobs s) := by
  unfold revive
  cases s.running with
  | none => exact Edit.rfl'
  | some k =>
    dsimp only
    split
    · exact ⟨rfl, List.prefix_append _ _⟩
    · exact Edit.rfl'

theorem Good.step {jobs : Jobs K O} {w : World I A K O} (h : Good w) (a : Act I A K O) :
    Good (Life.step jobs a w).1 := by
  have same : ∀ (p : Proc I A K O), w.proc = some p → ∀ p', p'.app = p.app → p'.cand = p.cand → p'.cur = p.cur →
      Good ⟨w.stores, some p'⟩ := by
    intro p hp p' h1 h2 h3
    exact h.mem hp h1 (fun i hi => by rw [← h2]; exact hi) (fun i s hs => ⟨s, by rw [← h3]; exact hs, Edit.rfl'⟩)
  cases a with
  | spawn a =>
    unfold Life.step
    try dsimp only
    cases hp : w.proc with
    | some p => exact h
    | none =>
      refine ⟨h.nodup, ?_, ?_⟩
      · intro q hq i s hs
        obtain rfl := Option.some.inj hq
        simp at hs
      · intro q hq i hi
        obtain rfl := Option.some.inj hq
        simp at hi
  | crash => exact ⟨h.nodup, fun p hp => by simp [Life.step] at hp, fun p hp => by simp [Life.step] at hp⟩
  | startNew i =>
    refine enforce_ind (P := fun x => Good x.1) w _ _ (fun _ _ => h) ?_
    intro p hp hf _
    try dsimp only
    split
    · exact h
    · next hl =>
      have hl' : look w.stores i = none := by
        cases hx : look w.stores i with
        | none => rfl
        | some c => rw [hx] at hl; simp at hl
      refine ⟨?_, ?_, ?_⟩
      · show ((i, Content.empty) :: w.stores |>.map (·.1)).Nodup
        rw [List.map_cons, List.nodup_cons]
        exact ⟨look_none.mp hl', h.nodup⟩
      · intro q hq j s hs
        obtain rfl := Option.some.inj hq
        obtain ⟨rfl, rfl⟩ := Prod.mk.inj (Option.some.inj hs)
        refine ⟨rfl, fun s0 h0 => ?_⟩
        change look ((i, Content.empty) :: w.stores) i = _ at h0
        rw [look_cons, if_pos rfl] at h0
        simp at h0
      · intro q hq j hj s0 h0
        obtain rfl := Option.some.inj hq
        change look ((i, Content.empty) :: w.stores) j = _ at h0
        rw [look_cons] at h0
        split at h0
        · simp at h0
        · exact h.cand p hp j hj s0 h0
  | started ck =>
    refine inside_ind (P := fun x => Good x.1) w _ _ (fun _ _ => h) ?_
    intro p i s hp _ hc
    refine h.saving hp ?_ ?_ ?_ ?_ hc ?_ ck <;> first | rfl | exact Edit.rfl'
  | listing =>
    unfold Life.step
    try dsimp only
    cases hp : w.proc with
    | none => exact h
    | some p =>
      try dsimp only
      split
      · exact h
      · exact same p hp _ rfl rfl rfl
  | next g =>
    refine next_ind (P := fun x => Good x.1) jobs w g (fun _ _ _ => h) ?_ ?_
    · intro p hp _ r l' cand _ _ hcand _ _
      refine h.mem hp rfl ?_ (fun i s hs => ⟨s, hs, Edit.rfl'⟩)
      intro i hi
      rcases hcand with rfl | ⟨rfl, _⟩
      · exact hi
      · simp at hi
    · intro p hp _ i l' cand hcand hi
      refine ⟨h.nodup, ?_, ?_⟩
      · intro q hq j s hs
        obtain rfl := Option.some.inj hq
        exact h.cur p hp j s hs
      · intro q hq j hj s0 h0
        obtain rfl := Option.some.inj hq
        rcases List.mem_append.mp hj with hj | hj
        · rcases hcand with ⟨rfl, _⟩ | ⟨rfl, _⟩
          · exact h.cand p hp j hj s0 h0
          · simp at hj
        · obtain rfl := List.mem_singleton.mp hj
          obtain ⟨c, h1, h2⟩ := hi
          change look w.stores j = _ at h0
          rw [h0] at h1
          obtain rfl := Option.some.inj h1
          simp only [resumable, Bool.and_eq_true, decide_eq_true_eq] at h2
          exact h2.1
  | resume i loads known ck =>
    refine enforce_ind (P := fun x => Good x.1) w _ _ (fun _ _ => h) ?_
    intro p hp hf _
    try dsimp only
    split
    · exact h
    · next hi =>
      have hi' := Decidable.not_not.mp hi
      cases hl : look w.stores i with
      | none => exact h
      | some c =>
        cases c with
        | empty => exact h
        | bad => exact h
        | saved s =>
          have happ := h.cand p hp i hi' s hl
          have hmem : ∀ p' : Proc I A K O, p'.app = p.app → p'.cand = p.cand → (∃ s', p'.cur = some (i, s') ∧ Edit s s') →
              Good ⟨w.stores, some p'⟩ := by
            intro p' h1 h2 h3
            obtain ⟨s', h3, h4⟩ := h3
            refine ⟨h.nodup, ?_, ?_⟩
            · intro q hq j t ht
              obtain rfl := Option.some.inj hq
              rw [h3] at ht
              obtain ⟨rfl, rfl⟩ := Prod.mk.inj (Option.some.inj ht)
              refine ⟨by rw [h4.1, happ, h1], fun s0 h0 => ?_⟩
              change look w.stores i = _ at h0
              rw [hl] at h0
              obtain rfl := Content.saved.inj (Option.some.inj h0)
              exact ⟨by rw [happ, h1], h4.2⟩
            · intro q hq j hj s0 h0
              obtain rfl := Option.some.inj hq
              rw [h2] at hj
              rw [h.cand p hp j hj s0 h0, h1]
          try dsimp only
          split
          · exact h
          · split
            · exact hmem _ rfl rfl ⟨s, rfl, Edit.rfl'⟩
            · split
              · exact hmem _ rfl rfl ⟨s, rfl, Edit.rfl'⟩
              · refine saving_ind (P := fun x => Good x.1) w _ _ _ _ _ ?_ ?_
                · exact hmem _ rfl rfl ⟨_, rfl, revive_edit jobs s⟩
                · intro _
                  refine h.save hp ?_ ?_ happ (revive_edit jobs s) rfl
                  · rfl
                  · exact fun i hi => hi
  | selectPlan found ck =>
    refine enforce_ind (P := fun x => Good x.1) w _ _ (fun _ _ => h) ?_
    intro p hp _ _
    refine withSess_ind (P := fun x => Good x.1) w p _ (fun _ _ => h) ?_
    intro i s hc
    try dsimp only
    split
    · exact h
    · refine h.saving hp ?_ ?_ ?_ ?_ hc ?_ ck <;> first | rfl | exact Edit.rfl'
  | handPick =>
    refine enforce_ind (P := fun x => Good x.1) w _ _ (fun _ _ => h) ?_
    intro p hp _ _
    refine withSess_ind (P := fun x => Good x.1) w p _ (fun _ _ => h) ?_
    intro i s hc
    refine h.mem hp rfl (fun i hi => hi) ?_
    intro j t ht
    obtain ⟨rfl, rfl⟩ := Prod.mk.inj (Option.some.inj ht)
    exact ⟨s, hc, rfl, List.prefix_rfl⟩
  | bootTodo =>
    refine enforce_ind (P := fun x => Good x.1) w _ _ (fun _ _ => h) ?_
    intro p hp _ _
    refine withSess_ind (P := fun x => Good x.1) w p _ (fun _ _ => h) ?_
    intro i s hc
    exact same p hp _ rfl rfl rfl
  | bootstrap =>
    refine enforce_ind (P := fun x => Good x.1) w _ _ (fun _ _ => h) ?_
    intro p hp _ _
    refine withSess_ind (P := fun x => Good x.1) w p _ (fun _ _ => h) ?_
    intro i s hc
    exact same p hp _ rfl rfl rfl
  | bootRun k can ck =>
    refine inside_ind (P := fun x => Good x.1) w _ _ (fun _ _ => h) ?_
    intro p i s hp _ hc
    try dsimp only
    split
    · have he : Edit s { s with running := some k } := ⟨rfl, List.prefix_rfl⟩
      cases hs : Life.save w.stores i { s with running := some k } ck with
      | none =>
        refine h.mem hp rfl (fun i hi => hi) ?_
        intro j t ht
        obtain ⟨rfl, rfl⟩ := Prod.mk.inj (Option.some.inj ht)
        exact ⟨s, hc, he⟩
      | some stores =>
        unfold Life.save at hs
        split at hs
        · obtain rfl := Option.some.inj hs
          refine h.save hp ?_ ?_ (h.cur p hp i s hc).1 he rfl
          · rfl
          · exact fun i hi => hi
        · simp at hs
    · exact same p hp _ rfl rfl rfl
  | bootUse k o ck =>
    refine inside_ind (P := fun x => Good x.1) w _ _ (fun _ _ => h) ?_
    intro p i s hp _ hc
    refine h.saving hp ?_ ?_ ?_ ?_ hc ?_ ck <;> first | rfl | exact (edit_results s _)
  | booted ck =>
    refine inside_ind (P := fun x => Good x.1) w _ _ (fun _ _ => h) ?_
    intro p i s hp _ hc
    refine h.saving hp ?_ ?_ ?_ ?_ hc ?_ ck <;> first | rfl | exact ⟨rfl, List.prefix_rfl⟩
  | finishBoot ck =>
    refine enforce_ind (P := fun x => Good x.1) w _ _ (fun _ _ => h) ?_
    intro p hp _ _
    refine withSess_ind (P := fun x => Good x.1) w p _ (fun _ _ => h) ?_
    intro i s hc
    refine h.saving hp ?_ ?_ ?_ ?_ hc ?_ ck <;> first | rfl | exact ⟨rfl, List.prefix_rfl⟩
  | runJob k can ck =>
    refine enforce_ind (P := fun x => Good x.1) w _ _ (fun _ _ => h) ?_
    intro p hp _ _
    refine withSess_ind (P := fun x => Good x.1) w p _ (fun _ _ => h) ?_
    intro i s hc
    try dsimp only
    split
    · refine h.saving hp ?_ ?_ ?_ ?_ hc ?_ ck <;> first | rfl | exact ⟨rfl, List.prefix_rfl⟩
    · exact same p hp _ rfl rfl rfl
  | ran ok ck =>
    refine inside_ind (P := fun x => Good x.1) w _ _ (fun _ _ => h) ?_
    intro p i s hp _ hc
    try dsimp only
    split
    · exact same p hp _ rfl rfl rfl
    · refine h.saving hp ?_ ?_ ?_ ?_ hc ?_ ck <;> first | rfl | exact Edit.rfl'
  | getJob =>
    refine enforce_ind (P := fun x => Good x.1) w _ _ (fun _ _ => h) ?_
    intro p hp _ _
    exact same p hp _ rfl rfl rfl
  | useResult k o ck =>
    refine enforce_ind (P := fun x => Good x.1) w _ _ (fun _ _ => h) ?_
    intro p hp _ _
    refine withSess_ind (P := fun x => Good x.1) w p _ (fun _ _ => h) ?_
    intro i s hc
    refine h.saving hp ?_ ?_ ?_ ?_ hc ?_ ck <;> first | rfl | exact (edit_results s _)
  | «export» ck =>
    refine enforce_ind (P := fun x => Good x.1) w _ _ (fun _ _ => h) ?_
    intro p hp _ _
    refine withSess_ind (P := fun x => Good x.1) w p _ (fun _ _ => h) ?_
    intro i s hc
    try dsimp only
    split
    · exact h
    · refine h.saving hp ?_ ?_ ?_ ?_ hc ?_ ck <;> first | rfl | exact ⟨rfl, List.prefix_rfl⟩
  | finalize ck =>
    refine enforce_ind (P := fun x => Good x.1) w _ _ (fun _ _ => h) ?_
    intro p hp _ _
    refine withSess_ind (P := fun x => Good x.1) w p _ (fun _ _ => h) ?_
    intro i s hc
    try dsimp only
    split
    · exact h
    · refine h.saving hp ?_ ?_ ?_ ?_ hc ?_ ck <;> first | rfl | exact ⟨rfl, List.prefix_rfl⟩
  | updateBlob ck =>
    unfold Life.step
    try dsimp only
    cases hp : w.proc with
    | none => exact h
    | some p =>
      try dsimp only
      split
      · exact h
      · refine withSess_ind (P := fun x => Good x.1) w p _ (fun _ _ => h) ?_
        intro i s hc
        refine h.saving hp ?_ ?_ ?_ ?_ hc ?_ ck <;> first | rfl | exact Edit.rfl'
  | delete ids =>
    refine enforce_ind (P := fun x => Good x.1) w _ _ (fun _ _ => h) ?_
    intro p hp _ _
    refine ⟨(List.filter_sublist.map _).nodup h.nodup, ?_, ?_⟩
    · intro q hq i s hs
      obtain ⟨h1, h2⟩ := h.cur q hq i s hs
      refine ⟨h1, fun s0 h0 => ?_⟩
      change look (w.stores.filter _) i = _ at h0
      rw [look_filter] at h0
      split at h0
      · simp at h0
      · exact h2 s0 h0
    · intro q hq i hi s0 h0
      change look (w.stores.filter _) i = _ at h0
      rw [look_filter] at h0
      split at h0
      · simp at h0
      · exact h.cand q hq i hi s0 h0

/-! ## All steps at once -/

/-- Nothing can be done with the session any more. -/
def Calm (p : Proc I A K O) : Prop := p.pc = .free ∧ ∀ c, p.allowed c = true → ended c = true ∨ c = .resume

theorem Calm.no {p : Proc I A K O} (h : Calm p) {c : Assistant.Call} (ha : p.allowed c = true)
    (h1 : ended c = false) (h2 : c ≠ .resume) : False := by
  rcases h.2 c ha with h3 | h3
  · rw [h1] at h3; simp at h3
  · exact h2 h3

/-- What a step can do. -/
inductive Move (jobs : Jobs K O) (a : Act I A K O) (w : World I A K O) : World I A K O → Prop
  | same : Move jobs a w w
  | gone : Move jobs a w ⟨w.stores, none⟩
  | born (x : A) : Move jobs a w ⟨w.stores, some ⟨x, .free, ready, none, [], []⟩⟩
  | create {p : Proc I A K O} (i : I) : a = .startNew i → w.proc = some p → look w.stores i = none →
      Move jobs a w ⟨(i, .empty) :: w.stores, some { p with
        pc := .starting
        cur := some (i, ⟨p.app, .fresh, none, []⟩) }⟩
  | edit {p p' : Proc I A K O} {i : I} {s s' : Sess A K O} (saved : Bool) : w.proc = some p → p.cur = some (i, s) →
      p'.cur = some (i, s') → p'.app = p.app → p'.cand = p.cand → p'.gens = p.gens → Edit s s' →
      ((∀ ck, a ≠ .finalize ck) → s.flags.incomplete = true → s'.flags.incomplete = true) →
      (Calm p → Calm p' ∧ (s'.flags.incomplete = true → s.flags.incomplete = true)) →
      (p'.allowed .resume = true → p.allowed .resume = true) →
      Move jobs a w ⟨if saved then write w.stores i s' else w.stores, some p'⟩
  | proc {p p' : Proc I A K O} : w.proc = some p → p'.cur = p.cur → p'.app = p.app → p'.cand = p.cand →
      (p'.gens = p.gens ∨ p'.gens = p.gens ++ [none]) → (Calm p → Calm p') →
      (p'.allowed .resume = true → p.allowed .resume = true) → Move jobs a w ⟨w.stores, some p'⟩
  | stop {p : Proc I A K O} (g : Nat) (l' cand : List I) : w.proc = some p →
      (cand = p.cand ∨ cand = [] ∧ p.gens[g]? = some none) →
      (l' ≠ [] → p.gens[g]? = some none ∨ ∃ l, l ≠ [] ∧ p.gens[g]? = some (some l)) →
      (cand = p.cand → p.gens[g]? = some none → l' = [] ∨ p.cand = []) →
      Move jobs a w ⟨w.stores, some { p with
        gens := p.gens.set g (some l')
        cand := cand }⟩
  | yield {p : Proc I A K O} (g : Nat) (i : I) (l' cand : List I) : w.proc = some p →
      (cand = p.cand ∧ (∃ l, l ≠ [] ∧ p.gens[g]? = some (some l)) ∨ cand = []) →
      (∃ s, look w.stores i = some (.saved s) ∧ s.app = p.app ∧ s.flags.incomplete = true) →
      Move jobs a w ⟨w.stores, some { p with
        gens := p.gens.set g (some l')
        cand := cand ++ [i]
        allowed := put .resume true p.allowed }⟩
  | resume {p p' : Proc I A K O} {i : I} {s s' : Sess A K O} (saved : Bool) : w.proc = some p →
      p.allowed .resume = true → i ∈ p.cand → look w.stores i = some (.saved s) → p'.cur = some (i, s') →
      p'.app = p.app → p'.cand = p.cand → p'.gens = p.gens → Edit s s' → s'.flags = s.flags →
      Move jobs a w ⟨if saved then write w.stores i s' else w.stores, some p'⟩
  | delete (ids : List I) : a = .delete ids →
      Move jobs a w ⟨w.stores.filter fun e => !decide (e.1 ∈ ids), w.proc⟩

theorem move_saving {jobs : Jobs K O} {a : Act I A K O} {w : World I A K O} {p p1 p2 : Proc I A K O} {i : I}
    {s s' : Sess A K O} (ck : Bool) (hp : w.proc = some p) (hc : p.cur = some (i, s))
    (ha1 : p1.app = p.app) (hc1 : p1.cand = p.cand) (hg1 : p1.gens = p.gens)
    (ha2 : p2.app = p.app) (hc2 : p2.cand = p.cand) (hg2 : p2.gens = p.gens) (he : Edit s s')
    (hf : (∀ ck, a ≠ .finalize ck) → s.flags.incomplete = true → s'.flags.incomplete = true)
    (hm1 : Calm p → Calm p1 ∧ Calm p2 ∧ (s'.flags.incomplete = true → s.flags.incomplete = true))
    (hr1 : p1.allowed .resume = true → p.allowed .resume = true)
    (hr2 : p2.allowed .resume = true → p.allowed .resume = true) :
    Move jobs a w (saving w p1 i s' ck p2).1 := by
  refine saving_ind (P := fun x => Move jobs a w x.1) w p1 i s' ck p2 ?_ ?_
  · exact .edit (p' := { p1 with cur := some (i, s') }) false hp hc rfl ha1 hc1 hg1 he hf
      (fun h => ⟨(hm1 h).1, (hm1 h).2.2⟩) hr1
  · intro _
    exact .edit (p' := { p2 with cur := some (i, s') }) true hp hc rfl ha2 hc2 hg2 he hf
      (fun h => ⟨(hm1 h).2.1, (hm1 h).2.2⟩) hr2

theorem calm_of_normal {p : Proc I A K O} (h : Calm p) {c : Assistant.Call} (ha : p.allowed c = true)
    (h1 : ended c = false) (h2 : c ≠ .resume) {q : Prop} : q := (h.no ha h1 h2).elim

/-- Every step is one of the moves. -/
theorem step_move (jobs : Jobs K O) (a : Act I A K O) (w : World I A K O) :
    Move jobs a w (step jobs a w).1 := by
  let P : World I A K O × Res I → Prop := fun x => Move jobs a w x.1
  have busy : ∀ {p : Proc I A K O} {q : Prop}, p.pc ≠ .free → Calm p → q := fun h1 h2 => absurd h2.1 h1
  show P (step jobs a w)
  cases a with
  | spawn a =>
    unfold step; dsimp only
    cases w.proc with
    | some p => exact .same
    | none => exact .born a
  | crash => exact .gone
  | startNew i =>
    refine enforce_ind (P := P) w _ _ (fun _ _ => .same) ?_
    intro p hp _ _
    try dsimp only
    by_cases hl : (look w.stores i).isSome = true
    · rw [if_pos hl]; exact .same
    · rw [if_neg hl]
      refine .create i rfl hp ?_
      cases hx : look w.stores i with
      | none => rfl
      | some c => rw [hx] at hl; simp at hl
  | started ck =>
    refine inside_ind (P := P) w _ _ (fun _ _ => .same) ?_
    intro p i s hp hpc hc
    refine move_saving ck hp hc rfl rfl rfl rfl rfl rfl Edit.rfl' (fun _ h => h) (fun h => ?_) id (fun h => by simp [started] at h)
    rw [h.1] at hpc; simp at hpc
  | listing =>
    unfold step; dsimp only
    cases hp : w.proc with
    | none => exact .same
    | some p =>
      dsimp only
      split
      · exact .same
      · exact .proc hp rfl rfl rfl (.inr rfl) id id
  | next g =>
    refine next_ind (P := P) jobs w g (fun _ _ _ => .same) ?_ ?_
    · intro p hp _ r l' cand _ _ h1 h2 h3
      exact .stop g l' cand hp h1 h2 h3
    · intro p hp _ i l' cand hc hi
      refine .yield g i l' cand hp ?_ ?_
      · rcases hc with h | ⟨h, _⟩
        · exact .inl h
        · exact .inr h
      · obtain ⟨c, h1, h2⟩ := hi
        cases c with
        | empty => simp [resumable] at h2
        | bad => simp [resumable] at h2
        | saved s =>
          simp only [resumable, Bool.and_eq_true, decide_eq_true_eq] at h2
          exact ⟨s, h1, h2.1, h2.2⟩
  | resume i loads known ck =>
    refine enforce_ind (P := P) w _ _ (fun _ _ => .same) ?_
    intro p hp _ ha
    try dsimp only
    by_cases hi : i ∉ p.cand
    · rw [if_pos hi]; exact .same
    · rw [if_neg hi]
      have hi' := Decidable.not_not.mp hi
      cases hl : look w.stores i with
      | none => exact .same
      | some c =>
        cases c with
        | empty => exact .same
        | bad => exact .same
        | saved s =>
          have hfl : (revive jobs s).flags = s.flags := by
            unfold revive
            cases s.running with
            | none => rfl
            | some k => dsimp only; split <;> rfl
          dsimp only
          split
          · exact .same
          · split
            · exact .resume (p' := { p with cur := some (i, s) }) false hp ha hi' hl rfl rfl rfl rfl Edit.rfl' rfl
            · split
              · exact .resume (p' := { p with
                  cur := some (i, s)
                  allowed := if s.flags.testplanless = true then normal else resumed }) false hp ha hi' hl rfl rfl rfl rfl
                  Edit.rfl' rfl
              · refine saving_ind (P := P) w _ _ _ _ _ ?_ ?_
                · exact .resume (p' := { p with cur := some (i, revive jobs s) }) false hp ha hi' hl rfl rfl rfl rfl
                    (revive_edit jobs s) hfl
                · intro _
                  exact .resume (p' := { p with
                    cur := some (i, revive jobs s)
                    allowed := if s.flags.testplanless = true then normal else resumed }) true hp ha hi' hl rfl rfl rfl rfl
                    (revive_edit jobs s) hfl
  | selectPlan found ck =>
    refine enforce_ind (P := P) w _ _ (fun _ _ => .same) ?_
    intro p hp _ ha
    refine withSess_ind (P := P) w p _ (fun _ _ => .same) ?_
    intro i s hc
    try dsimp only
    split
    · exact .same
    · exact move_saving ck hp hc rfl rfl rfl rfl rfl rfl Edit.rfl' (fun _ h => h)
        (fun h => calm_of_normal h ha rfl (by simp)) id (fun h => by simp [bootable] at h)
  | handPick =>
    refine enforce_ind (P := P) w _ _ (fun _ _ => .same) ?_
    intro p hp _ ha
    refine withSess_ind (P := P) w p _ (fun _ _ => .same) ?_
    intro i s hc
    exact .edit (p' := { p with
        allowed := normal
        cur := some (i, { s with flags := .picked }) }) false hp hc rfl rfl rfl rfl ⟨rfl, List.prefix_rfl⟩ (fun _ _ => rfl)
      (fun h => calm_of_normal h ha rfl (by simp)) (fun h => by simp [normal] at h)
  | bootTodo =>
    refine enforce_ind (P := P) w _ _ (fun _ _ => .same) ?_
    intro p hp _ ha
    refine withSess_ind (P := P) w p _ (fun _ _ => .same) ?_
    intro i s hc
    exact .proc (p' := { p with allowed := normal }) hp rfl rfl rfl (.inl rfl)
      (fun h => calm_of_normal h ha rfl (by simp)) (fun h => by simp [normal] at h)
  | bootstrap =>
    refine enforce_ind (P := P) w _ _ (fun _ _ => .same) ?_
    intro p hp _ ha
    refine withSess_ind (P := P) w p _ (fun _ _ => .same) ?_
    intro i s hc
    exact .proc (p' := { p with pc := .booting }) hp rfl rfl rfl (.inl rfl)
      (fun h => calm_of_normal h ha rfl (by simp)) id
  | bootRun k can ck =>
    refine inside_ind (P := P) w _ _ (fun _ _ => .same) ?_
    intro p i s hp hpc hc
    have hb : p.pc ≠ .free := by intro h; rw [h] at hpc; simp at hpc
    have he : Edit s { s with running := some k } := ⟨rfl, List.prefix_rfl⟩
    try dsimp only
    split
    · cases hx : save w.stores i { s with running := some k } ck with
      | none =>
        exact .edit (p' := { p with
            pc := .free
            allowed := put .runJob true p.allowed
            cur := some (i, { s with running := some k }) }) false hp hc rfl rfl rfl rfl he (fun _ h => h) (busy hb)
          (fun h => by simpa [put] using h)
      | some stores =>
        unfold save at hx
        split at hx
        · obtain rfl := Option.some.inj hx
          exact .edit (p' := { p with
              pc := .running true
              allowed := put .runJob true p.allowed
              cur := some (i, { s with running := some k }) }) true hp hc rfl rfl rfl rfl he (fun _ h => h) (busy hb)
            (fun h => by simpa [put] using h)
        · simp at hx
    · exact .proc (p' := { p with allowed := put .useResult true (put .runJob false p.allowed) }) hp rfl rfl rfl (.inl rfl)
        (busy hb) (fun h => by simpa [put] using h)
  | bootUse k o ck =>
    refine inside_ind (P := P) w _ _ (fun _ _ => .same) ?_
    intro p i s hp hpc hc
    have hb : p.pc ≠ .free := by intro h; rw [h] at hpc; simp at hpc
    exact move_saving ck hp hc rfl rfl rfl rfl rfl rfl (edit_results s _) (fun _ h => h) (busy hb) id
      (fun h => by simpa [put] using h)
  | booted ck =>
    refine inside_ind (P := P) w _ _ (fun _ _ => .same) ?_
    intro p i s hp hpc hc
    have hb : p.pc ≠ .free := by intro h; rw [h] at hpc; simp at hpc
    exact move_saving ck hp hc rfl rfl rfl rfl rfl rfl ⟨rfl, List.prefix_rfl⟩ (fun _ _ => rfl) (busy hb)
      (fun h => by simp [normal] at h) (fun h => by simp [normal] at h)
  | finishBoot ck =>
    refine enforce_ind (P := P) w _ _ (fun _ _ => .same) ?_
    intro p hp _ ha
    refine withSess_ind (P := P) w p _ (fun _ _ => .same) ?_
    intro i s hc
    exact move_saving ck hp hc rfl rfl rfl rfl rfl rfl ⟨rfl, List.prefix_rfl⟩ (fun _ _ => rfl)
      (fun h => calm_of_normal h ha rfl (by simp)) (fun h => by simp [normal] at h) (fun h => by simp [normal] at h)
  | runJob k can ck =>
    refine enforce_ind (P := P) w _ _ (fun _ _ => .same) ?_
    intro p hp _ ha
    refine withSess_ind (P := P) w p _ (fun _ _ => .same) ?_
    intro i s hc
    try dsimp only
    split
    · exact move_saving ck hp hc rfl rfl rfl rfl rfl rfl ⟨rfl, List.prefix_rfl⟩ (fun _ h => h)
        (fun h => calm_of_normal h ha rfl (by simp)) id id
    · exact .proc (p' := { p with allowed := put .useResult true (put .runJob false p.allowed) }) hp rfl rfl rfl (.inl rfl)
        (fun h => calm_of_normal h ha rfl (by simp)) (fun h => by simpa [put] using h)
  | ran ok ck =>
    refine inside_ind (P := P) w _ _ (fun _ _ => .same) ?_
    intro p i s hp hpc hc
    have hb : p.pc ≠ .free := by intro h; rw [h] at hpc; simp at hpc
    try dsimp only
    split
    · exact .proc (p' := { p with pc := .free }) hp rfl rfl rfl (.inl rfl) (busy hb) id
    · exact move_saving ck hp hc rfl rfl rfl rfl rfl rfl Edit.rfl' (fun _ h => h) (busy hb) id
        (fun h => by simpa [put] using h)
  | getJob =>
    refine enforce_ind (P := P) w _ _ (fun _ _ => .same) ?_
    intro p hp _ ha
    exact .proc (p' := { p with allowed := put .useResult true p.allowed }) hp rfl rfl rfl (.inl rfl)
      (fun h => calm_of_normal h ha rfl (by simp)) (fun h => by simpa [put] using h)
  | useResult k o ck =>
    refine enforce_ind (P := P) w _ _ (fun _ _ => .same) ?_
    intro p hp _ ha
    refine withSess_ind (P := P) w p _ (fun _ _ => .same) ?_
    intro i s hc
    exact move_saving ck hp hc rfl rfl rfl rfl rfl rfl (edit_results s _) (fun _ h => h)
      (fun h => calm_of_normal h ha rfl (by simp)) id (fun h => by simpa [put] using h)
  | «export» ck =>
    refine enforce_ind (P := P) w _ _ (fun _ _ => .same) ?_
    intro p hp _ ha
    refine withSess_ind (P := P) w p _ (fun _ _ => .same) ?_
    intro i s hc
    try dsimp only
    split
    · exact .same
    · exact move_saving ck hp hc rfl rfl rfl rfl rfl rfl ⟨rfl, List.prefix_rfl⟩ (fun _ h => h)
        (fun h => ⟨h, h, id⟩) id id
  | finalize ck =>
    refine enforce_ind (P := P) w _ _ (fun _ _ => .same) ?_
    intro p hp hf ha
    refine withSess_ind (P := P) w p _ (fun _ _ => .same) ?_
    intro i s hc
    try dsimp only
    split
    · exact .same
    · exact move_saving ck hp hc rfl rfl rfl rfl rfl rfl ⟨rfl, List.prefix_rfl⟩ (fun h => absurd rfl (h ck))
        (fun h => ⟨h, ⟨h.1, fun c hc => .inl hc⟩, fun h => by simp at h⟩) id (fun h => by simp [ended] at h)
  | updateBlob ck =>
    unfold step; dsimp only
    cases hp : w.proc with
    | none => exact .same
    | some p =>
      dsimp only
      split
      · exact .same
      · refine withSess_ind (P := P) w p _ (fun _ _ => .same) ?_
        intro i s hc
        exact move_saving ck hp hc rfl rfl rfl rfl rfl rfl Edit.rfl' (fun _ h => h) (fun h => ⟨h, h, id⟩) id id
  | delete ids =>
    refine enforce_ind (P := P) w _ _ (fun _ _ => .same) ?_
    intro p hp _ ha
    exact .delete ids rfl

end Verif.Life
