import Verif.Model.DepMgr

/-! Specification vocabulary and invariants for the dependency solver. -/

set_option linter.unusedSectionVars false
set_option linter.unusedSimpArgs false

namespace Verif.DepMgr

variable {J I : Type} [DecidableEq J] [DecidableEq I]

/-- `a` directly depends on the listed job `b`. -/
def DependsOn (g : Graph J I) (jobs : List J) (a b : J) : Prop :=
  b ∈ jobs ∧ ∃ ty, (ty, g.id b) ∈ g.deps a

/-- `j` is visited or transitively required by a visited job. -/
inductive Reach (g : Graph J I) (jobs visit : List J) : J → Prop where
  | base {v} : v ∈ visit → Reach g jobs visit v
  | step {a b} : Reach g jobs visit a → DependsOn g jobs a b → Reach g jobs visit b

/-- Consecutive elements are related. -/
def IsPath (R : J → J → Prop) (l : List J) : Prop :=
  ∀ i, (h : i + 1 < l.length) → R l[i] l[i + 1]

/-- Every dependency of every listed job occurs (by id) strictly earlier in the list. -/
def DepsFirst (g : Graph J I) (l : List J) : Prop :=
  ∀ pre s post, l = pre ++ s :: post → ∀ d ∈ g.deps s, d.2 ∈ pre.map g.id

theorem IsPath.drop {R : J → J → Prop} {l : List J} (h : IsPath R l) (n : Nat) :
    IsPath R (l.drop n) := by
  intro i hi
  simp only [List.length_drop] at hi
  have := h (n + i) (by omega)
  simpa [List.getElem_drop, Nat.add_assoc] using this

theorem IsPath.snoc {R : J → J → Prop} {l : List J} {a b : J} (h : IsPath R (l ++ [a]))
    (hab : R a b) : IsPath R (l ++ [a] ++ [b]) := by
  intro i hi
  simp only [List.length_append, List.length_cons, List.length_nil] at hi
  by_cases hlast : i + 1 = l.length + 1
  · have hi' : i = l.length := by omega
    subst hi'
    simpa [List.getElem_append] using hab
  · have h1 : i + 1 < (l ++ [a]).length := by simp; omega
    have := h i h1
    rw [List.getElem_append_left (by omega), List.getElem_append_left h1]
    exact this

theorem isPath_single {R : J → J → Prop} (a : J) : IsPath R [a] := by
  intro i hi; simp at hi

/-- Invariant of the solver between calls. -/
structure Inv (g : Graph J I) (jobs visit : List J) (st : St J I) : Prop where
  known : ∀ i, st.color i = none ↔ i ∉ jobs.map g.id
  black : ∀ i, st.color i = some .black ↔ i ∈ st.solution.map g.id
  sub : ∀ s ∈ st.solution, s ∈ jobs
  nodup : (st.solution.map g.id).Nodup
  order : DepsFirst g st.solution
  reach : ∀ s ∈ st.solution, Reach g jobs visit s

/-- The gray nodes are exactly those on the stack. -/
def GrayIs (g : Graph J I) (st : St J I) (stack : List J) : Prop :=
  ∀ i, st.color i = some .gray ↔ i ∈ stack.map g.id

def whites (g : Graph J I) (jobs : List J) (st : St J I) : Nat :=
  jobs.countP (fun j => st.color (g.id j) = some .white)

/-- What the error values of the search may claim. -/
def ErrOK (g : Graph J I) (jobs visit : List J) : Err J I → Prop
  | .unknown j => j ∈ visit ∧ g.id j ∉ jobs.map g.id
  | .missing j i ty => Reach g jobs visit j ∧ j ∈ jobs ∧ (ty, i) ∈ g.deps j ∧ i ∉ jobs.map g.id
  | .cycle l => 1 < l.length ∧ l.head? = l.getLast? ∧ IsPath (DependsOn g jobs) l ∧
      ∀ x ∈ l, x ∈ jobs ∧ Reach g jobs visit x
  | .duplicate _ _ => False
  | .assertion => False
  | .outOfFuel => False

/-- Facts about the job map. -/
structure MapOK (g : Graph J I) (jobs : List J) (m : List (I × J)) : Prop where
  nodup : (jobs.map g.id).Nodup
  some' : ∀ i j, m.lookup i = some j → j ∈ jobs ∧ g.id j = i
  none' : ∀ i, m.lookup i = none → i ∉ jobs.map g.id

theorem eq_of_id {g : Graph J I} {jobs : List J} (h : (jobs.map g.id).Nodup) {a b : J}
    (ha : a ∈ jobs) (hb : b ∈ jobs) (hab : g.id a = g.id b) : a = b := by
  induction jobs with
  | nil => simp at ha
  | cons x xs ih =>
    simp only [List.map_cons, List.nodup_cons, List.mem_map, not_exists, not_and] at h
    simp only [List.mem_cons] at ha hb
    rcases ha with rfl | ha <;> rcases hb with rfl | hb
    · rfl
    · exact absurd hab.symm (h.1 _ hb)
    · exact absurd hab (h.1 _ ha)
    · exact ih h.2 ha hb

theorem countP_lt_of {α : Type} (p q : α → Bool) (l : List α) (hqp : ∀ x ∈ l, q x → p x)
    (a : α) (ha : a ∈ l) (hp : p a = true) (hq : q a = false) : l.countP q < l.countP p := by
  induction l with
  | nil => simp at ha
  | cons x xs ih =>
    have hle : xs.countP q ≤ xs.countP p :=
      List.countP_mono_left (fun y hy => hqp y (List.mem_cons_of_mem _ hy))
    have hx := hqp x (List.mem_cons_self)
    simp only [List.mem_cons] at ha
    rcases ha with rfl | ha
    · simp [List.countP_cons, hp, hq]; omega
    · have := ih (fun y hy => hqp y (List.mem_cons_of_mem _ hy)) ha
      simp only [List.countP_cons]
      cases hqx : q x
      · simp; omega
      · simp [hx hqx]; omega

omit [DecidableEq J] in
theorem whites_mono {g : Graph J I} {jobs : List J} {st st' : St J I}
    (h : ∀ i, st'.color i = some .white → st.color i = some .white) :
    whites g jobs st' ≤ whites g jobs st := by
  apply List.countP_mono_left
  intro x _ hx
  simp only [decide_eq_true_eq] at *
  exact h _ hx

theorem mkCycle_ok {g : Graph J I} {jobs vis : List J} {stack : List J} {job : J}
    (hin : job ∈ stack) (hp : IsPath (DependsOn g jobs) (stack ++ [job]))
    (hall : ∀ x ∈ stack, x ∈ jobs ∧ Reach g jobs vis x) :
    ErrOK g jobs vis (mkCycle (stack ++ [job]) job) := by
  have hm : job ∈ stack ++ [job] := by simp
  have hidx : (stack ++ [job]).idxOf job = stack.idxOf job := by
    rw [List.idxOf_append]; simp [hin]
  have hlt : stack.idxOf job < stack.length := List.idxOf_lt_length_of_mem hin
  have hlen : 1 < ((stack ++ [job]).drop (stack.idxOf job)).length := by
    simp; omega
  have hh : ((stack ++ [job]).drop (stack.idxOf job)).head? = some job := by
    rw [List.head?_drop, List.getElem?_append_left hlt, List.getElem?_eq_getElem hlt]
    simp
  have hl : ((stack ++ [job]).drop (stack.idxOf job)).getLast? = some job := by
    rw [List.getLast?_drop]
    simp; omega
  simp only [mkCycle, hm, if_true, hidx, hlen, hh, hl, and_self]
  refine ⟨hlen, by rw [hh, hl], hp.drop _, ?_⟩
  intro x hx
  have := List.mem_of_mem_drop hx
  simp only [List.mem_append, List.mem_singleton] at this
  rcases this with h | rfl
  · exact hall _ h
  · exact hall _ hin

theorem depsFirst_snoc {g : Graph J I} {l : List J} {s : J} (h : DepsFirst g l)
    (hs : ∀ d ∈ g.deps s, d.2 ∈ l.map g.id) : DepsFirst g (l ++ [s]) := by
  intro pre x post heq d hd
  rcases List.append_eq_append_iff.mp heq with ⟨t, ht1, ht2⟩ | ⟨t, ht1, ht2⟩
  · -- pre = l ++ t, [s] = t ++ x :: post
    cases t with
    | nil => simp at ht2; obtain ⟨rfl, rfl⟩ := ht2; simp at ht1; subst ht1; exact hs _ hd
    | cons y ys => simp at ht2
  · cases t with
    | nil => simp at ht2; obtain ⟨rfl, rfl⟩ := ht2; simp at ht1; subst ht1; exact hs _ hd
    | cons y ys =>
      simp at ht2
      obtain ⟨rfl, rfl⟩ := ht2
      exact h pre x ys ht1 d hd

/-- Post-condition of a successful (sub)search. -/
structure Post (g : Graph J I) (jobs vis stack : List J) (st st' : St J I) : Prop where
  inv : Inv g jobs vis st'
  gray : GrayIs g st' stack
  white : ∀ i, st'.color i = some .white → st.color i = some .white
  black : ∀ i, st.color i = some .black → st'.color i = some .black

theorem depsLoop_spec {g : Graph J I} {jobs vis : List J} {m : List (I × J)}
    (hm : MapOK g jobs m) (rec : J → List J → St J I → Except (Err J I) (St J I)) (n : Nat)
    (hrec : ∀ job stack st, Inv g jobs vis st → GrayIs g st stack →
      IsPath (DependsOn g jobs) (stack ++ [job]) → (∀ x ∈ stack, x ∈ jobs ∧ Reach g jobs vis x) →
      job ∈ jobs → Reach g jobs vis job → whites g jobs st < n →
      match rec job (stack ++ [job]) st with
      | .ok st' => Post g jobs vis stack st st' ∧ st'.color (g.id job) = some .black
      | .error e => ErrOK g jobs vis e)
    (job : J) (hjob : job ∈ jobs) (hr : Reach g jobs vis job) (stack : List J)
    (hp : IsPath (DependsOn g jobs) (stack ++ [job]))
    (hall : ∀ x ∈ stack ++ [job], x ∈ jobs ∧ Reach g jobs vis x) :
    ∀ (ds : List (DepType × I)) (st : St J I), (∀ d ∈ ds, d ∈ g.deps job) → Inv g jobs vis st →
      GrayIs g st (stack ++ [job]) → whites g jobs st < n →
      match depsLoop m rec job (stack ++ [job]) ds st with
      | .ok st' => Post g jobs vis (stack ++ [job]) st st' ∧
          ∀ d ∈ ds, st'.color d.2 = some .black
      | .error e => ErrOK g jobs vis e := by
  intro ds
  induction ds with
  | nil =>
    intro st _ hinv hg _
    simp only [depsLoop]
    exact ⟨⟨hinv, hg, fun _ h => h, fun _ h => h⟩, by simp⟩
  | cons d rest ih =>
    obtain ⟨ty, i⟩ := d
    intro st hds hinv hg hw
    simp only [depsLoop]
    cases hl : m.lookup i with
    | none =>
      exact ⟨hr, hjob, hds _ List.mem_cons_self, hm.none' i hl⟩
    | some next =>
      obtain ⟨hnj, hni⟩ := hm.some' i next hl
      have hdep : DependsOn g jobs job next :=
        ⟨hnj, ty, by rw [hni]; exact hds _ List.mem_cons_self⟩
      have h1 := hrec next (stack ++ [job]) st hinv hg (hp.snoc hdep) hall hnj
        (.step hr hdep) hw
      simp only
      cases hv : rec next (stack ++ [job] ++ [next]) st with
      | error e => rw [hv] at h1; exact h1
      | ok st1 =>
        rw [hv] at h1
        obtain ⟨hpost, hblack⟩ := h1
        have h2 := ih st1 (fun d hd => hds d (List.mem_cons_of_mem _ hd)) hpost.inv hpost.gray
          (Nat.lt_of_le_of_lt (whites_mono hpost.white) hw)
        simp only
        cases hloop : depsLoop m rec job (stack ++ [job]) rest st1 with
        | error e => rw [hloop] at h2; exact h2
        | ok st2 =>
          rw [hloop] at h2
          obtain ⟨hpost2, hb2⟩ := h2
          refine ⟨⟨hpost2.inv, hpost2.gray, fun i h => hpost.white i (hpost2.white i h),
            fun i h => hpost2.black i (hpost.black i h)⟩, ?_⟩
          intro d hd
          simp only [List.mem_cons] at hd
          rcases hd with rfl | hd
          · rw [← hni]; exact hpost2.black _ hblack
          · exact hb2 d hd

theorem visit_spec {g : Graph J I} {jobs vis : List J} {m : List (I × J)}
    (hm : MapOK g jobs m) : ∀ (n : Nat) (job : J) (stack : List J) (st : St J I),
      Inv g jobs vis st → GrayIs g st stack →
      IsPath (DependsOn g jobs) (stack ++ [job]) → (∀ x ∈ stack, x ∈ jobs ∧ Reach g jobs vis x) →
      (job ∈ jobs ∨ (job ∈ vis ∧ g.id job ∉ jobs.map g.id)) → Reach g jobs vis job →
      whites g jobs st < n →
      match visit g m n job (stack ++ [job]) st with
      | .ok st' => Post g jobs vis stack st st' ∧ st'.color (g.id job) = some .black
      | .error e => ErrOK g jobs vis e := by
  intro n
  induction n with
  | zero => intro job stack st _ _ _ _ _ _ hw; omega
  | succ n ih =>
    intro job stack st hinv hg hp hall hjob hr hw
    simp only [visit]
    cases hc : st.color (g.id job) with
    | none =>
      have hni := (hinv.known _).mp hc
      rcases hjob with h | h
      · exact absurd (List.mem_map_of_mem h) hni
      · exact h
    | some c =>
      have hjob' : job ∈ jobs := by
        rcases hjob with h | h
        · exact h
        · rw [(hinv.known _).mpr h.2] at hc; simp at hc
      cases c with
      | black => exact ⟨⟨hinv, hg, fun _ h => h, fun _ h => h⟩, hc⟩
      | gray =>
        have hin := (hg _).mp hc
        rw [List.mem_map] at hin
        obtain ⟨x, hx, hxid⟩ := hin
        have : x = job := eq_of_id hm.nodup (hall x hx).1 hjob' hxid
        subst this
        exact mkCycle_ok hx hp hall
      | white =>
        have hinv1 : Inv g jobs vis (st.paint (g.id job) .gray) := by
          refine ⟨?_, ?_, hinv.sub, hinv.nodup, hinv.order, hinv.reach⟩
          · intro i
            simp only [St.paint]
            split
            · next h => subst h; simpa using ⟨job, hjob', rfl⟩
            · exact hinv.known i
          · intro i
            simp only [St.paint]
            split
            · next h =>
              subst h
              have := (hinv.black (g.id job))
              rw [hc] at this
              constructor
              · intro h; simp at h
              · intro h; have := this.mpr h; simp at this
            · exact hinv.black i
        have hg1 : GrayIs g (st.paint (g.id job) .gray) (stack ++ [job]) := by
          intro i
          simp only [St.paint, List.map_append, List.map_cons, List.map_nil, List.mem_append,
            List.mem_singleton]
          split
          · next h => simp [h]
          · next h => rw [hg i]; simp [h]
        have hw1 : whites g jobs (st.paint (g.id job) .gray) < n := by
          have : whites g jobs (st.paint (g.id job) .gray) < whites g jobs st := by
            apply countP_lt_of _ _ _ _ job hjob'
            · simp [hc]
            · simp [St.paint]
            · intro x _ hx
              simp only [St.paint, decide_eq_true_eq] at hx ⊢
              split at hx
              · simp at hx
              · exact of_decide_eq_true hx
          omega
        have hall1 : ∀ x ∈ stack ++ [job], x ∈ jobs ∧ Reach g jobs vis x := by
          intro x hx
          simp only [List.mem_append, List.mem_singleton] at hx
          rcases hx with h | rfl
          · exact hall x h
          · exact ⟨hjob', hr⟩
        have hloop := depsLoop_spec hm (visit g m n) n
          (fun job stack st h1 h2 h3 h4 h5 h6 h7 => ih job stack st h1 h2 h3 h4 (.inl h5) h6 h7)
          job hjob' hr stack hp hall1 (g.deps job) _ (fun d hd => hd) hinv1 hg1 hw1
        simp only
        cases hv : depsLoop m (visit g m n) job (stack ++ [job]) (g.deps job)
            (st.paint (g.id job) .gray) with
        | error e => rw [hv] at hloop; exact hloop
        | ok st1 =>
          rw [hv] at hloop
          obtain ⟨hpost, hblack⟩ := hloop
          have hgj : st1.color (g.id job) = some .gray := (hpost.gray _).mpr (by simp)
          have hnotin : g.id job ∉ st1.solution.map g.id := by
            intro h
            rw [← hpost.inv.black, hgj] at h
            simp at h
          have hstk : g.id job ∉ stack.map g.id := by
            intro h
            rw [← hg, hc] at h
            simp at h
          refine ⟨⟨⟨?_, ?_, ?_, ?_, ?_, ?_⟩, ?_, ?_, ?_⟩, ?_⟩
          · intro i
            simp only [St.paint]
            split
            · next h => subst h; simpa using ⟨job, hjob', rfl⟩
            · exact hpost.inv.known i
          · intro i
            simp only [St.paint, List.map_append, List.map_cons, List.map_nil, List.mem_append,
              List.mem_singleton]
            split
            · next h => simp [h]
            · next h => rw [hpost.inv.black i]; simp [h]
          · intro s hs
            simp only [St.paint, List.mem_append, List.mem_singleton] at hs
            rcases hs with h | rfl
            · exact hpost.inv.sub _ h
            · exact hjob'
          · simp only [St.paint, List.map_append, List.map_cons, List.map_nil]
            rw [List.nodup_append]
            refine ⟨hpost.inv.nodup, by simp, ?_⟩
            intro a ha b hb
            simp only [List.mem_singleton] at hb
            subst hb
            intro hab
            subst hab
            exact hnotin ha
          · apply depsFirst_snoc hpost.inv.order
            intro d hd
            exact (hpost.inv.black _).mp (hblack d hd)
          · intro s hs
            simp only [St.paint, List.mem_append, List.mem_singleton] at hs
            rcases hs with h | rfl
            · exact hpost.inv.reach _ h
            · exact hr
          · intro i
            simp only [St.paint]
            split
            · next h => subst h; simpa using hstk
            · next h =>
              rw [hpost.gray i]
              simp [h]
          · intro i
            simp only [St.paint]
            split
            · intro h; simp at h
            · next hne =>
              intro h
              have := hpost.white i h
              simp only [St.paint, hne, if_false] at this
              exact this
          · intro i h
            simp only [St.paint]
            split
            · rfl
            · next hne =>
              apply hpost.black
              simp only [St.paint, hne, if_false]
              exact h
          · simp [St.paint]

theorem solveLoop_spec {g : Graph J I} {jobs vis : List J} {m : List (I × J)}
    (hm : MapOK g jobs m) (n : Nat) : ∀ (vs : List J) (st : St J I),
      (∀ v ∈ vs, v ∈ vis) → (∀ v ∈ vs, g.id v ∈ jobs.map g.id → v ∈ jobs) →
      Inv g jobs vis st → GrayIs g st [] → whites g jobs st < n →
      match solveLoop g m n vs st with
      | .ok st' => Post g jobs vis [] st st' ∧ ∀ v ∈ vs, st'.color (g.id v) = some .black
      | .error e => ErrOK g jobs vis e := by
  intro vs
  induction vs with
  | nil =>
    intro st _ _ hinv hg _
    exact ⟨⟨hinv, hg, fun _ h => h, fun _ h => h⟩, by simp⟩
  | cons v rest ih =>
    intro st hsub hcons hinv hg hw
    simp only [solveLoop]
    have hv0 : v ∈ jobs ∨ (v ∈ vis ∧ g.id v ∉ jobs.map g.id) := by
      by_cases h : g.id v ∈ jobs.map g.id
      · exact .inl (hcons v List.mem_cons_self h)
      · exact .inr ⟨hsub v List.mem_cons_self, h⟩
    have h1 := visit_spec hm n v [] st hinv hg (isPath_single v) (by simp) hv0
      (.base (hsub v List.mem_cons_self)) hw
    simp only [List.nil_append] at h1
    cases hvis : visit g m n v [v] st with
    | error e => rw [hvis] at h1; exact h1
    | ok st1 =>
      rw [hvis] at h1
      obtain ⟨hpost, hblack⟩ := h1
      have h2 := ih st1 (fun x hx => hsub x (List.mem_cons_of_mem _ hx))
        (fun x hx => hcons x (List.mem_cons_of_mem _ hx)) hpost.inv hpost.gray
        (Nat.lt_of_le_of_lt (whites_mono hpost.white) hw)
      simp only
      cases hl : solveLoop g m n rest st1 with
      | error e => rw [hl] at h2; exact h2
      | ok st2 =>
        rw [hl] at h2
        obtain ⟨hpost2, hb2⟩ := h2
        refine ⟨⟨hpost2.inv, hpost2.gray, fun i h => hpost.white i (hpost2.white i h),
          fun i h => hpost2.black i (hpost.black i h)⟩, ?_⟩
        intro x hx
        simp only [List.mem_cons] at hx
        rcases hx with rfl | hx
        · exact hpost2.black _ hblack
        · exact hb2 x hx

theorem lookup_pairs (g : Graph J I) (l : List J) (i : I) :
    (l.map (fun j => (g.id j, j))).lookup i = l.find? (fun j => i == g.id j) := by
  induction l with
  | nil => rfl
  | cons x xs ih =>
    simp only [List.map_cons, List.lookup_cons, List.find?_cons]
    split <;> simp_all

theorem getJobMapAux_spec {g : Graph J I} : ∀ (rest done : List J),
    (done.map g.id).Nodup →
    match getJobMapAux g rest (done.map (fun j => (g.id j, j))) with
    | .ok m => m = (done ++ rest).map (fun j => (g.id j, j)) ∧ ((done ++ rest).map g.id).Nodup
    | .error e => ∃ pre a mid b post, done ++ rest = pre ++ a :: mid ++ b :: post ∧
        g.id a = g.id b ∧ e = .duplicate a b := by
  intro rest
  induction rest with
  | nil => intro done hd; simp only [getJobMapAux, List.append_nil]; simp [hd]
  | cons job rest ih =>
    intro done hd
    simp only [getJobMapAux, lookup_pairs]
    cases hf : done.find? (fun j => g.id job == g.id j) with
    | some first =>
      simp only
      have h1 := List.find?_some hf
      have h2 := List.mem_of_find?_eq_some hf
      obtain ⟨pre, mid, rfl⟩ := List.append_of_mem h2
      refine ⟨pre, first, mid, job, rest, by simp, ?_, rfl⟩
      simpa using (beq_iff_eq.mp h1).symm
    | none =>
      simp only
      have hnew : ((done ++ [job]).map g.id).Nodup := by
        rw [List.map_append, List.nodup_append]
        refine ⟨hd, by simp, ?_⟩
        intro a ha b hb hab
        simp only [List.map_cons, List.map_nil, List.mem_singleton] at hb
        subst hb; subst hab
        rw [List.mem_map] at ha
        obtain ⟨x, hx, hxi⟩ := ha
        have := List.find?_eq_none.mp hf x hx
        simp [hxi] at this
      have := ih (done ++ [job]) hnew
      simpa using this

theorem getJobMap_ok {g : Graph J I} {jobs : List J} {m : List (I × J)}
    (h : getJobMap g jobs = .ok m) : MapOK g jobs m := by
  have hs := getJobMapAux_spec (g := g) jobs [] (by simp)
  simp only [List.map_nil, List.nil_append] at hs
  rw [show getJobMapAux g jobs [] = getJobMap g jobs from rfl, h] at hs
  obtain ⟨rfl, hnd⟩ := hs
  refine ⟨hnd, ?_, ?_⟩
  · intro i j hl
    rw [lookup_pairs] at hl
    have h1 := List.find?_some hl
    exact ⟨List.mem_of_find?_eq_some hl, (beq_iff_eq.mp h1).symm⟩
  · intro i hl hin
    rw [lookup_pairs] at hl
    rw [List.mem_map] at hin
    obtain ⟨x, hx, hxi⟩ := hin
    have := List.find?_eq_none.mp hl x hx
    simp [hxi] at this

theorem initSt_inv (g : Graph J I) (jobs vis : List J) : Inv g jobs vis (initSt g jobs) := by
  refine ⟨?_, ?_, ?_, ?_, ?_, ?_⟩
  · intro i; simp only [initSt]; split <;> simp_all
  · intro i; simp only [initSt]; split <;> simp
  · simp [initSt]
  · simp [initSt]
  · intro pre s post h; simp [initSt] at h
  · simp [initSt]

theorem initSt_gray (g : Graph J I) (jobs : List J) : GrayIs g (initSt g jobs) [] := by
  intro i; simp only [initSt]; split <;> simp

theorem resolve_spec (g : Graph J I) (jobs : List J) (visitList : Option (List J))
    (hcons : ∀ v ∈ visitList.getD jobs, g.id v ∈ jobs.map g.id → v ∈ jobs)  :
    match resolve g jobs visitList with
    | .ok sol => (jobs.map g.id).Nodup ∧ (∀ v ∈ visitList.getD jobs, v ∈ sol) ∧
        (sol.map g.id).Nodup ∧ DepsFirst g sol ∧
        (∀ s ∈ sol, s ∈ jobs ∧ Reach g jobs (visitList.getD jobs) s)
    | .error (.duplicate a b) => ∃ pre mid post, jobs = pre ++ a :: mid ++ b :: post ∧
        g.id a = g.id b
    | .error e => (jobs.map g.id).Nodup ∧ ErrOK g jobs (visitList.getD jobs) e := by
  simp only [resolve]
  cases hmap : getJobMap g jobs with
  | error e =>
    have hs := getJobMapAux_spec (g := g) jobs [] (by simp)
    simp only [List.map_nil, List.nil_append] at hs
    rw [show getJobMapAux g jobs [] = getJobMap g jobs from rfl, hmap] at hs
    obtain ⟨pre, a, mid, b, post, h1, h2, rfl⟩ := hs
    exact ⟨pre, mid, post, h1, h2⟩
  | ok m =>
    have hm := getJobMap_ok hmap
    have hw : whites g jobs (initSt g jobs) < jobs.length + 1 :=
      Nat.lt_succ_of_le List.countP_le_length
    have h := solveLoop_spec (vis := visitList.getD jobs) hm (jobs.length + 1)
      (visitList.getD jobs) (initSt g jobs)
      (fun v hv => hv) hcons (initSt_inv g jobs _) (initSt_gray g jobs) hw
    simp only
    cases hs : solveLoop g m (jobs.length + 1) (visitList.getD jobs) (initSt g jobs) with
    | error e =>
      rw [hs] at h
      cases e with
      | duplicate a b => exact absurd h id
      | _ => exact ⟨hm.nodup, h⟩
    | ok st =>
      rw [hs] at h
      obtain ⟨hpost, hb⟩ := h
      refine ⟨hm.nodup, ?_, hpost.inv.nodup, hpost.inv.order,
        fun s hs => ⟨hpost.inv.sub s hs, hpost.inv.reach s hs⟩⟩
      intro v hv
      have h1 := (hpost.inv.black _).mp (hb v hv)
      rw [List.mem_map] at h1
      obtain ⟨s, hs1, hs2⟩ := h1
      have hsj := hpost.inv.sub s hs1
      have hvj : v ∈ jobs := hcons v hv (hs2 ▸ List.mem_map_of_mem hsj)
      rw [eq_of_id hm.nodup hvj hsj hs2.symm]
      exact hs1

end Verif.DepMgr
