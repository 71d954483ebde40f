import Verif.Model.PodClass
import Verif.Lemmas.Sort
import Verif.Props.Pod

/-!
# C108: classes of plain old data, their order and copies of objects
-/

namespace Verif.PodClass

open Verif.Pod (Val Err Field Obj)

/-! ## Classes -/

/-- The names of fields. -/
def names (fs : List Field) : List Str := fs.map (·.name)

theorem addFields_spec (cls : Str) : ∀ (fs : List Field) (c : Coll), c.origin.map (·.1) = names c.fields →
    (∃ c', addFields cls fs c = .ok c' ∧ c'.fields = c.fields ++ fs ∧ c'.origin.map (·.1) = names c'.fields ∧
      (names fs).Nodup ∧ ∀ n ∈ names fs, n ∉ names c.fields) ∨
    (addFields cls fs c = .error .typeError ∧ ¬ ((names fs).Nodup ∧ ∀ n ∈ names fs, n ∉ names c.fields)) := by
  intro fs
  induction fs with
  | nil => intro c hc; exact .inl ⟨c, rfl, by simp, hc, by simp [names], by simp [names]⟩
  | cons f fs ih =>
    intro c hc
    have hl : (c.origin.lookup f.name).isSome = true ↔ f.name ∈ names c.fields := by
      rw [← hc]
      generalize c.origin = l
      induction l with
      | nil => simp
      | cons e l ih =>
        rw [List.lookup]
        by_cases he : f.name = e.1
        · rw [beq_iff_eq.2 he]; simp [he]
        · rw [beq_eq_false_iff_ne.2 he]; simp [he, ih]
    unfold addFields addField
    by_cases h : f.name ∈ names c.fields
    · rw [if_pos (hl.2 h)]
      exact .inr ⟨rfl, fun g => g.2 f.name (by simp [names]) h⟩
    · rw [if_neg (fun g => h (hl.1 g))]
      dsimp only [Except.bind]
      rcases ih ⟨c.fields ++ [f], c.origin ++ [(f.name, cls)]⟩ (by simp [names] at hc ⊢; exact hc) with
        ⟨c', h1, h2, h3, h4, h5⟩ | ⟨h1, h2⟩
      · refine .inl ⟨c', h1, by simp [h2], h3, ?_, ?_⟩
        · simp only [names, List.map_cons, List.nodup_cons]
          refine ⟨fun hm => ?_, h4⟩
          have := h5 _ hm
          simp [names] at this
        · intro n hn
          simp only [names, List.map_cons, List.mem_cons] at hn
          rcases hn with rfl | hn
          · exact h
          · intro hm
            exact h5 n hn (by simp only [names, List.map_append, List.mem_append]; exact .inl hm)
      · refine .inr ⟨h1, fun g => h2 ⟨?_, ?_⟩⟩
        · have := g.1
          simp only [names, List.map_cons, List.nodup_cons] at this
          exact this.2
        · intro n hn hm
          simp only [names, List.map_append, List.mem_append, List.map_cons, List.map_nil,
            List.mem_singleton] at hm
          rcases hm with hm | rfl
          · exact g.2 n (by simp only [names, List.map_cons, List.mem_cons]; exact .inr hn) hm
          · have := g.1
            simp only [names, List.map_cons, List.nodup_cons] at this
            exact this.1 hn

/-- The fields that base classes bring, in the order of the base classes. -/
def inherited (bases : List (Option Cls)) : List Field := bases.flatMap fun b => (b.map (·.fields)).getD []

theorem inspectBases_spec : ∀ (bs : List (Option Cls)) (c : Coll), c.origin.map (·.1) = names c.fields →
    (names c.fields).Nodup →
    (∃ c', inspectBases bs c = .ok c' ∧ c'.fields = c.fields ++ inherited bs ∧ c'.origin.map (·.1) = names c'.fields ∧
      (names c'.fields).Nodup) ∨
    (inspectBases bs c = .error .typeError ∧ ¬ (names (c.fields ++ inherited bs)).Nodup) := by
  intro bs
  induction bs with
  | nil => intro c hc hn; exact .inl ⟨c, rfl, by simp [inherited], hc, hn⟩
  | cons b bs ih =>
    intro c hc hn
    cases b with
    | none =>
      rcases ih c hc hn with ⟨c', h⟩ | h
      · exact .inl ⟨c', by simpa [inspectBases, inherited] using h⟩
      · exact .inr (by simpa [inspectBases, inherited] using h)
    | some b =>
      unfold inspectBases
      have hin : inherited (some b :: bs) = b.fields ++ inherited bs := by simp [inherited]
      rcases addFields_spec b.name b.fields c hc with ⟨c1, h1, h2, h3, h4, h5⟩ | ⟨h1, h2⟩
      · rw [h1]
        dsimp only [Except.bind]
        have hn1 : (names c1.fields).Nodup := by
          rw [h2, names, List.map_append, List.nodup_append]
          exact ⟨hn, h4, fun a ha b hb e => h5 b hb (e ▸ ha)⟩
        rcases ih c1 h3 hn1 with ⟨c', g1, g2, g3, g4⟩ | ⟨g1, g2⟩
        · exact .inl ⟨c', g1, by rw [g2, h2, hin, List.append_assoc], g3, g4⟩
        · exact .inr ⟨g1, by rw [h2, List.append_assoc, ← hin] at g2; exact g2⟩
      · rw [h1]
        refine .inr ⟨rfl, fun g => h2 ?_⟩
        rw [hin, ← List.append_assoc, names, List.map_append, List.map_append, List.nodup_append] at g
        have g1 := g.1
        rw [List.nodup_append] at g1
        exact ⟨g1.2.1, fun n hn' hc' => g1.2.2 n hc' n hn' rfl⟩

/-- The fields of a class body in the order in which they were made: each field of the body, with its name, and a field
that was made before another one stands before it. -/
structure Declared (ns : List (Str × Option Decl)) (fs : List (Nat × Field)) : Prop where
  perm : fs.Perm (ns.filterMap fun e => e.2.map fun d => (d.counter, { d.field with name := e.1 }))
  order : fs.Pairwise fun a b => a.1 ≤ b.1

theorem bodyFields_eq (ns : List (Str × Option Decl)) :
    bodyFields ns = ns.filterMap fun e => e.2.map fun d => (d.counter, { d.field with name := e.1 }) := by
  induction ns with
  | nil => rfl
  | cons e ns ih =>
    obtain ⟨n, d⟩ := e
    cases d with
    | none => simp [bodyFields, ih]
    | some d => simp [bodyFields, ih, gainName]

theorem sort_declared (ns : List (Str × Option Decl)) : Declared ns (sortFields (bodyFields ns)) := by
  constructor
  · unfold sortFields
    rw [← bodyFields_eq]
    exact Sort.sortBy_perm _
  · unfold sortFields
    have := Sort.sortBy_sorted (le := fun a b : Nat × Field => decide (a.1 ≤ b.1))
      (fun a b => by simp; omega) (fun a b c => by simp; omega) (bodyFields ns)
    exact this.imp (by simp)

/-- With numbers that differ, as all numbers of fields do, there is one such order. -/
theorem declared_unique {ns : List (Str × Option Decl)} {fs gs : List (Nat × Field)} (hf : Declared ns fs)
    (hg : Declared ns gs) (hn : (fs.map (·.1)).Nodup) : fs = gs := by
  have hp : fs.Perm gs := hf.perm.trans hg.perm.symm
  refine hp.eq_of_pairwise (le := fun a b => a.1 ≤ b.1) (fun a b ha hb h1 h2 => ?_) hf.order hg.order
  have he : a.1 = b.1 := Nat.le_antisymm h1 h2
  have hb' : b ∈ fs := hp.mem_iff.2 hb
  clear hf hg hp hb
  induction fs with
  | nil => simp at ha
  | cons x fs ih =>
    simp only [List.map_cons, List.nodup_cons] at hn
    rcases List.mem_cons.1 ha with h3 | h3 <;> rcases List.mem_cons.1 hb' with h4 | h4
    · rw [h3, h4]
    · exact absurd (List.mem_map.2 ⟨b, h4, by rw [← he, h3]⟩) hn.1
    · exact absurd (List.mem_map.2 ⟨a, h3, by rw [he, h4]⟩) hn.1
    · exact ih hn.2 h3 h4

/-- **C108**: a class has the fields of its base classes, in the order of these classes, and then its own in the order
in which they were made; a class cannot be made exactly if a name would belong to two fields, which is a `TypeError`, or
begins with an underscore, which is a `ValueError`. -/
theorem C108_class (name : Str) (bases : List (Option Cls)) (ns : List (Str × Option Decl)) :
    ∃ own, Declared ns own ∧
      mkClass name bases ns =
        if ¬ (names (inherited bases ++ own.map (·.2))).Nodup then .error .typeError
        else if ∃ f ∈ inherited bases ++ own.map (·.2), ['_'] <+: f.name then .error .valueError
        else .ok ⟨name, inherited bases ++ own.map (·.2)⟩ := by
  refine ⟨_, sort_declared ns, ?_⟩
  unfold mkClass
  have hns : ∀ c, inspectNamespace ns name c = addFields name ((sortFields (bodyFields ns)).map (·.2)) c := fun c => rfl
  generalize (sortFields (bodyFields ns)).map (·.2) = own at hns
  rcases inspectBases_spec bases Coll.empty rfl (by simp [Coll.empty, names]) with ⟨c, h1, h2, h3, h4⟩ | ⟨h1, h2⟩
  · rw [h1]
    dsimp only [Except.bind]
    rw [hns]
    simp only [Coll.empty, List.nil_append] at h2
    rcases addFields_spec name own c h3 with ⟨c', g1, g2, g3, g4, g5⟩ | ⟨g1, g2⟩
    · rw [g1]
      have hnd : (names (inherited bases ++ own)).Nodup := by
        rw [h2] at h4 g5
        rw [names, List.map_append, List.nodup_append]
        exact ⟨h4, g4, fun a ha b hb e => g5 b hb (e ▸ ha)⟩
      rw [if_neg (fun g => g hnd)]
      dsimp only
      rw [g2, h2]
      have hu : namedtupleOk (inherited bases ++ own) = true ↔ ¬ ∃ f ∈ inherited bases ++ own, ['_'] <+: f.name := by
        unfold namedtupleOk
        simp only [List.all_eq_true, decide_eq_true_eq, not_exists, not_and]
        refine forall_congr' fun f => forall_congr' fun _ => ?_
        cases f.name with
        | nil => simp
        | cons c l => simp [List.cons_prefix_cons, eq_comm]
      by_cases hb : ∃ f ∈ inherited bases ++ own, ['_'] <+: f.name
      · rw [if_pos hb, if_neg (fun g => hu.1 g hb)]
      · rw [if_neg hb, if_pos (hu.2 hb)]
    · rw [g1, if_pos]
      intro g
      rw [names, List.map_append, List.nodup_append] at g
      rw [h2] at g2
      exact g2 ⟨g.2.1, fun n hn hm => g.2.2 n hm n hn rfl⟩
  · rw [h1, if_pos]
    · rfl
    · intro g
      rw [names, List.map_append, List.nodup_append] at g
      exact h2 (by simpa [Coll.empty, names] using g.1)

/-- Classes that can be made: from nothing, or from classes that can be made (and others that are no POD classes). -/
inductive Made : Cls → Prop
  | mk {name bases ns c} : (∀ b ∈ bases, ∀ d, b = some d → Made d) → mkClass name bases ns = .ok c → Made c

/-- **C108**: in every class, however derived, no two fields have one name, and no name begins with an underscore; so
objects can be constructed as C53 says. -/
theorem C108_names {c : Cls} (h : Made c) : (names c.fields).Nodup ∧ ∀ f ∈ c.fields, ¬ ['_'] <+: f.name := by
  obtain ⟨_, h⟩ := h
  rename_i name bases ns _
  obtain ⟨own, _, e⟩ := C108_class name bases ns
  rw [e] at h
  split at h
  · cases h
  · split at h
    · cases h
    · rename_i h1 h2
      cases h
      simp only [Classical.not_not] at h1
      exact ⟨h1, fun f hf g => h2 ⟨f, hf, g⟩⟩

/-- One class is derived from another in so many steps. -/
inductive Derived (a : Cls) : Cls → Prop
  | self : Derived a a
  | step {b name bases ns c} : Derived a b → some b ∈ bases → mkClass name bases ns = .ok c → Derived a c

/-- **C108**: a class has all the fields of the classes that it is derived from, unchanged and in the same order. -/
theorem C108_inherits {a c : Cls} (h : Derived a c) : a.fields <:+: c.fields := by
  induction h with
  | self => exact List.infix_refl _
  | @step b name bases ns c _ hb hc ih =>
    refine ih.trans ?_
    obtain ⟨own, _, e⟩ := C108_class name bases ns
    rw [e] at hc
    split at hc
    · cases hc
    · split at hc
      · cases hc
      · cases hc
        dsimp only
        refine List.IsInfix.trans ?_ (List.prefix_append _ _).isInfix
        obtain ⟨l, r, rfl⟩ := List.append_of_mem hb
        refine ⟨inherited l, inherited r, ?_⟩
        simp [inherited]

/-! ## Equality -/

variable {V : Type}

/-- Equality of values is an equivalence. -/
structure Ops.Sane (o : Ops V) : Prop where
  refl : ∀ a, o.eq a a = true
  symm : ∀ a b, o.eq a b = true → o.eq b a = true
  trans : ∀ a b c, o.eq a b = true → o.eq b c = true → o.eq a c = true

/-- Two lists of values agree at all places. -/
def Agree (o : Ops V) (a b : List V) : Prop :=
  a.length = b.length ∧ ∀ (i : Nat) (x y : V), a[i]? = some x → b[i]? = some y → o.eq x y = true

theorem tupleEq_iff (o : Ops V) : ∀ a b : List V, tupleEq o a b = true ↔ Agree o a b := by
  intro a
  induction a with
  | nil =>
    intro b
    cases b <;> simp [tupleEq, Agree]
  | cons x a ih =>
    intro b
    cases b with
    | nil => simp [tupleEq, Agree]
    | cons y b =>
      simp only [tupleEq, Bool.and_eq_true, ih, Agree, List.length_cons, Nat.add_right_cancel_iff]
      constructor
      · rintro ⟨h1, h2, h3⟩
        refine ⟨h2, fun i u v hu hv => ?_⟩
        cases i with
        | zero => simp at hu hv; rw [← hu, ← hv]; exact h1
        | succ i => exact h3 i u v (by simpa using hu) (by simpa using hv)
      · rintro ⟨h1, h2⟩
        exact ⟨h2 0 x y rfl rfl, h1, fun i u v hu hv => h2 (i + 1) u v (by simpa using hu) (by simpa using hv)⟩

/-- **C108**: two objects of POD classes are equal exactly if they have equally many fields and these have equal values
one by one. -/
theorem C108_equal (o : Ops V) (a b : Item V) (hb : b.pod = true) :
    equal o a b = true ↔ Agree o a.values b.values := by
  simp [equal, eqMethod, hb, tupleEq_iff]

theorem agree_symm {o : Ops V} (h : o.Sane) {a b : List V} (g : Agree o a b) : Agree o b a :=
  ⟨g.1.symm, fun i x y hx hy => h.symm _ _ (g.2 i y x hy hx)⟩

theorem agree_trans {o : Ops V} (h : o.Sane) {a b c : List V} (g : Agree o a b) (g' : Agree o b c) : Agree o a c := by
  refine ⟨g.1.trans g'.1, fun i x y hx hy => ?_⟩
  have : i < b.length := by rw [← g.1]; exact (List.getElem?_eq_some_iff.1 hx).1
  exact h.trans _ b[i] _ (g.2 i x b[i] hx (by simp)) (g'.2 i b[i] y (by simp) hy)

/-- **C108**: equality of objects of POD classes is an equivalence. -/
theorem C108_equivalence (o : Ops V) (h : o.Sane) (a b c : Item V) (ha : a.pod = true) (hb : b.pod = true)
    (hc : c.pod = true) :
    equal o a a = true ∧ (equal o a b = true → equal o b a = true) ∧
      (equal o a b = true → equal o b c = true → equal o a c = true) := by
  rw [C108_equal o a a ha, C108_equal o a b hb, C108_equal o b a ha, C108_equal o b c hc, C108_equal o a c hc]
  refine ⟨⟨rfl, fun i x y hx hy => ?_⟩, agree_symm h, agree_trans h⟩
  rw [hx, Option.some.injEq] at hy
  exact hy ▸ h.refl x

/-! ## Order -/

/-- How two lists of values compare: they agree up to some place; there the first one ends and the second one does not,
or both have values that are not equal, of which the first one is less. -/
def Before (o : Ops V) (a b : List V) : Prop :=
  ∃ i, Agree o (a.take i) (b.take i) ∧ i ≤ a.length ∧ i ≤ b.length ∧
    ((a.length = i ∧ i < b.length) ∨
      ∃ x y, a[i]? = some x ∧ b[i]? = some y ∧ o.eq x y = false ∧ o.lt x y = .ok true)

theorem agree_cons {o : Ops V} {x y : V} {a b : List V} :
    Agree o (x :: a) (y :: b) ↔ o.eq x y = true ∧ Agree o a b := by
  rw [← tupleEq_iff, ← tupleEq_iff]
  simp [tupleEq]

theorem tupleLt_iff (o : Ops V) : ∀ a b : List V, tupleLt o a b = .ok true ↔ Before o a b := by
  intro a
  induction a with
  | nil =>
    intro b
    cases b with
    | nil =>
      simp only [tupleLt, List.isEmpty_nil, Bool.not_true, Except.ok.injEq, Bool.false_eq_true, false_iff]
      rintro ⟨i, _, h1, _, h2⟩
      simp at h1 h2
    | cons y b =>
      simp only [tupleLt, List.isEmpty_cons, Bool.not_false, true_iff]
      exact ⟨0, by simp [Agree], by simp, by simp, .inl ⟨rfl, by simp⟩⟩
  | cons x a ih =>
    intro b
    cases b with
    | nil =>
      simp only [tupleLt, Except.ok.injEq, Bool.false_eq_true, false_iff]
      rintro ⟨i, _, _, h1, h2⟩
      simp at h1 h2
    | cons y b =>
      simp only [tupleLt]
      by_cases h : o.eq x y = true
      · rw [if_pos h, ih b]
        constructor
        · rintro ⟨i, h1, h2, h3, h4⟩
          refine ⟨i + 1, ?_, by simpa using h2, by simpa using h3, ?_⟩
          · rw [List.take_succ_cons, List.take_succ_cons]; exact agree_cons.2 ⟨h, h1⟩
          · simpa using h4
        · rintro ⟨i, h1, h2, h3, h4⟩
          cases i with
          | zero =>
            rcases h4 with ⟨h4, _⟩ | ⟨u, v, hu, hv, he, _⟩
            · simp at h4
            · simp at hu hv
              rw [hu, hv, he] at h
              cases h
          | succ i =>
            rw [List.take_succ_cons, List.take_succ_cons] at h1
            exact ⟨i, (agree_cons.1 h1).2, by simpa using h2, by simpa using h3, by simpa using h4⟩
      · rw [if_neg h]
        have h' : o.eq x y = false := by simpa using h
        constructor
        · intro hl
          exact ⟨0, by simp [Agree], by simp, by simp, .inr ⟨x, y, rfl, rfl, h', hl⟩⟩
        · rintro ⟨i, h1, h2, h3, h4⟩
          cases i with
          | zero =>
            rcases h4 with ⟨h4, _⟩ | ⟨u, v, hu, hv, he, hl⟩
            · simp at h4
            · simp at hu hv
              rw [hu, hv]; exact hl
          | succ i =>
            rw [List.take_succ_cons, List.take_succ_cons] at h1
            exact absurd (agree_cons.1 h1).1 h

/-- **C108**: one object of a POD class is less than another exactly if it comes before it in the order that goes by the
first fields whose values differ. -/
theorem C108_less (o : Ops V) (a b : Item V) (hb : b.pod = true) :
    less o a b = .ok true ↔ Before o a.values b.values := by
  simp [less, ltMethod, hb, tupleLt_iff]

/-- Values are in a strict total order that goes with equality, and comparing them does not raise. -/
structure Ops.Ordered (o : Ops V) (lt : V → V → Bool) : Prop extends o.Sane where
  total : ∀ a b, o.lt a b = .ok (lt a b)
  irrefl : ∀ a b, o.eq a b = true → lt a b = false
  trans' : ∀ a b c, lt a b = true → lt b c = true → lt a c = true
  tri : ∀ a b, o.eq a b = true ∨ lt a b = true ∨ lt b a = true
  congr : ∀ a b c, o.eq a b = true → lt a c = lt b c ∧ lt c a = lt c b

/-- The order of lists for such values. -/
def ltB (o : Ops V) (lt : V → V → Bool) : List V → List V → Bool
  | [], bs => !bs.isEmpty
  | _ :: _, [] => false
  | a :: as, b :: bs => if o.eq a b then ltB o lt as bs else lt a b

theorem tupleLt_eq {o : Ops V} {lt : V → V → Bool} (h : o.Ordered lt) : ∀ a b, tupleLt o a b = .ok (ltB o lt a b) := by
  intro a
  induction a with
  | nil => intro b; rfl
  | cons x a ih =>
    intro b
    cases b with
    | nil => rfl
    | cons y b =>
      simp only [tupleLt, ltB, ih, h.total]
      split <;> rfl

theorem ltB_tri {o : Ops V} {lt : V → V → Bool} (h : o.Ordered lt) : ∀ a b,
    (tupleEq o a b = true ∧ ltB o lt a b = false ∧ ltB o lt b a = false) ∨
    (tupleEq o a b = false ∧ ltB o lt a b = true ∧ ltB o lt b a = false) ∨
    (tupleEq o a b = false ∧ ltB o lt a b = false ∧ ltB o lt b a = true) := by
  intro a
  induction a with
  | nil => intro b; cases b <;> simp [tupleEq, ltB]
  | cons x a ih =>
    intro b
    cases b with
    | nil => simp [tupleEq, ltB]
    | cons y b =>
      by_cases he : o.eq x y = true
      · simp only [tupleEq, ltB, he, h.symm _ _ he, Bool.true_and, if_true]
        exact ih b
      · have he' : ¬ o.eq y x = true := fun g => he (h.symm _ _ g)
        simp only [tupleEq, ltB, he, he', Bool.false_and, if_false, true_and, Bool.false_eq_true, false_and, false_or]
        have hasym : lt x y = true → lt y x = false := by
          intro g
          cases g' : lt y x with
          | false => rfl
          | true =>
            have := h.trans' _ _ _ g g'
            rw [h.irrefl x x (h.refl x)] at this
            cases this
        rcases h.tri x y with g | g | g
        · exact absurd g he
        · exact .inl ⟨g, hasym g⟩
        · refine .inr ⟨?_, g⟩
          cases g' : lt x y with
          | false => rfl
          | true => rw [hasym g'] at g; cases g

theorem ltB_trans {o : Ops V} {lt : V → V → Bool} (h : o.Ordered lt) : ∀ a b c,
    ltB o lt a b = true → ltB o lt b c = true → ltB o lt a c = true := by
  intro a
  induction a with
  | nil =>
    intro b c h1 h2
    cases b with
    | nil => simp [ltB] at h1
    | cons y b =>
      cases c with
      | nil => simp [ltB] at h2
      | cons z c => simp [ltB]
  | cons x a ih =>
    intro b c h1 h2
    cases b with
    | nil => simp [ltB] at h1
    | cons y b =>
      cases c with
      | nil => simp [ltB] at h2
      | cons z c =>
        simp only [ltB] at h1 h2 ⊢
        by_cases e1 : o.eq x y = true
        · rw [if_pos e1] at h1
          by_cases e2 : o.eq y z = true
          · rw [if_pos e2] at h2
            rw [if_pos (h.trans _ _ _ e1 e2)]
            exact ih b c h1 h2
          · rw [if_neg e2] at h2
            rw [if_neg (fun g => e2 (h.trans _ _ _ (h.symm _ _ e1) g)), (h.congr x y z e1).1]
            exact h2
        · rw [if_neg e1] at h1
          by_cases e2 : o.eq y z = true
          · rw [if_neg (fun g => e1 (h.trans _ _ _ g (h.symm _ _ e2))), ← (h.congr y z x e2).2]
            exact h1
          · rw [if_neg e2] at h2
            have h3 := h.trans' _ _ _ h1 h2
            rw [if_neg (fun g => by rw [h.irrefl x z g] at h3; cases h3)]
            exact h3

theorem less_eq {o : Ops V} {lt : V → V → Bool} (h : o.Ordered lt) (a b : Item V) (hb : b.pod = true) :
    less o a b = .ok (ltB o lt a.values b.values) := by
  simp [less, ltMethod, hb, tupleLt_eq h]

/-- **C108**: for values in a strict total order, objects of POD classes are in a strict total order too: exactly one of
less, equal and greater holds, less is transitive, and the other three comparisons are what they should be. -/
theorem C108_order (o : Ops V) (lt : V → V → Bool) (h : o.Ordered lt) (a b c : Item V) (ha : a.pod = true)
    (hb : b.pod = true) (hc : c.pod = true) :
    ((less o a b = .ok true ∧ equal o a b = false ∧ less o b a = .ok false) ∨
      (less o a b = .ok false ∧ equal o a b = true ∧ less o b a = .ok false) ∨
      (less o a b = .ok false ∧ equal o a b = false ∧ less o b a = .ok true)) ∧
    (less o a b = .ok true → less o b c = .ok true → less o a c = .ok true) ∧
    greater o a b = less o b a ∧
    atMost o a b = (less o b a).map (!·) ∧
    atLeast o a b = (less o a b).map (!·) := by
  have heq : equal o a b = tupleEq o a.values b.values := by simp [equal, eqMethod, hb]
  rw [less_eq h a b hb, less_eq h b a ha, less_eq h b c hc, less_eq h a c hc, heq]
  have ht := ltB_tri h a.values b.values
  refine ⟨?_, ?_, ?_, ?_, ?_⟩
  · rcases ht with ⟨g1, g2, g3⟩ | ⟨g1, g2, g3⟩ | ⟨g1, g2, g3⟩ <;> rw [g1, g2, g3] <;> simp
  · intro g1 g2
    simp only [Except.ok.injEq] at g1 g2 ⊢
    exact ltB_trans h _ _ _ g1 g2
  · simp only [greater, gtMethod, ltMethod, hb, if_true, tupleLt_eq h, Option.map_some, Except.map, heq]
    rcases ht with ⟨g1, g2, g3⟩ | ⟨g1, g2, g3⟩ | ⟨g1, g2, g3⟩ <;> rw [g1, g2, g3] <;> rfl
  · simp only [atMost, leMethod, ltMethod, hb, if_true, tupleLt_eq h, Option.map_some, Except.map, heq]
    rcases ht with ⟨g1, g2, g3⟩ | ⟨g1, g2, g3⟩ | ⟨g1, g2, g3⟩ <;> rw [g1, g2, g3] <;> rfl
  · simp only [atLeast, geMethod, ltMethod, hb, if_true, tupleLt_eq h, Option.map_some, Except.map]
    rfl

/-! ## Copies -/

/-- Objects that a program can have: constructed, and assigned to. -/
inductive Reached (cls : List Field) : Obj → Prop
  | new {args kw o} : (kw.map (·.1)).Nodup → Pod.construct cls args kw = .ok o → Reached cls o
  | set {o o' f v} : Reached cls o → f ∈ cls → Pod.setField f o v = .ok o' → Reached cls o'

theorem reached_ok {cls : List Field} (hn : (names cls).Nodup) {o : Obj} (h : Reached cls o) :
    o.map (·.1) = names cls ∧ ∀ f ∈ cls, Pod.Accepts f (o.get f.name) := by
  induction h with
  | @new args kw o hkw h =>
    obtain ⟨s1, s2⟩ := Pod.C53_construct cls hn args kw hkw
    obtain ⟨k1, k2⟩ := s2 o h
    refine ⟨k1, ?_⟩
    obtain ⟨c1, c2, c3, c4⟩ := s1.mp ⟨o, h⟩
    intro f hf
    rw [k2 f hf]
    split
    · rename_i hs
      obtain ⟨v, hv, ha⟩ := c4 f hf hs
      rw [hv]; exact ha
    · rename_i hs
      unfold Pod.supplied at hs ⊢
      cases hl : kw.lookup f.name with
      | some v =>
        obtain ⟨g, g1, g2, g3, g4⟩ := c3 _ (Pod.mem_of_lookup hl)
        have : g = f := Pod.field_unique hn g1 hf g2
        rw [← this]; simpa using g3
      | none =>
        rw [hl] at hs
        simp only [Option.getD_none] at hs ⊢
        unfold Pod.byPosition at hs ⊢
        cases hp : ((cls.map (·.name)).zip args).lookup f.name with
        | none => rw [hp] at hs; simp at hs
        | some v => exact c2 _ (Pod.position_mem hn hf hp)
  | @set o o' f v hb hf h ih =>
    obtain ⟨h1, h2⟩ := ih
    unfold Pod.setField at h
    cases hr : f.set (o.get f.name) v with
    | error e => rw [hr] at h; simp at h
    | ok r =>
      rw [hr] at h
      obtain ⟨e1, e2⟩ := Pod.set_ok hr
      simp only [Except.ok.injEq] at h
      subst h
      refine ⟨by rw [Pod.keys_put, h1], ?_⟩
      intro g hg
      have hk : f.name ∈ o.map (·.1) := by rw [h1]; exact List.mem_map.mpr ⟨f, hf, rfl⟩
      rw [Pod.get_put _ _ _ _ hk]
      by_cases hne : g.name = f.name
      · have : g = f := Pod.field_unique hn hg hf hne
        subst this
        rw [if_pos rfl, e1]
        intro c hc
        have := e2 c hc
        cases c <;> first
          | exact this
          | rfl
      · rw [if_neg hne]; exact h2 g hg

/-- Objects with the same keys and the same values are the same. -/
theorem obj_ext {o o' : Obj} (hn : (o.map (·.1)).Nodup) (hk : o'.map (·.1) = o.map (·.1))
    (h : ∀ n ∈ o.map (·.1), o'.get n = o.get n) : o' = o := by
  induction o generalizing o' with
  | nil => simpa using hk
  | cons e o ih =>
    cases o' with
    | nil => simp at hk
    | cons e' o' =>
      simp only [List.map_cons, List.cons.injEq] at hk
      simp only [List.map_cons, List.nodup_cons] at hn
      obtain ⟨k, v⟩ := e
      obtain ⟨k', v'⟩ := e'
      dsimp only at hk hn
      obtain ⟨rfl, hk⟩ := hk
      have h0 := h k' (by simp)
      simp only [Obj.get, List.lookup, beq_self_eq_true, Option.getD_some] at h0
      subst h0
      rw [ih hn.2 hk]
      intro n hm
      have hne : (n == k') = false := by
        rw [beq_eq_false_iff_ne]; rintro rfl; exact hn.1 hm
      have := h n (by simp only [List.map_cons, List.mem_cons]; exact .inr hm)
      simpa [Obj.get, List.lookup, hne] using this

theorem zip_lookup {cls : List Field} (hn : (names cls).Nodup) (o : Obj) {f : Field} (hf : f ∈ cls) :
    ((cls.map (·.name)).zip (asTuple cls o)).lookup f.name = some (o.get f.name) := by
  unfold asTuple
  induction cls with
  | nil => simp at hf
  | cons c cls ih =>
    simp only [names, List.map_cons, List.nodup_cons] at hn
    simp only [List.map_cons, List.zip_cons_cons, List.lookup]
    by_cases he : f.name = c.name
    · rw [beq_iff_eq.2 he, he]
    · rw [beq_eq_false_iff_ne.2 he]
      exact ih hn.2 ((List.mem_cons.1 hf).resolve_left fun e => he (by rw [e]))

/-- **C108**: giving the values of an object, as a tuple or as a dictionary, to its class makes the same object again
exactly if the fields that are not set are fields that are not set at first. -/
theorem C108_copy_iff (cls : List Field) (hn : (names cls).Nodup) (o : Obj) (h : Reached cls o) :
    (Pod.construct cls (asTuple cls o) [] = .ok o ↔
      ∀ f ∈ cls, o.get f.name = .unset → f.initial = some .unset) ∧
    (Pod.construct cls [] (Pod.asDict cls o) = .ok o ↔
      ∀ f ∈ cls, o.get f.name = .unset → f.initial = some .unset) := by
  obtain ⟨h1, h2⟩ := reached_ok hn h
  have hno : (o.map (·.1)).Nodup := by rw [h1]; exact hn
  -- both ways give the same values
  have main : ∀ args kw, (kw.map (·.1)).Nodup → args.length ≤ cls.length →
      (∀ p ∈ cls.zip args, Pod.Accepts p.1 p.2) →
      (∀ p ∈ kw, ∃ f ∈ cls, f.name = p.1 ∧ Pod.Accepts f p.2 ∧ Pod.byPosition cls args p.1 = .unset) →
      (∀ f ∈ cls, Pod.supplied cls args kw f.name = o.get f.name) →
      (Pod.construct cls args kw = .ok o ↔ ∀ f ∈ cls, o.get f.name = .unset → f.initial = some .unset) := by
    intro args kw hkw a1 a2 a3 a4
    obtain ⟨s1, s2⟩ := Pod.C53_construct cls hn args kw hkw
    constructor
    · intro hc f hf hu
      have := (s2 o hc).2 f hf
      rw [a4 f hf, if_pos hu, hu] at this
      obtain ⟨_, _, _, c4⟩ := s1.1 ⟨o, hc⟩
      obtain ⟨v, hv, _⟩ := c4 f hf (by rw [a4 f hf, hu])
      rw [hv] at this ⊢
      simp only [Option.getD_some] at this
      rw [← this]
    · intro hd
      obtain ⟨o', ho'⟩ := s1.2 ⟨a1, a2, a3, fun f hf hu => by
        rw [a4 f hf] at hu
        exact ⟨.unset, hd f hf hu, hu ▸ h2 f hf⟩⟩
      obtain ⟨k1, k2⟩ := s2 o' ho'
      rw [ho']
      congr 1
      refine obj_ext hno (k1.trans h1.symm) fun n hm => ?_
      rw [h1] at hm
      obtain ⟨f, hf, rfl⟩ := List.mem_map.1 hm
      rw [k2 f hf, a4 f hf]
      split
      · rename_i hu
        rw [hu, hd f hf hu]; rfl
      · rfl
  constructor
  · refine main _ _ (by simp) (by simp [asTuple]) ?_ (by simp) ?_
    · intro p hp
      have : p.2 = o.get p.1.name ∧ p.1 ∈ cls := by
        unfold asTuple at hp
        clear main h1 h2 hno h hn
        induction cls with
        | nil => simp at hp
        | cons c cls ih =>
          simp only [List.map_cons, List.zip_cons_cons, List.mem_cons] at hp
          rcases hp with rfl | hp
          · simp
          · have := ih hp; exact ⟨this.1, List.mem_cons_of_mem _ this.2⟩
      rw [this.1]; exact h2 _ this.2
    · intro f hf
      unfold Pod.supplied Pod.byPosition
      rw [zip_lookup hn o hf]; rfl
  · have hd : Pod.asDict cls o = ((names cls).map fun n => (n, o.get n)).filter fun q => decide (q.2 ≠ .unset) := by
      unfold Pod.asDict names
      rw [List.map_map]; rfl
    refine main _ _ ?_ (by simp) (by simp) ?_ ?_
    · rw [hd]
      have : ((names cls).map fun n => (n, o.get n)).map (·.1) = names cls := by
        rw [List.map_map]; exact List.map_id _
      exact (this ▸ hn).sublist (List.filter_sublist.map _)
    · intro p hp
      rw [hd, List.mem_filter] at hp
      obtain ⟨n, hm, rfl⟩ := List.mem_map.1 hp.1
      obtain ⟨f, hf, rfl⟩ := List.mem_map.1 hm
      exact ⟨f, hf, rfl, h2 f hf, by simp [Pod.byPosition]⟩
    · intro f hf
      unfold Pod.supplied
      rw [hd, Pod.lookup_filter_map (names cls) hn (fun n => o.get n) (fun v => decide (v ≠ .unset)) f.name
        (List.mem_map.2 ⟨f, hf, rfl⟩)]
      by_cases hu : o.get f.name = .unset
      · simp [hu, Pod.byPosition]
      · simp [hu]

/-! ## Examples -/

/-- A field declared without a name. -/
def fld (k : Nat) (checks : List Pod.Check := []) : Option Decl := some ⟨k, { name := [], checks }⟩

/-- `Node` of xparsers, and three classes derived from it (xparsers 101-115, 293-307). -/
def node : Except Err Cls := mkClass "Node".toList [none] [("col_offset".toList, fld 2), ("doc".toList, none),
  ("lineno".toList, fld 1)]

/-- Names of the fields of a class. -/
def shown (c : Except Err Cls) : Except Err (List Str) := c.map fun c => names c.fields

example : shown node = .ok ["lineno".toList, "col_offset".toList] ∧
    shown (node.bind fun n => mkClass "Text".toList [some n] [("text".toList, fld 3)]) =
      .ok ["lineno".toList, "col_offset".toList, "text".toList] ∧
    shown (node.bind fun n => mkClass "Bad".toList [some n] [("lineno".toList, fld 3)]) = .error .typeError ∧
    shown (mkClass "Bad".toList [] [("_x".toList, fld 3)]) = .error .valueError := by
  decide +kernel

/-- Integers as values. -/
def ints : Ops Int := ⟨fun a b => decide (a = b), fun a b => .ok (decide (a < b))⟩

/-- `C108_order` and `C108_equivalence` apply to them. -/
example : ints.Ordered (fun a b => decide (a < b)) where
  refl := by simp [ints]
  symm := by simp [ints, eq_comm]
  trans := by simp only [ints, decide_eq_true_eq]; intro a b c h1 h2; exact h1.trans h2
  total := by simp [ints]
  irrefl := by simp [ints]
  trans' := by simp only [decide_eq_true_eq]; omega
  tri := by simp only [ints, decide_eq_true_eq]; omega
  congr := by simp only [ints, decide_eq_true_eq]; intro a b c h; rw [h]; exact ⟨rfl, rfl⟩

example : less ints ⟨1, "P".toList, true, [1, 2, 9]⟩ ⟨2, "P".toList, true, [1, 3, 0]⟩ = .ok true ∧
    Before ints [1, 2, 9] [1, 3, 0] ∧ atMost ints ⟨1, "P".toList, true, [1, 3]⟩ ⟨2, "P".toList, true, [1, 2]⟩ =
      .ok false := by
  refine ⟨by decide +kernel, (tupleLt_iff _ _ _).1 (by decide +kernel), by decide +kernel⟩

/-- A class with a checked field and one that is not set at first. -/
def person : List Field := [{ name := "name".toList, checks := [.typed Pod.isStr], initial := none },
  { name := "age".toList, initial := some .unset }]

/-- An object of it. -/
def bob : Obj := [("name".toList, .str "bob".toList), ("age".toList, .unset)]

/-- `C108_copy_iff` applies to it. -/
example : Reached person bob ∧ (names person).Nodup ∧ Pod.construct person (asTuple person bob) [] = .ok bob :=
  ⟨.new (args := [.str "bob".toList]) (kw := []) (by simp) (by decide +kernel), by decide +kernel, by decide +kernel⟩

/-! ## What does not hold -/

/-- Objects of different classes are equal, like a comment and an error with the same text. -/
theorem C108_kind_violated : ∃ a b : Item Int, a.pod = true ∧ b.pod = true ∧ a.cls ≠ b.cls ∧ equal ints a b = true :=
  ⟨⟨1, "Comment".toList, true, [1, 0, 7]⟩, ⟨2, "Error".toList, true, [1, 0, 7]⟩, by decide +kernel⟩

/-- **C108**: objects of classes that do not derive from `POD` compare like any other objects: each is equal to itself only and none
comes before another. -/
theorem C108_podify (o : Ops V) (a b : Item V) (ha : a.pod = false) (hb : b.pod = false) :
    (equal o a b = true ↔ a.ident = b.ident) ∧ less o a b = .error .typeError ∧ greater o a b = .error .typeError ∧
      atMost o a b = .error .typeError ∧ atLeast o a b = .error .typeError := by
  simp [equal, eqMethod, less, greater, atMost, atLeast, gtMethod, leMethod, geMethod, ltMethod, ha, hb]

example : equal ints ⟨1, "P".toList, false, [1]⟩ ⟨2, "P".toList, false, [1]⟩ ≠ true := by
  rw [Ne, (C108_podify ints _ _ rfl rfl).1]
  decide

/-- Objects of classes made with `podify` are not equal to each other, whatever they hold, cannot be ordered, and
equality is not transitive when they meet objects of POD classes. -/
theorem C108_podify_violated : ∃ a b c : Item Int, a.values = c.values ∧ equal ints a b = true ∧ equal ints b c = true ∧
    equal ints a c = false ∧ less ints a c = .error .typeError :=
  ⟨⟨1, "P".toList, false, [1]⟩, ⟨2, "Q".toList, true, [1]⟩, ⟨3, "P".toList, false, [1]⟩, by decide +kernel⟩

/-- Comparison of values as in Python, for those used here. -/
def pyOps : Ops Val := ⟨fun a b => decide (a = b), fun a b => match a, b with
  | .int x, .int y => .ok (decide (x < y))
  | _, _ => .error .typeError⟩

/-- Not all objects can be ordered: the default value `None` cannot be compared with a number. -/
theorem C108_none_violated : less pyOps ⟨1, "Person".toList, true, [.int 1, .none]⟩
    ⟨2, "Person".toList, true, [.int 1, .int 3]⟩ = .error .typeError := by decide +kernel

/-- Two classes derived from one class with fields cannot be base classes of one class. -/
theorem C108_diamond_violated : ∃ n a b, node = .ok n ∧ mkClass "A".toList [some n] [] = .ok a ∧
    mkClass "B".toList [some n] [] = .ok b ∧ shown (mkClass "C".toList [some a, some b] []) = .error .typeError :=
  ⟨_, _, _, rfl, rfl, rfl, by decide +kernel⟩

/-- A field that was made unset gets its first value in a copy. -/
theorem C108_copy_violated : ∃ (cls : List Field) (o : Obj), Reached cls o ∧
    Pod.construct cls [] (Pod.asDict cls o) = .ok [("x".toList, .none)] ∧ o = [("x".toList, .unset)] :=
  ⟨[{ name := "x".toList }], [("x".toList, .unset)],
    .set (o := [("x".toList, .none)]) (f := { name := "x".toList }) (v := .unset)
      (.new (args := []) (kw := []) (by simp) (by decide +kernel)) (by simp) (by decide +kernel),
    by decide +kernel, rfl⟩

end Verif.PodClass
