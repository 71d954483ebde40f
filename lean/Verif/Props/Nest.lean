import Verif.Model.Nest
import Verif.Props.Qualifiers
import Verif.Props.Narrow

/-! # C87: nested test plans -/

namespace Verif.Nest

open Verif.Qualifiers (Kind Prim Qual selectJobs)

set_option linter.unusedSectionVars false

variable {J I : Type} [DecidableEq I]

/-! ## Specification -/

/-- The last unit with the identifier is this test plan. -/
def Called (units : List (I × Unit' J I)) (i : I) (p : Plan J I) : Prop :=
  ∃ a b, units = a ++ (i, .plan p) :: b ∧ ∀ x ∈ b, x.1 ≠ i

/-- The second plan is named in `nested_part` of the first. -/
def Nested (units : List (I × Unit' J I)) (p q : Plan J I) : Prop :=
  ∃ ids i, p.nested = some ids ∧ i ∈ ids ∧ Called units i q

/-- The second plan is the first, or nested in it at any depth. -/
inductive Part (units : List (I × Unit' J I)) : Plan J I → Plan J I → Prop
  | refl (p : Plan J I) : Part units p p
  | step {p q r : Plan J I} : Nested units p q → Part units q r → Part units p r

/-- A matcher applies to a job. -/
def Fits (idOf : J → I) (k : Kind J I) (j : J) : Prop :=
  match k with
  | .idEq i => i = idOf j
  | .other f => f j = true

/-- A line of the field applies to the job. -/
def On (idOf : J → I) (f : Option (List (Option (Kind J I)))) (j : J) : Prop :=
  ∃ l k, f = some l ∧ some k ∈ l ∧ Fits idOf k j

/-- The job is named in `bootstrap_include`. -/
def Boots (idOf : J → I) (p : Plan J I) (j : J) : Prop := ∃ l, p.boot = some l ∧ idOf j ∈ l

/-- No line of the field has an error. -/
def Fine (f : Option (List (Option (Kind J I)))) : Prop := ∀ l, f = some l → none ∉ l

/-- Some part is nested in itself. -/
def Circular (units : List (I × Unit' J I)) (p : Plan J I) : Prop :=
  ∃ q r, Part units p q ∧ Nested units q r ∧ Part units r q

/-! ## Lemmas -/

theorem find_called {units : List (I × Unit' J I)} {i : I} {p : Plan J I} :
    find units i = some p ↔ Called units i p := by
  unfold find Called
  constructor
  · intro h
    split at h
    · next x q hf =>
      cases h
      have hx : x = i := by simpa using List.find?_some hf
      subst hx
      obtain ⟨-, a, b, hab, hb⟩ := List.find?_eq_some_iff_append.1 hf
      refine ⟨b.reverse, a.reverse, ?_, fun y hy => ?_⟩
      · have := congrArg List.reverse hab
        simpa using this
      · have := hb y (List.mem_reverse.1 hy)
        simpa using this
    · cases h
  · rintro ⟨a, b, rfl, hb⟩
    have : (a ++ (i, Unit'.plan p) :: b).reverse.find? (fun x => decide (x.1 = i)) = some (i, .plan p) := by
      rw [List.find?_eq_some_iff_append]
      refine ⟨by simp, b.reverse, a.reverse, by simp, fun y hy => ?_⟩
      simpa using hb y (List.mem_reverse.1 hy)
    rw [this]

theorem mem_nested {units : List (I × Unit' J I)} {p q : Plan J I} :
    q ∈ nestedPart units p ↔ Nested units p q := by
  unfold nestedPart Nested
  cases h : p.nested with
  | none => simp
  | some ids =>
    simp only [List.mem_filterMap, find_called, Option.some.injEq]
    constructor
    · rintro ⟨i, hi, hc⟩; exact ⟨ids, i, rfl, hi, hc⟩
    · rintro ⟨_, i, rfl, hi, hc⟩; exact ⟨i, hi, hc⟩

theorem each_ok {α β : Type} {f : α → Except Err β} : ∀ {l : List α} {bs : List β}, each f l = .ok bs →
    (∀ a ∈ l, ∃ b ∈ bs, f a = .ok b) ∧ ∀ b ∈ bs, ∃ a ∈ l, f a = .ok b
  | [], bs, h => by
    cases h
    exact ⟨by simp, by simp⟩
  | a :: l, bs, h => by
    unfold each at h
    split at h
    · cases h
    · next b hb =>
      split at h
      · cases h
      · next bs' hbs =>
        cases h
        obtain ⟨h1, h2⟩ := each_ok hbs
        constructor
        · intro x hx
          rcases List.mem_cons.1 hx with rfl | hx
          · exact ⟨b, List.mem_cons_self, hb⟩
          · obtain ⟨y, hy, hy'⟩ := h1 x hx
            exact ⟨y, List.mem_cons_of_mem _ hy, hy'⟩
        · intro y hy
          rcases List.mem_cons.1 hy with rfl | hy
          · exact ⟨a, List.mem_cons_self, hb⟩
          · obtain ⟨x, hx, hx'⟩ := h2 y hy
            exact ⟨x, List.mem_cons_of_mem _ hx, hx'⟩

theorem each_total {α β : Type} {f : α → Except Err β} : ∀ {l : List α}, (∀ a ∈ l, ∃ b, f a = .ok b) →
    ∃ bs, each f l = .ok bs
  | [], _ => ⟨[], rfl⟩
  | a :: l, h => by
    obtain ⟨b, hb⟩ := h a List.mem_cons_self
    obtain ⟨bs, hbs⟩ := each_total (f := f) (l := l) fun x hx => h x (List.mem_cons_of_mem _ hx)
    exact ⟨b :: bs, by simp [each, hb, hbs]⟩

theorem each_error {α β : Type} {f : α → Except Err β} : ∀ {l : List α} {e : Err}, each f l = .error e →
    ∃ a ∈ l, f a = .error e
  | [], e, h => by cases h
  | a :: l, e, h => by
    unfold each at h
    split at h
    · next e' he => cases h; exact ⟨a, List.mem_cons_self, he⟩
    · split at h
      · next e' he =>
        cases h
        obtain ⟨x, hx, hx'⟩ := each_error he
        exact ⟨x, List.mem_cons_of_mem _ hx, hx'⟩
      · cases h

theorem lines_ok {b : Bool} {f : Option (List (Option (Kind J I)))} {qs : List (Qual J I)} (h : lines b f = .ok qs) :
    Fine f ∧ (∀ x, x ∈ Qualifiers.flatPrimitives qs ↔ ∃ l k, f = some l ∧ some k ∈ l ∧ x = ⟨b, k⟩) := by
  cases f with
  | none =>
    cases h
    refine ⟨fun l hl => ?_, by simp [Qualifiers.flatPrimitives]⟩
    cases hl
  | some l =>
    simp only [lines] at h
    obtain ⟨h1, h2⟩ := each_ok h
    constructor
    · rintro l' ⟨⟩ hn
      obtain ⟨q, -, hq⟩ := h1 none hn
      cases hq
    · intro x
      rw [Qualifiers.flat_eq]
      simp only [List.mem_flatMap, Option.some.injEq]
      constructor
      · rintro ⟨q, hq, hx⟩
        obtain ⟨a, ha, he⟩ := h2 q hq
        cases a with
        | none => cases he
        | some k =>
          cases he
          simp only [Qual.primitives, List.mem_singleton] at hx
          exact ⟨l, k, rfl, ha, hx⟩
      · rintro ⟨_, k, rfl, hk, rfl⟩
        obtain ⟨q, hq, he⟩ := h1 _ hk
        cases he
        exact ⟨_, hq, by simp [Qual.primitives]⟩

theorem lines_total {b : Bool} {f : Option (List (Option (Kind J I)))} (h : Fine f) : ∃ qs, lines b f = .ok qs := by
  cases f with
  | none => exact ⟨[], rfl⟩
  | some l =>
    apply each_total
    intro a ha
    cases a with
    | none => exact absurd ha (h l rfl)
    | some k => exact ⟨_, rfl⟩

theorem prim_comp (qs : List (Qual J I)) : (Qual.comp qs).primitives = Qualifiers.flatPrimitives qs := rfl

theorem flat_append (a b : List (Qual J I)) :
    Qualifiers.flatPrimitives (a ++ b) = Qualifiers.flatPrimitives a ++ Qualifiers.flatPrimitives b := by
  simp [Qualifiers.flat_eq]

/-- Results of nested parts, put together. -/
theorem part_split {units : List (I × Unit' J I)} {p : Plan J I} {P : Plan J I → Prop} :
    (∃ q, Part units p q ∧ P q) ↔ P p ∨ ∃ q ∈ nestedPart units p, ∃ r, Part units q r ∧ P r := by
  constructor
  · rintro ⟨q, h, hP⟩
    cases h with
    | refl => exact .inl hP
    | step h1 h2 => exact .inr ⟨_, mem_nested.2 h1, _, h2, hP⟩
  · rintro (h | ⟨q, hq, r, hr, h⟩)
    · exact ⟨p, .refl p, h⟩
    · exact ⟨r, .step (mem_nested.1 hq) hr, h⟩

theorem bootIds_spec {units : List (I × Unit' J I)} : ∀ {n : Nat} {p : Plan J I} {ids : List I},
    bootIds units n p = .ok ids → ∀ i, i ∈ ids ↔ ∃ q, Part units p q ∧ ∃ l, q.boot = some l ∧ i ∈ l
  | 0, _, _, h => by cases h
  | n + 1, p, ids, h => by
    intro i
    simp only [bootIds] at h
    split at h
    · cases h
    · next parts hparts =>
      cases h
      obtain ⟨h1, h2⟩ := each_ok hparts
      rw [part_split, List.mem_append, List.mem_flatten]
      apply or_congr
      · cases p.boot <;> simp
      · constructor
        · rintro ⟨l, hl, hi⟩
          obtain ⟨q, hq, hq'⟩ := h2 l hl
          obtain ⟨r, hr, hb⟩ := (bootIds_spec hq' i).1 hi
          exact ⟨q, hq, r, hr, hb⟩
        · rintro ⟨q, hq, r, hr, hb⟩
          obtain ⟨l, hl, hq'⟩ := h1 q hq
          exact ⟨l, hl, (bootIds_spec hq' i).2 ⟨r, hr, hb⟩⟩

theorem mem_parts {units : List (I × Unit' J I)} {f : Plan J I → Except Err (Qual J I)} {l : List (Plan J I)}
    {parts : List (Qual J I)} (h : each f l = .ok parts) {P : Plan J I → Prim J I → Prop}
    (hf : ∀ q ∈ l, ∀ t, f q = .ok t → ∀ x, x ∈ t.primitives ↔ ∃ r, Part units q r ∧ P r x) (x : Prim J I) :
    x ∈ Qualifiers.flatPrimitives parts ↔ ∃ q ∈ l, ∃ r, Part units q r ∧ P r x := by
  obtain ⟨h1, h2⟩ := each_ok h
  rw [Qualifiers.flat_eq, List.mem_flatMap]
  constructor
  · rintro ⟨t, ht, hx⟩
    obtain ⟨q, hq, hq'⟩ := h2 t ht
    exact ⟨q, hq, (hf q hq t hq' x).1 hx⟩
  · rintro ⟨q, hq, hr⟩
    obtain ⟨t, ht, hq'⟩ := h1 q hq
    exact ⟨t, ht, (hf q hq t hq' x).2 hr⟩

theorem bootQualifier_spec {units : List (I × Unit' J I)} {b : Bool} : ∀ {n : Nat} {p : Plan J I} {t : Qual J I},
    bootQualifier units b n p = .ok t →
    ∀ x, x ∈ t.primitives ↔ ∃ q, Part units p q ∧ ∃ l i, q.boot = some l ∧ i ∈ l ∧ x = ⟨!b, .idEq i⟩
  | 0, _, _, h => by cases h
  | n + 1, p, t, h => by
    intro x
    simp only [bootQualifier] at h
    split at h
    · cases h
    · next own hown =>
      split at h
      · cases h
      · next parts hparts =>
        cases h
        rw [prim_comp, flat_append, List.mem_append,
          mem_parts hparts (P := fun q x => ∃ l i, q.boot = some l ∧ i ∈ l ∧ x = ⟨!b, .idEq i⟩)
            (fun q _ t ht x => bootQualifier_spec ht x)]
        rw [part_split (P := fun q => ∃ l i, q.boot = some l ∧ i ∈ l ∧ x = ⟨!b, .idEq i⟩)]
        unfold bootOwn at hown
        split at hown
        · next hb =>
          cases hown
          simp [Qualifiers.flatPrimitives, hb]
        · next l hb =>
          split at hown
          · cases hown
          · next ids hids =>
            cases hown
            have hs := bootIds_spec hids
            have key : x ∈ Qualifiers.flatPrimitives (ids.map fun i => (Qual.prim ⟨!b, .idEq i⟩ : Qual J I)) ↔
                ∃ i ∈ ids, x = ⟨!b, .idEq i⟩ := by
              rw [Qualifiers.flat_eq]
              simp only [List.mem_flatMap, List.mem_map]
              constructor
              · rintro ⟨_, ⟨i, hi, rfl⟩, hx⟩
                simp only [Qual.primitives, List.mem_singleton] at hx
                exact ⟨i, hi, hx⟩
              · rintro ⟨i, hi, rfl⟩
                exact ⟨_, ⟨i, hi, rfl⟩, by simp [Qual.primitives]⟩
            rw [key]
            constructor
            · rintro (⟨i, hi, rfl⟩ | h)
              · obtain ⟨q, hq, l', hl, hi'⟩ := (hs i).1 hi
                exact (part_split (P := fun q => ∃ l i', q.boot = some l ∧ i' ∈ l ∧ (⟨!b, .idEq i⟩ : Prim J I) = ⟨!b, .idEq i'⟩)).1
                  ⟨q, hq, l', i, hl, hi', rfl⟩
              · exact .inr h
            · rintro (⟨l', i, hl, hi, rfl⟩ | h)
              · exact .inl ⟨i, (hs i).2 ⟨p, .refl p, l', hl, hi⟩, rfl⟩
              · exact .inr h

/-- The votes that a plan itself casts. -/
def Casts (q : Plan J I) (x : Prim J I) : Prop :=
  (∃ l k, q.incl = some l ∧ some k ∈ l ∧ x = ⟨true, k⟩) ∨ (∃ l k, q.excl = some l ∧ some k ∈ l ∧ x = ⟨false, k⟩) ∨
    ∃ l i, q.boot = some l ∧ i ∈ l ∧ x = ⟨false, .idEq i⟩

theorem qualifier_spec {units : List (I × Unit' J I)} : ∀ {n : Nat} {p : Plan J I} {t : Qual J I},
    qualifier units n p = .ok t → ∀ x, x ∈ t.primitives ↔ ∃ q, Part units p q ∧ Casts q x
  | 0, _, _, h => by cases h
  | n + 1, p, t, h => by
    intro x
    simp only [qualifier] at h
    split at h
    · cases h
    · next incl hincl =>
    split at h
    · cases h
    · next excl hexcl =>
    split at h
    · cases h
    · next boot hboot =>
    split at h
    · cases h
    · next parts hparts =>
    cases h
    have h1 := (lines_ok hincl).2 x
    have h2 := (lines_ok hexcl).2 x
    have h3 := bootQualifier_spec hboot x
    have h4 := mem_parts hparts (P := Casts) (fun q _ t ht x => qualifier_spec ht x) x
    have hb : Qualifiers.flatPrimitives [boot] = boot.primitives := by simp [Qualifiers.flatPrimitives]
    rw [prim_comp, flat_append, flat_append, flat_append, hb]
    simp only [List.mem_append]
    rw [h1, h2, h3, h4, part_split (P := fun q => Casts q x)]
    simp only [Bool.not_true]
    constructor
    · rintro (((h | h) | ⟨q, hq, h⟩) | h)
      · exact .inl (.inl h)
      · exact .inl (.inr (.inl h))
      · exact (part_split (P := fun q => Casts q x)).1 ⟨q, hq, .inr (.inr h)⟩
      · exact .inr h
    · rintro ((h | h | h) | h)
      · exact .inl (.inl (.inl h))
      · exact .inl (.inl (.inr h))
      · exact .inl (.inr ⟨p, .refl p, h⟩)
      · exact .inr h

theorem mandatory_spec {units : List (I × Unit' J I)} : ∀ {n : Nat} {p : Plan J I} {t : Qual J I},
    mandatoryQualifier units n p = .ok t →
    ∀ x, x ∈ t.primitives ↔ ∃ q, Part units p q ∧ ∃ l k, q.mand = some l ∧ some k ∈ l ∧ x = ⟨true, k⟩
  | 0, _, _, h => by cases h
  | n + 1, p, t, h => by
    intro x
    simp only [mandatoryQualifier] at h
    split at h
    · cases h
    · next mand hmand =>
    split at h
    · cases h
    · next parts hparts =>
    cases h
    have h4 := mem_parts hparts (P := fun q x => ∃ l k, q.mand = some l ∧ some k ∈ l ∧ x = ⟨true, k⟩)
      (fun q _ t ht x => mandatory_spec ht x) x
    rw [prim_comp, flat_append, List.mem_append, (lines_ok hmand).2 x, h4,
      part_split (P := fun q => ∃ l k, q.mand = some l ∧ some k ∈ l ∧ x = ⟨true, k⟩)]

theorem matches_fits (idOf : J → I) (b : Bool) (k : Kind J I) (j : J) :
    (Prim.mk b k).matches idOf j = true ↔ Fits idOf k j := by
  cases k <;> simp [Prim.matches, Fits]

/-! ## Recursion -/

/-- The parts are nested less than so deep. -/
def Deep (units : List (I × Unit' J I)) : Nat → Plan J I → Prop
  | 0, _ => False
  | n + 1, p => ∀ q ∈ nestedPart units p, Deep units n q

theorem deep_bootIds {units : List (I × Unit' J I)} : ∀ {n : Nat} {p : Plan J I},
    Deep units n p ↔ ∃ ids, bootIds units n p = .ok ids
  | 0, p => by simp [Deep, bootIds]
  | n + 1, p => by
    simp only [Deep]
    constructor
    · intro h
      obtain ⟨bs, hbs⟩ := each_total (f := fun q => bootIds units n q) (l := nestedPart units p)
        fun q hq => deep_bootIds.1 (h q hq)
      exact ⟨_, by simp [bootIds, hbs]; rfl⟩
    · rintro ⟨ids, h⟩ q hq
      simp only [bootIds] at h
      split at h
      · cases h
      · next parts hparts =>
        obtain ⟨b, -, hb⟩ := (each_ok hparts).1 q hq
        exact deep_bootIds.2 ⟨b, hb⟩

theorem deep_bootQualifier {units : List (I × Unit' J I)} (b : Bool) : ∀ {n : Nat} {p : Plan J I},
    Deep units n p → ∃ t, bootQualifier units b (n + 1) p = .ok t
  | 0, p, h => h.elim
  | n + 1, p, h => by
    obtain ⟨ids, hids⟩ := deep_bootIds.1 h
    obtain ⟨bs, hbs⟩ := each_total (f := fun q => bootQualifier units b (n + 1) q) (l := nestedPart units p)
      fun q hq => deep_bootQualifier b (h q hq)
    rw [bootQualifier.eq_def]
    simp only
    have : ∃ own, bootOwn units b (n + 1) p = .ok own := by
      unfold bootOwn
      cases p.boot with
      | none => exact ⟨_, rfl⟩
      | some l => simp only [hids]; exact ⟨_, rfl⟩
    obtain ⟨own, hown⟩ := this
    rw [hown, hbs]
    exact ⟨_, rfl⟩

theorem deep_qualifier {units : List (I × Unit' J I)} : ∀ {n : Nat} {p : Plan J I},
    Deep units n p → (∀ q, Part units p q → Fine q.incl ∧ Fine q.excl) → ∃ t, qualifier units (n + 2) p = .ok t
  | 0, p, h, _ => h.elim
  | n + 1, p, h, hf => by
    obtain ⟨t, ht⟩ := deep_bootQualifier true h
    obtain ⟨bs, hbs⟩ := each_total (f := fun q => qualifier units (n + 2) q) (l := nestedPart units p)
      fun q hq => deep_qualifier (h q hq) fun r hr => hf r (.step (mem_nested.1 hq) hr)
    obtain ⟨i, hi⟩ := lines_total (b := true) (hf p (.refl p)).1
    obtain ⟨e, he⟩ := lines_total (b := false) (hf p (.refl p)).2
    rw [qualifier.eq_def]
    simp only
    rw [hi, he, ht, hbs]
    exact ⟨_, rfl⟩

theorem qualifier_deep {units : List (I × Unit' J I)} : ∀ {n : Nat} {p : Plan J I} {t : Qual J I},
    qualifier units n p = .ok t → Deep units n p
  | 0, _, _, h => by cases h
  | n + 1, p, t, h => by
    simp only [qualifier] at h
    split at h
    · cases h
    split at h
    · cases h
    split at h
    · cases h
    split at h
    · cases h
    · next parts hparts =>
      intro q hq
      obtain ⟨b, -, hb⟩ := (each_ok hparts).1 q hq
      exact qualifier_deep hb

theorem part_trans {units : List (I × Unit' J I)} {p q r : Plan J I} (h : Part units p q) (h' : Part units q r) :
    Part units p r := by
  induction h with
  | refl => exact h'
  | step h1 _ ih => exact .step h1 (ih h')

theorem deep_part {units : List (I × Unit' J I)} {p q : Plan J I} (h : Part units p q) :
    ∀ {n : Nat}, Deep units n p → Deep units n q ∨ ∃ m, m < n ∧ Deep units m q := by
  induction h with
  | refl => exact fun h => .inl h
  | step h1 _ ih =>
    intro n hn
    cases n with
    | zero => exact hn.elim
    | succ n =>
      rcases ih (hn _ (mem_nested.2 h1)) with h | ⟨m, hm, h⟩
      · exact .inr ⟨n, by omega, h⟩
      · exact .inr ⟨m, by omega, h⟩

theorem circular_not_deep {units : List (I × Unit' J I)} {q r : Plan J I} (h1 : Nested units q r) (h2 : Part units r q) :
    ∀ n, ¬ Deep units n q := by
  intro n
  induction n using Nat.strongRecOn with
  | ind n ih =>
    intro h
    cases n with
    | zero => exact h
    | succ n =>
      rcases deep_part h2 (h r (mem_nested.2 h1)) with h | ⟨m, hm, h⟩
      · exact ih n (by omega) h
      · exact ih m (by omega) h

theorem length_le {α : Type} : ∀ {l m : List α}, l.Nodup → (∀ a ∈ l, a ∈ m) → l.length ≤ m.length
  | [], _, _, _ => by simp
  | a :: l, m, h, hs => by
    classical
    have hn := List.nodup_cons.1 h
    have ham := hs a List.mem_cons_self
    have := length_le (l := l) (m := m.erase a) hn.2 fun b hb =>
      (List.mem_erase_of_ne (fun e => hn.1 (by rw [← e]; exact hb))).2 (hs b (List.mem_cons_of_mem _ hb))
    rw [List.length_erase_of_mem ham] at this
    have := List.length_pos_of_mem ham
    simp only [List.length_cons]
    omega

/-- The test plans among the units. -/
def plansOf (units : List (I × Unit' J I)) : List (Plan J I) :=
  units.filterMap fun x => match x.2 with | .plan p => some p | .other => none

theorem nested_mem {units : List (I × Unit' J I)} {p q : Plan J I} (h : Nested units p q) : q ∈ plansOf units := by
  obtain ⟨ids, i, -, -, a, b, rfl, -⟩ := h
  exact List.mem_filterMap.2 ⟨(i, .plan q), by simp, rfl⟩

theorem not_circular_deep {units : List (I × Unit' J I)} : ∀ (n : Nat) (p : Plan J I) (seen : List (Plan J I)),
    ¬ Circular units p → seen.Nodup → (∀ s ∈ seen, s ∈ plansOf units) →
    (∀ s ∈ seen, Part units s p) → (plansOf units).length - seen.length ≤ n → Deep units (n + 1) p
  | 0, p, seen, hc, hn, hs, hr, hl => by
    intro q hq
    exfalso
    have hq' := mem_nested.1 hq
    have hnew : q ∉ seen := fun hm => hc ⟨p, q, .refl p, hq', hr q hm⟩
    have := length_le (l := q :: seen) (m := plansOf units) (List.nodup_cons.2 ⟨hnew, hn⟩) (by
      intro s hm
      rcases List.mem_cons.1 hm with rfl | hm
      · exact nested_mem hq'
      · exact hs s hm)
    simp only [List.length_cons] at this
    omega
  | n + 1, p, seen, hc, hn, hs, hr, hl => by
    intro q hq
    have hq' := mem_nested.1 hq
    have hnew : q ∉ seen := fun hm => hc ⟨p, q, .refl p, hq', hr q hm⟩
    refine not_circular_deep n q (q :: seen) ?_ (List.nodup_cons.2 ⟨hnew, hn⟩) ?_ ?_ ?_
    · rintro ⟨a, b, h1, h2⟩; exact hc ⟨a, b, .step hq' h1, h2⟩
    · intro s hm
      rcases List.mem_cons.1 hm with rfl | hm
      · exact nested_mem hq'
      · exact hs s hm
    · intro s hm
      rcases List.mem_cons.1 hm with rfl | hm
      · exact .refl s
      · exact part_trans (hr s hm) (.step hq' (.refl q))
    · simp only [List.length_cons]
      omega

/-! ## Theorems -/

/-- A test plan selects what it or one of its parts includes, unless it or one of its parts excludes it or has it
in the bootstrapping stage. -/
theorem C87_selected (units : List (I × Unit' J I)) (idOf : J → I) {n : Nat} {p : Plan J I} {t : Qual J I}
    (h : qualifier units n p = .ok t) (j : J) :
    t.designates idOf j = true ↔
      (∃ q, Part units p q ∧ On idOf q.incl j) ∧ ∀ q, Part units p q → ¬ On idOf q.excl j ∧ ¬ Boots idOf q j := by
  have hs := qualifier_spec h
  rw [(Qualifiers.C12_composite_vote idOf j).2.2.2 t]
  apply and_congr
  · constructor
    · rintro ⟨x, hx, hm, hi⟩
      obtain ⟨q, hq, ⟨l, k, hl, hk, rfl⟩ | ⟨l, k, hl, hk, rfl⟩ | ⟨l, i, hl, hk, rfl⟩⟩ := (hs x).1 hx
      · exact ⟨q, hq, l, k, hl, hk, (matches_fits idOf _ k j).1 hm⟩
      · cases hi
      · cases hi
    · rintro ⟨q, hq, l, k, hl, hk, hf⟩
      exact ⟨⟨true, k⟩, (hs _).2 ⟨q, hq, .inl ⟨l, k, hl, hk, rfl⟩⟩, (matches_fits idOf _ k j).2 hf, rfl⟩
  · constructor
    · intro hn q hq
      constructor
      · rintro ⟨l, k, hl, hk, hf⟩
        exact hn ⟨⟨false, k⟩, (hs _).2 ⟨q, hq, .inr (.inl ⟨l, k, hl, hk, rfl⟩)⟩, (matches_fits idOf _ k j).2 hf, by simp⟩
      · rintro ⟨l, hl, hi⟩
        exact hn ⟨⟨false, .idEq (idOf j)⟩, (hs _).2 ⟨q, hq, .inr (.inr ⟨l, _, hl, hi, rfl⟩)⟩,
          (matches_fits idOf _ _ j).2 rfl, by simp⟩
    · rintro hn ⟨x, hx, hm, hi⟩
      obtain ⟨q, hq, ⟨l, k, hl, hk, rfl⟩ | ⟨l, k, hl, hk, rfl⟩ | ⟨l, i, hl, hk, rfl⟩⟩ := (hs x).1 hx
      · exact hi rfl
      · exact (hn q hq).1 ⟨l, k, hl, hk, (matches_fits idOf _ k j).1 hm⟩
      · have := (matches_fits idOf _ (.idEq i) j).1 hm
        exact (hn q hq).2 ⟨l, hl, by rw [show i = idOf j from this] at hk; exact hk⟩

/-- What is mandatory in the plan or one of its parts is mandatory, whatever is excluded. -/
theorem C87_mandatory (units : List (I × Unit' J I)) (idOf : J → I) {n : Nat} {p : Plan J I} {t : Qual J I}
    (h : mandatoryQualifier units n p = .ok t) (j : J) :
    t.designates idOf j = true ↔ ∃ q, Part units p q ∧ On idOf q.mand j := by
  have hs := mandatory_spec h
  rw [(Qualifiers.C12_composite_vote idOf j).2.2.2 t]
  constructor
  · rintro ⟨⟨x, hx, hm, -⟩, -⟩
    obtain ⟨q, hq, l, k, hl, hk, rfl⟩ := (hs x).1 hx
    exact ⟨q, hq, l, k, hl, hk, (matches_fits idOf _ k j).1 hm⟩
  · rintro ⟨q, hq, l, k, hl, hk, hf⟩
    refine ⟨⟨⟨true, k⟩, (hs _).2 ⟨q, hq, l, k, hl, hk, rfl⟩, (matches_fits idOf _ k j).2 hf, rfl⟩, ?_⟩
    rintro ⟨x, hx, -, hi⟩
    obtain ⟨q, hq, l, k, hl, hk, rfl⟩ := (hs x).1 hx
    exact hi rfl

/-- The bootstrapping stage has the jobs of the plan and of its parts; none of them is selected again afterwards. -/
theorem C87_stages (units : List (I × Unit' J I)) (idOf : J → I) {n : Nat} {p : Plan J I} {b : Qual J I}
    (hb : bootQualifier units false n p = .ok b) (j : J) :
    (b.designates idOf j = true ↔ ∃ q, Part units p q ∧ Boots idOf q j) ∧
      ∀ m t, qualifier units m p = .ok t → b.designates idOf j = true → t.designates idOf j = false := by
  have hs := bootQualifier_spec hb
  have key : b.designates idOf j = true ↔ ∃ q, Part units p q ∧ Boots idOf q j := by
    rw [(Qualifiers.C12_composite_vote idOf j).2.2.2 b]
    constructor
    · rintro ⟨⟨x, hx, hm, -⟩, -⟩
      obtain ⟨q, hq, l, i, hl, hi, rfl⟩ := (hs x).1 hx
      have := (matches_fits idOf _ (.idEq i) j).1 hm
      exact ⟨q, hq, l, hl, by rw [show i = idOf j from this] at hi; exact hi⟩
    · rintro ⟨q, hq, l, hl, hi⟩
      refine ⟨⟨⟨!false, .idEq (idOf j)⟩, (hs _).2 ⟨q, hq, l, _, hl, hi, rfl⟩, (matches_fits idOf _ _ j).2 rfl, rfl⟩, ?_⟩
      rintro ⟨x, hx, -, hi⟩
      obtain ⟨q, hq, l, k, hl, hk, rfl⟩ := (hs x).1 hx
      exact hi rfl
  refine ⟨key, fun m t ht hd => ?_⟩
  obtain ⟨q, hq, hbo⟩ := key.1 hd
  cases e : t.designates idOf j with
  | false => rfl
  | true => exact absurd hbo (((C87_selected units idOf ht j).1 e).2 q hq).2

/-- Plans whose lines have no errors can be used exactly if no part is nested in itself. (Partial: a plan should be
usable, or refused with a message; see `C87_circular_violated`.) -/
theorem C87_usable_partial (units : List (I × Unit' J I)) (p : Plan J I)
    (hf : ∀ q, Part units p q → Fine q.incl ∧ Fine q.excl) :
    (∃ n t, qualifier units n p = .ok t) ↔ ¬ Circular units p := by
  constructor
  · rintro ⟨n, t, h⟩ ⟨q, r, h1, h2, h3⟩
    rcases deep_part h1 (qualifier_deep h) with h | ⟨m, -, h⟩
    · exact circular_not_deep h2 h3 n h
    · exact circular_not_deep h2 h3 m h
  · intro hc
    have := not_circular_deep (plansOf units).length p [] hc List.nodup_nil (by simp) (by simp) (by simp)
    obtain ⟨t, ht⟩ := deep_qualifier this hf
    exact ⟨_, t, ht⟩

/-- The jobs that are selected when a test plan is chosen in a session. -/
theorem C87_jobs (idOf : J → I) (session installed : List (I × Unit' J I)) (jobs : List J)
    (hid : (jobs.map idOf).Nodup) {n : Nat} {i : I} {l : List J}
    (h : select idOf session installed jobs n i = some (.ok l)) :
    ∃ p, Called session i p ∧ ∀ j, j ∈ l ↔ j ∈ jobs ∧
      (∃ q, Part installed p q ∧ On idOf q.incl j) ∧
        ∀ q, Part installed p q → ¬ On idOf q.excl j ∧ ¬ Boots idOf q j := by
  classical
  unfold select at h
  split at h
  · cases h
  · next p hp =>
    refine ⟨p, find_called.1 hp, fun j => ?_⟩
    split at h
    · cases h
    · next t ht =>
      cases h
      rw [← C87_selected installed idOf ht j, Narrow.mem_selectJobs hid,
        (Qualifiers.C12_composite_vote idOf j).2.2.2 t]
      have : Qualifiers.flatPrimitives [t] = t.primitives := by simp [Qualifiers.flatPrimitives]
      simp only [this, Qualifiers.Includes, Qualifiers.Excludes, Bool.not_eq_true]

/-! ## Where the code fails -/

theorem each_recursion {α β : Type} {f : α → Except Err β} {l : List α} {e : Err} (h : each f l = .error e)
    (hf : ∀ a ∈ l, ∀ e, f a = .error e → e = .recursion) : e = .recursion := by
  obtain ⟨a, ha, he⟩ := each_error h
  exact hf a ha e he

theorem bootIds_recursion {units : List (I × Unit' J I)} : ∀ {n : Nat} {p : Plan J I} {e : Err},
    bootIds units n p = .error e → e = .recursion
  | 0, _, _, h => by cases h; rfl
  | n + 1, p, e, h => by
    simp only [bootIds] at h
    split at h
    · next e' he => cases h; exact each_recursion he fun q _ e hq => bootIds_recursion hq
    · cases h

theorem bootQualifier_recursion {units : List (I × Unit' J I)} {b : Bool} : ∀ {n : Nat} {p : Plan J I} {e : Err},
    bootQualifier units b n p = .error e → e = .recursion
  | 0, _, _, h => by cases h; rfl
  | n + 1, p, e, h => by
    simp only [bootQualifier] at h
    split at h
    · next e' he =>
      cases h
      unfold bootOwn at he
      split at he
      · cases he
      · split at he
        · next e' he' => cases he; exact bootIds_recursion he'
        · cases he
    · split at h
      · next e' he => cases h; exact each_recursion he fun q _ e hq => bootQualifier_recursion hq
      · cases h

theorem qualifier_recursion {units : List (I × Unit' J I)} : ∀ {n : Nat} {p : Plan J I} {e : Err},
    (∀ q, Part units p q → Fine q.incl ∧ Fine q.excl) → qualifier units n p = .error e → e = .recursion
  | 0, _, _, _, h => by cases h; rfl
  | n + 1, p, e, hf, h => by
    obtain ⟨i, hi⟩ := lines_total (b := true) (hf p (.refl p)).1
    obtain ⟨x, hx⟩ := lines_total (b := false) (hf p (.refl p)).2
    simp only [qualifier, hi, hx] at h
    split at h
    · next e' he => cases h; exact bootQualifier_recursion he
    · split at h
      · next e' he =>
        cases h
        exact each_recursion he fun q hq e h' => qualifier_recursion (fun r hr => hf r (.step (mem_nested.1 hq) hr)) h'
      · cases h

theorem part_only {units : List (I × Unit' J I)} {p a q : Plan J I} (h : ∀ x ∈ plansOf units, x = p)
    (hq : Part units a q) (ha : a = p) : q = p := by
  induction hq with
  | refl => exact ha
  | step h1 _ ih => exact ih (h _ (nested_mem h1))

/-- A plan with a part that is nested in itself ends the program with `RecursionError`, whatever the limit; there is
such a plan. -/
theorem C87_circular_violated :
    (∀ (units : List (I × Unit' J I)) (p : Plan J I), Circular units p →
      (∀ q, Part units p q → Fine q.incl ∧ Fine q.excl) → ∀ n, qualifier units n p = .error .recursion) ∧
    ∃ (units : List (Nat × Unit' Nat Nat)) (p : Plan Nat Nat), Called units 1 p ∧ Circular units p ∧
      ∀ q, Part units p q → Fine q.incl ∧ Fine q.excl := by
  constructor
  · intro units p hc hf n
    cases h : qualifier units n p with
    | ok t => exact absurd hc ((C87_usable_partial units p hf).1 ⟨n, t, h⟩)
    | error e => rw [qualifier_recursion hf h]
  · let p : Plan Nat Nat := ⟨some [some (.idEq 10)], none, none, none, some [1]⟩
    have hcall : Called [(1, .plan p)] 1 p := ⟨[], [], rfl, by simp⟩
    have hn : Nested [(1, .plan p)] p p := ⟨[1], 1, rfl, by simp, hcall⟩
    refine ⟨[(1, .plan p)], p, hcall, ⟨p, p, .refl p, hn, .refl p⟩, fun q hq => ?_⟩
    have : q = p := part_only (by intro x hx; simpa [plansOf] using hx) hq rfl
    subst this
    exact ⟨fun l hl => by cases hl; simp, fun l hl => by cases hl⟩

/-- Plan 1 includes jobs 10 and 11. Plan 2 is the same with the part 3, which includes 12, excludes 10 and boots 11. -/
def exUnits : List (Nat × Unit' Nat Nat) :=
  [(1, .plan ⟨some [some (.idEq 10), some (.idEq 11)], none, none, none, none⟩),
   (2, .plan ⟨some [some (.idEq 10), some (.idEq 11)], none, none, none, some [3]⟩),
   (3, .plan ⟨some [some (.idEq 12)], some [some (.idEq 10)], some [some (.idEq 10)], some [11], some [4, 99]⟩),
   (4, .plan ⟨some [some (.other (· ≥ 13))], none, none, none, none⟩)]

/-- Adding a nested part takes jobs away that the plan itself includes: its exclusions and its bootstrapping jobs
apply to the whole plan. -/
theorem C87_union_violated :
    select id exUnits exUnits [10, 11, 12, 13] 9 1 = some (.ok [10, 11]) ∧
    select id exUnits exUnits [10, 11, 12, 13] 9 2 = some (.ok [12, 13]) := by
  constructor <;> decide

/-- Nested parts are looked up among the installed providers. A part that is in the session but not installed is left
out; one that is installed in another version is taken instead. -/
theorem C87_session_violated :
    select id exUnits [] [10, 11, 12, 13] 9 2 = some (.ok [10, 11]) ∧
    select id exUnits [(3, .plan ⟨some [some (.idEq 13)], none, none, none, none⟩)] [10, 11, 12, 13] 9 2 =
      some (.ok [10, 11, 13]) := by
  constructor <;> decide

/-! ## Examples -/

-- C87_selected, C87_jobs: see `C87_union_violated`; two levels deep, 99 is not found
example : (qualifier exUnits 9 ⟨none, none, none, none, some [3]⟩).toOption.map
    (fun t => [10, 11, 12, 13].filter (t.designates id)) = some [12, 13] := by decide

-- C87_mandatory: 10 is mandatory although it is excluded
example : (mandatoryQualifier exUnits 9 ⟨none, none, some [some (.idEq 13)], none, some [3]⟩).toOption.map
    (fun t => [10, 11, 12, 13].filter (t.designates id)) = some [10, 13] := by decide

-- C87_stages
example : (bootQualifier exUnits false 9 ⟨none, none, none, some [12], some [3]⟩).toOption.map
    (fun t => [10, 11, 12, 13].filter (t.designates id)) = some [11, 12] := by decide

-- C87_usable_partial: the plans above; errors of a part are errors of the plan
example : (select id exUnits exUnits [10] 3 2 = some (.error .recursion)) ∧
    select id [(1, .plan ⟨none, none, none, none, some [2]⟩)] [(2, .plan ⟨some [none], none, none, none, none⟩)] [10] 9 1 =
      some (.error .line) := by decide

end Verif.Nest
