import Verif.Model.Checksum
import Verif.Lemmas.Sort
import Verif.Props.IOLog
import Std.Data.String.ToNat

/-! # C33: unit checksums -/

set_option linter.unusedSimpArgs false

namespace Verif.Checksum

/-! ## Helper lemmas -/

theorem jsonStr_inj {a b x y : Str} (h : IOLog.jsonStr a ++ x = IOLog.jsonStr b ++ y) :
    a = b ∧ x = y := by
  simp only [IOLog.jsonStr, List.cons_append, List.append_assoc, List.nil_append,
    List.cons.injEq, true_and] at h
  have h1 := IOLog.scanStr_round a x
  rw [h, IOLog.scanStr_round b y] at h1
  simp only [Option.some.injEq, Prod.mk.injEq] at h1
  exact ⟨h1.1.symm, h1.2.symm⟩

theorem jsonStr_cons (s : Str) : ∃ t, IOLog.jsonStr s = '"' :: t := ⟨_, rfl⟩

/-- What follows a value in a JSON text. -/
def Delim (r : Str) : Prop := ∃ t, r = ',' :: t ∨ r = '}' :: t

/-- A serialisation that can be read back from the front. -/
def Readable {V : Type} (ser : V → Str) : Prop :=
  ∀ a b x y, Delim x → Delim y → ser a ++ x = ser b ++ y → a = b ∧ x = y

theorem readable_str : Readable IOLog.jsonStr := fun _ _ _ _ _ _ h => jsonStr_inj h

theorem digits_inj {m n : Nat} (h : Nat.toDigits 10 m = Nat.toDigits 10 n) : m = n := by
  apply Nat.repr_injective
  rw [Nat.repr_eq_ofList_toDigits, Nat.repr_eq_ofList_toDigits, h]

theorem prefix_split {p : Char → Bool} {a b x y : Str} (ha : ∀ c ∈ a, p c = true)
    (hb : ∀ c ∈ b, p c = true) (hx : ∀ c t, x = c :: t → p c = false)
    (hy : ∀ c t, y = c :: t → p c = false) (h : a ++ x = b ++ y) : a = b ∧ x = y := by
  induction a generalizing b with
  | nil =>
    cases b with
    | nil => exact ⟨rfl, h⟩
    | cons c b =>
      have := hx c (b ++ y) h
      rw [hb c (by simp)] at this
      cases this
  | cons c a ih =>
    cases b with
    | nil =>
      have := hy c (a ++ x) h.symm
      rw [ha c (by simp)] at this
      cases this
    | cons d b =>
      simp only [List.cons_append, List.cons.injEq] at h
      obtain ⟨rfl, h⟩ := h
      obtain ⟨rfl, h2⟩ := ih (fun c hc => ha c (by simp [hc])) (fun c hc => hb c (by simp [hc])) h
      exact ⟨rfl, h2⟩

theorem delim_nodigit {x : Str} (hx : Delim x) : ∀ c t, x = c :: t → c.isDigit = false := by
  rintro c t rfl
  obtain ⟨t', h | h⟩ := hx
  · rw [(List.cons.inj h).1]; rfl
  · rw [(List.cons.inj h).1]; rfl

theorem digits_digit (n : Nat) : ∀ c ∈ Nat.toDigits 10 n, c.isDigit = true :=
  fun _ hc => Nat.isDigit_of_mem_toDigits (by decide) (by decide) hc

theorem digits_cons (n : Nat) : ∃ c t, Nat.toDigits 10 n = c :: t ∧ c ≠ '"' := by
  cases h : Nat.toDigits 10 n with
  | nil =>
    have := Nat.length_toDigits_pos (b := 10) (n := n)
    rw [h] at this
    simp at this
  | cons c t =>
    refine ⟨c, t, rfl, ?_⟩
    rintro rfl
    have := digits_digit n '"' (by rw [h]; simp)
    exact absurd this (by decide)

theorem readable_param : Readable serP := by
  rintro (a | m) (b | n) x y hx hy h
  · obtain ⟨h1, h2⟩ := jsonStr_inj (a := a) (b := b) h; exact ⟨by rw [h1], h2⟩
  · obtain ⟨c, t, hc, hq⟩ := digits_cons n
    simp only [serP, hc, IOLog.jsonStr, List.cons_append, List.cons.injEq] at h
    exact absurd h.1.symm hq
  · obtain ⟨c, t, hc, hq⟩ := digits_cons m
    simp only [serP, hc, IOLog.jsonStr, List.cons_append, List.cons.injEq] at h
    exact absurd h.1 hq
  · obtain ⟨h1, h2⟩ := prefix_split (digits_digit m) (digits_digit n) (delim_nodigit hx)
      (delim_nodigit hy) h
    exact ⟨by rw [digits_inj h1], h2⟩

theorem dumpItems_cons {V : Type} (ser : V → Str) (k : Str) (v : V) (l : List (Str × V)) :
    ∃ r, dumpItems ser ((k, v) :: l) = IOLog.jsonStr k ++ ':' :: (ser v ++ r) ∧ Delim r ∧
      ((l = [] ∧ r = ['}']) ∨ (l ≠ [] ∧ r = ',' :: dumpItems ser l)) := by
  cases l with
  | nil => exact ⟨['}'], rfl, ⟨[], .inr rfl⟩, .inl ⟨rfl, rfl⟩⟩
  | cons x l => exact ⟨_, rfl, ⟨_, .inl rfl⟩, .inr ⟨by simp, rfl⟩⟩

theorem dumpItems_inj {V : Type} {ser : V → Str} (hs : Readable ser) :
    ∀ (l l' : List (Str × V)) (x y : Str), dumpItems ser l ++ x = dumpItems ser l' ++ y →
      l = l' ∧ x = y := by
  intro l
  induction l with
  | nil =>
    intro l' x y h
    cases l' with
    | nil => simpa [dumpItems] using h
    | cons q l' =>
      obtain ⟨k, v⟩ := q
      obtain ⟨r, hr, _, _⟩ := dumpItems_cons ser k v l'
      rw [hr] at h
      simp [dumpItems, IOLog.jsonStr] at h
  | cons p l ih =>
    intro l' x y h
    obtain ⟨k, v⟩ := p
    obtain ⟨r, hr, hd, hcase⟩ := dumpItems_cons ser k v l
    cases l' with
    | nil =>
      rw [hr] at h
      simp [dumpItems, IOLog.jsonStr] at h
    | cons q l' =>
      obtain ⟨k', v'⟩ := q
      obtain ⟨r', hr', hd', hcase'⟩ := dumpItems_cons ser k' v' l'
      rw [hr, hr'] at h
      simp only [List.append_assoc, List.cons_append] at h
      obtain ⟨hk, h2⟩ := jsonStr_inj h
      subst hk
      replace h := h2
      simp only [List.cons.injEq, true_and] at h
      have hdx : ∀ {r x}, Delim r → Delim (r ++ x) := by
        rintro r x ⟨t, rfl | rfl⟩
        · exact ⟨t ++ x, .inl rfl⟩
        · exact ⟨t ++ x, .inr rfl⟩
      obtain ⟨hv, h3⟩ := hs _ _ _ _ (hdx hd) (hdx hd') h
      subst hv
      replace h := h3
      rcases hcase with ⟨rfl, rfl⟩ | ⟨hl, rfl⟩ <;> rcases hcase' with ⟨rfl, rfl⟩ | ⟨hl', rfl⟩
      · simp only [List.cons_append, List.nil_append, List.cons.injEq, true_and] at h
        exact ⟨rfl, h⟩
      · simp at h
      · simp at h
      · simp only [List.cons_append, List.cons.injEq, true_and] at h
        obtain ⟨h4, h5⟩ := ih l' x y h
        exact ⟨by rw [h4], h5⟩

theorem dumpDict_inj {V : Type} {ser : V → Str} (hs : Readable ser) {l l' : List (Str × V)}
    {x y : Str} (h : dumpDict ser l ++ x = dumpDict ser l' ++ y) : l = l' ∧ x = y := by
  simp only [dumpDict, List.cons_append, List.cons.injEq, true_and] at h
  exact dumpItems_inj hs l l' x y h

theorem sortItems_perm {V : Type} (l : List (Str × V)) : (sortItems l).Perm l := Sort.sortBy_perm l

theorem sortItems_eq_iff {V : Type} {l l' : List (Str × V)} (hl : (l.map (·.1)).Nodup) :
    sortItems l = sortItems l' ↔ l.Perm l' := by
  constructor
  · intro h
    exact (sortItems_perm l).symm.trans (h ▸ sortItems_perm l')
  · intro h
    have hp : (sortItems l).Perm (sortItems l') :=
      (sortItems_perm l).trans (h.trans (sortItems_perm l').symm)
    have hs : ∀ l : List (Str × V),
        (sortItems l).Pairwise fun a b => Sort.strLe a.1 b.1 = true := fun l =>
      Sort.sortBy_sorted (le := fun a b => Sort.strLe a.1 b.1) (fun _ _ => Sort.strLe_total _ _)
        (fun _ _ _ => Sort.strLe_trans _ _ _) l
    refine hp.eq_of_pairwise (le := fun a b => Sort.strLe a.1 b.1 = true) ?_ (hs l) (hs l')
    intro a b ha hb h1 h2
    have ha' : a ∈ l := (sortItems_perm l).mem_iff.1 ha
    have hb' : b ∈ l := h.mem_iff.2 ((sortItems_perm l').mem_iff.1 hb)
    have hk := Sort.strLe_antisymm _ _ h1 h2
    -- distinct keys: equal keys mean equal items
    have key : ∀ {l : List (Str × V)}, (l.map (·.1)).Nodup → ∀ a ∈ l, ∀ b ∈ l, a.1 = b.1 → a = b := by
      intro l hn
      induction l with
      | nil => intro a ha; cases ha
      | cons c l ih =>
        rw [List.map_cons, List.nodup_cons] at hn
        intro a ha b hb hab
        rcases List.mem_cons.1 ha with e1 | h1 <;> rcases List.mem_cons.1 hb with e2 | h2
        · rw [e1, e2]
        · exact absurd (List.mem_map.2 ⟨b, h2, by rw [← hab, e1]⟩) hn.1
        · exact absurd (List.mem_map.2 ⟨a, h1, by rw [hab, e2]⟩) hn.1
        · exact ih hn.2 a h1 b h2 hab
    exact key hl a ha' b hb' hk

theorem dictSet_absent {V : Type} {k : Str} {v : V} {l : List (Str × V)} (h : k ∉ l.map (·.1)) :
    dictSet k v l = l ++ [(k, v)] := by
  induction l with
  | nil => rfl
  | cons x l ih =>
    simp only [List.map_cons, List.mem_cons, not_or] at h
    simp only [dictSet, if_neg (Ne.symm h.1), ih h.2, List.cons_append]

/-! ## The property -/

/-- A unit whose dictionaries have distinct keys, as all dictionaries do. -/
structure Wf (u : Unit') : Prop where
  data : (u.data.map (·.1)).Nodup
  params : ∀ ps, u.params = some ps → (ps.map (·.1)).Nodup

/-- The namespace, where no provider and an empty namespace count as the same. -/
def nsOf (u : Unit') : Str := u.ns.getD []

/-- The same parameters, up to their order. -/
def SameParams : Option (List (Str × PVal)) → Option (List (Str × PVal)) → Prop
  | none, none => True
  | some a, some b => a.Perm b
  | _, _ => False

variable {D : Type} (sha : Str → D)

/-- C33, one direction, without restriction: units with the same fields, namespace and parameters
have the same checksum, whatever the order of fields and parameters. -/
theorem C33_same (u v : Unit') (hu : Wf u) (hd : u.data.Perm v.data)
    (hn : nsOf u = nsOf v) (hp : SameParams u.params v.params) :
    checksum sha u = checksum sha v := by
  obtain ⟨d, n, p⟩ := u
  obtain ⟨d', n', p'⟩ := v
  have h1 : sortItems d = sortItems d' := (sortItems_eq_iff hu.data).2 hd
  have h2 : ∀ l, addNamespace n l = addNamespace n' l := by
    intro l
    simp only [nsOf] at hn
    cases n with
    | none =>
      cases n' with
      | none => rfl
      | some m => simp only [Option.getD_none, Option.getD_some] at hn; subst hn; rfl
    | some k =>
      cases n' with
      | none => simp only [Option.getD_none, Option.getD_some] at hn; subst hn; rfl
      | some m => simp only [Option.getD_some] at hn; subst hn; rfl
  unfold checksum canonical
  rw [h1, h2]
  congr 2
  cases p with
  | none =>
    cases p' with
    | none => rfl
    | some b => exact absurd hp id
  | some a =>
    cases p' with
    | none => exact absurd hp id
    | some b =>
      have : sortItems a = sortItems b := (sortItems_eq_iff (hu.params a rfl)).2 hp
      simp only [this]

/-- C33, both directions, for units that have no field called `namespace` and whose texts do not
collide under the hash function. -/
theorem C33_iff_partial (u v : Unit') (hu : Wf u)
    (hnu : "namespace".toList ∉ u.data.map (·.1)) (hnv : "namespace".toList ∉ v.data.map (·.1))
    (hsha : sha (canonical u) = sha (canonical v) → canonical u = canonical v) :
    checksum sha u = checksum sha v ↔
      u.data.Perm v.data ∧ nsOf u = nsOf v ∧ SameParams u.params v.params := by
  constructor
  · intro h
    have h := hsha h
    unfold canonical at h
    obtain ⟨h1, h2⟩ := dumpDict_inj readable_str h
    have hkey : ∀ (w : Unit'), "namespace".toList ∉ w.data.map (·.1) →
        "namespace".toList ∉ (sortItems w.data).map (·.1) := by
      intro w hw hm
      exact hw (((sortItems_perm w.data).map _).mem_iff.1 hm)
    have hu' := hkey u hnu
    have hv' := hkey v hnv
    have hadd : ∀ (n : Option Str) (l : List (Str × Str)), "namespace".toList ∉ l.map (·.1) →
        addNamespace n l = l ++ (if n.getD [] = [] then [] else [("namespace".toList, n.getD [])]) := by
      intro n l hl
      cases n with
      | none => simp [addNamespace]
      | some n =>
        by_cases hn : n = []
        · subst hn; simp [addNamespace]
        · simp only [addNamespace, hn, ↓reduceIte, dictSet_absent hl, Option.getD_some]
    rw [hadd _ _ hu', hadd _ _ hv'] at h1
    have hmem : ∀ {l l' : List (Str × Str)} {a : Str}, l ++ [("namespace".toList, a)] = l' ++ [] →
        "namespace".toList ∉ l'.map (·.1) → False := by
      intro l l' a h hn
      apply hn
      rw [List.append_nil] at h
      rw [← h]
      simp
    have hdn : sortItems u.data = sortItems v.data ∧ nsOf u = nsOf v := by
      unfold nsOf
      by_cases a : u.ns.getD [] = [] <;> by_cases b : v.ns.getD [] = []
      · rw [if_pos a, if_pos b] at h1
        exact ⟨by simpa using h1, a.trans b.symm⟩
      · rw [if_pos a, if_neg b] at h1
        exact absurd (hmem h1.symm hu') id
      · rw [if_neg a, if_pos b] at h1
        exact absurd (hmem h1 hv') id
      · rw [if_neg a, if_neg b] at h1
        obtain ⟨e1, e2⟩ := List.append_inj' h1 rfl
        simp only [List.cons.injEq, Prod.mk.injEq, true_and, and_true] at e2
        exact ⟨e1, e2⟩
    refine ⟨(sortItems_eq_iff hu.data).1 hdn.1, hdn.2, ?_⟩
    revert h2
    cases hp : u.params with
    | none =>
      cases hq : v.params with
      | none => intro _; trivial
      | some b => intro h2; simp [dumpDict] at h2
    | some a =>
      cases hq : v.params with
      | none => intro h2; simp [dumpDict] at h2
      | some b =>
        intro h2
        have := (dumpDict_inj readable_param (l := sortItems a) (l' := sortItems b) (x := [])
          (y := []) (by simpa using h2)).1
        exact (sortItems_eq_iff (hu.params a hp)).1 this
  · rintro ⟨h1, h2, h3⟩
    exact C33_same sha u v hu h1 h2 h3

/-- C33 is violated by a field called `namespace`: a unit without a provider that has the field has
the checksum of a unit of that provider without the field. -/
theorem C33_namespace_violated :
    let u : Unit' := ⟨[("id".toList, ['x']), ("namespace".toList, ['n'])], none, none⟩
    let v : Unit' := ⟨[("id".toList, ['x'])], some ['n'], none⟩
    checksum sha u = checksum sha v ∧ ¬ u.data.Perm v.data ∧ nsOf u ≠ nsOf v := by
  refine ⟨?_, ?_, by decide⟩
  · exact congrArg sha (by decide +kernel)
  · intro h
    exact absurd h.length_eq (by decide)

/-- C33 is violated by a field called `namespace`: for units of a provider its value is ignored. -/
theorem C33_namespace_ignored_violated :
    let u : Unit' := ⟨[("namespace".toList, ['a'])], some ['n'], none⟩
    let v : Unit' := ⟨[("namespace".toList, ['b'])], some ['n'], none⟩
    checksum sha u = checksum sha v ∧ ¬ u.data.Perm v.data := by
  refine ⟨congrArg sha (by decide +kernel), ?_⟩
  intro h
  exact absurd (List.singleton_perm_singleton.1 h) (by decide)

/-- Two units that differ in one parameter: the hypotheses of `C33_iff_partial` hold with the
identity for the hash function, and the checksums differ. -/
example :
    let u : Unit' := ⟨[("unit".toList, "job".toList), ("id".toList, "a{x}".toList)], some ['n'],
      some [(['x'], .str ['1']), ("__index__".toList, .num 1)]⟩
    let v : Unit' := ⟨[("id".toList, "a{x}".toList), ("unit".toList, "job".toList)], some ['n'],
      some [(['x'], .str ['1']), ("__index__".toList, .num 2)]⟩
    Wf u ∧ "namespace".toList ∉ u.data.map (·.1) ∧ "namespace".toList ∉ v.data.map (·.1) ∧
      u.data.Perm v.data ∧ checksum (fun t => t) u ≠ checksum (fun t => t) v := by
  refine ⟨⟨by decide, ?_⟩, by decide, by decide, List.Perm.swap _ _ _, by decide +kernel⟩
  intro ps h
  cases h
  decide

end Verif.Checksum
