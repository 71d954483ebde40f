import Verif.Model.Listing

/-!
# C121: what `plainbox list` lists
-/

namespace Verif.Listing

/-! ## Specification -/

/-- An object by itself: its group, the `repr` of its name, and its attributes. -/
structure Entry where
  group : Str
  name : Str
  attrs : List (Str × Str)
deriving DecidableEq

/-- The eight types of units that can be listed. -/
def listed : List Str :=
  ["job".toList, "test plan".toList, "category".toList, "file".toList, "template".toList,
   "manifest entry".toList, "packaging meta-data".toList, "exporter".toList]

/-- What a unit goes by: files by their path, packaging meta-data by the system, all others by their
id. -/
def goesBy (u : Unit) : Str :=
  if u.type = "file".toList then u.path
  else if u.type = "packaging meta-data".toList then u.osId
  else u.id

/-- Everything there is, each thing after the one it belongs to. -/
def everything (e : Explorer) : List Entry :=
  ⟨"service".toList, "'service object'".toList, []⟩ ::
  ((e.providers.flatMap fun p =>
      ⟨"provider".toList, p.name, p.attrs⟩ :: p.units.map fun u => ⟨u.type, goesBy u, u.attrs⟩) ++
   e.repositories.flatMap fun r =>
      ⟨"repository".toList, r.location, []⟩ ::
        r.storages.map fun s => ⟨"storage".toList, s.location, s.attrs⟩)

/-- The lines of one object without indentation. -/
def entryLines (attrs : Bool) (x : Entry) : List Str :=
  (x.group ++ " ".toList ++ x.name) ::
    if attrs then
      x.attrs.map fun a => "  ".toList ++ a.1 ++ List.replicate (15 - a.1.length) ' ' ++ ": ".toList ++ a.2
    else []

/-! ## Lemmas -/

theorem unit_eq (u : Unit) : unitToObj u =
    if u.type ∈ listed then some (.mk u.type (goesBy u) u.attrs []) else none := by
  obtain ⟨t, i, p, os, as⟩ := u
  by_cases hm : t ∈ listed
  · rw [if_pos hm]
    simp only [listed, List.mem_cons, List.not_mem_nil, or_false] at hm
    rcases hm with h | h | h | h | h | h | h | h <;> (subst h; rfl)
  · rw [if_neg hm]
    simp only [listed, List.mem_cons, List.not_mem_nil, or_false, not_or] at hm
    obtain ⟨h1, h2, h3, h4, h5, h6, h7, h8⟩ := hm
    simp only [unitToObj]
    rw [if_neg h2, if_neg h1, if_neg h3, if_neg h4, if_neg h5, if_neg h6, if_neg h7, if_neg h8]

theorem unit_some {u : Unit} {o : Obj} (h : unitToObj u = some o) :
    u.type ∈ listed ∧ o = .mk u.type (goesBy u) u.attrs [] := by
  rw [unit_eq] at h
  split at h
  · rename_i hm; exact ⟨hm, (Option.some.inj h).symm⟩
  · exact absurd h (by simp)

theorem unit_none {u : Unit} (h : unitToObj u = none) : u.type ∉ listed := by
  rw [unit_eq] at h
  split at h
  · exact absurd h (by simp)
  · assumption

theorem units_spec : ∀ us, (unitsToObjs us = none ↔ ∃ u ∈ us, u.type ∉ listed) ∧
    ∀ os, unitsToObjs us = some os →
      (∀ u ∈ us, u.type ∈ listed) ∧ os = us.map fun u => .mk u.type (goesBy u) u.attrs [] := by
  intro us
  induction us with
  | nil => simp [unitsToObjs]
  | cons u us ih =>
    simp only [unitsToObjs]
    cases e : unitToObj u with
    | none =>
      refine ⟨⟨fun _ => ⟨u, by simp, unit_none e⟩, fun _ => rfl⟩, by simp⟩
    | some o =>
      obtain ⟨h1, h2⟩ := unit_some e
      subst h2
      refine ⟨?_, ?_⟩
      · simp only [Option.bind_some, Option.map_eq_none_iff, ih.1, List.mem_cons]
        constructor
        · rintro ⟨v, hv, hn⟩; exact ⟨v, .inr hv, hn⟩
        · rintro ⟨v, rfl | hv, hn⟩
          · exact absurd h1 hn
          · exact ⟨v, hv, hn⟩
      · intro os h
        simp only [Option.bind_some, Option.map_eq_some_iff] at h
        obtain ⟨os', h3, rfl⟩ := h
        obtain ⟨h4, h5⟩ := ih.2 os' h3
        subst h5
        refine ⟨?_, rfl⟩
        intro v hv
        rcases List.mem_cons.mp hv with rfl | hv
        · exact h1
        · exact h4 v hv

theorem providers_spec : ∀ ps, (providersToObjs ps = none ↔ ∃ p ∈ ps, ∃ u ∈ p.units, u.type ∉ listed) ∧
    ∀ os, providersToObjs ps = some os → (∀ p ∈ ps, ∀ u ∈ p.units, u.type ∈ listed) ∧
      os = ps.map fun p => .mk "provider".toList p.name p.attrs
        (p.units.map fun u => .mk u.type (goesBy u) u.attrs []) := by
  intro ps
  induction ps with
  | nil => simp [providersToObjs]
  | cons p ps ih =>
    simp only [providersToObjs]
    cases e : unitsToObjs p.units with
    | none =>
      refine ⟨⟨fun _ => ⟨p, by simp, (units_spec _).1.mp e⟩, fun _ => rfl⟩, by simp⟩
    | some os0 =>
      obtain ⟨h1, h2⟩ := (units_spec _).2 _ e
      subst h2
      refine ⟨?_, ?_⟩
      · simp only [Option.bind_some, Option.map_eq_none_iff, ih.1, List.mem_cons]
        constructor
        · rintro ⟨q, hq, h⟩; exact ⟨q, .inr hq, h⟩
        · rintro ⟨q, rfl | hq, u, hu, hn⟩
          · exact absurd (h1 u hu) hn
          · exact ⟨q, hq, u, hu, hn⟩
      · intro os h
        simp only [Option.bind_some, Option.map_eq_some_iff] at h
        obtain ⟨os', h3, rfl⟩ := h
        obtain ⟨h4, h5⟩ := ih.2 os' h3
        subst h5
        refine ⟨?_, rfl⟩
        intro q hq
        rcases List.mem_cons.mp hq with rfl | hq
        · exact h1
        · exact h4 q hq

/-! ## C121 -/

/-- **C121**, when it fails: the list is given exactly if all units of all providers are of one of the
eight types.  Missing for the full claim: units of other types (`C121_fails_violated`). -/
theorem C121_given_partial (e : Explorer) (g : Option Str) (a : Bool) :
    (run e g a).isSome = true ↔ ∀ p ∈ e.providers, ∀ u ∈ p.units, u.type ∈ listed := by
  have h := (providers_spec e.providers).1
  unfold run objectTree
  cases hp : providersToObjs e.providers with
  | none =>
    obtain ⟨p, hpm, u, hu, hn⟩ := h.mp hp
    simp only [Option.map_none, Option.isSome_none, Bool.false_eq_true, false_iff]
    exact fun hall => hn (hall p hpm u hu)
  | some os =>
    simp only [Option.map_some, Option.isSome_some, true_iff]
    exact ((providers_spec _).2 os hp).1

theorem shows_one (g : Str) (a : Bool) (x n : Str) (as : List (Str × Str)) (cs : List Obj) (i : Str) :
    shows (some g) a i (.mk x n as cs) =
      (if x = g then headLine i x n :: (if a then attrLines (i ++ "  ".toList) as else []) else []) ++
      showAll (some g) a (if x = g then i ++ "  ".toList else i) cs := by
  rw [shows]
  generalize "  ".toList = bl
  have hc : (some g = none ∨ some g = some x) ↔ x = g := by
    constructor
    · rintro (h | h)
      · exact absurd h (by simp)
      · exact (Option.some.inj h).symm
    · rintro rfl; exact .inr rfl
  by_cases h : x = g
  · have h1 := hc.mpr h
    simp only [if_pos h1, if_pos h]
    cases cs with
    | nil => simp [showAll]
    | cons c cs => simp
  · have h1 : ¬ (some g = none ∨ some g = some x) := fun e => h (hc.mp e)
    simp only [if_neg h1, if_neg h]
    cases cs with
    | nil => simp [showAll]
    | cons c cs => simp

theorem entry_eq (a : Bool) (x : Entry) :
    headLine [] x.group x.name :: (if a then attrLines ([] ++ "  ".toList) x.attrs else []) = entryLines a x := by
  unfold entryLines headLine attrLines pad15
  cases a <;> simp

/-- An entry as an object without anything below it. -/
def leaf (x : Entry) : Obj := .mk x.group x.name x.attrs []

theorem shows_leaf (g : Str) (a : Bool) (x : Entry) :
    shows (some g) a [] (leaf x) = if x.group = g then entryLines a x else [] := by
  rw [leaf, shows_one, showAll, List.append_nil, entry_eq]

theorem showAll_leaves (g : Str) (a : Bool) : ∀ l : List Entry,
    showAll (some g) a [] (l.map leaf) =
      (l.filter fun x => decide (x.group = g)).flatMap (entryLines a) := by
  intro l
  induction l with
  | nil => rw [List.map_nil, showAll]; rfl
  | cons x l ih =>
    rw [List.map_cons, showAll, ih, shows_leaf]
    by_cases h : x.group = g
    · rw [if_pos h, List.filter_cons_of_pos (by simpa using h), List.flatMap_cons]
    · rw [if_neg h, List.filter_cons_of_neg (by simpa using h), List.nil_append]

theorem showAll_none (g : Str) (a : Bool) (i : Str) : ∀ l : List Entry, (∀ x ∈ l, x.group ≠ g) →
    showAll (some g) a i (l.map leaf) = [] := by
  intro l
  induction l with
  | nil => intro _; rw [List.map_nil, showAll]
  | cons x l ih =>
    intro h
    have hx := h x (by simp)
    rw [List.map_cons, showAll, ih (fun y hy => h y (by simp [hy])), leaf, shows_one, if_neg hx, showAll]
    rfl

theorem filter_none (g : Str) (l : List Entry) (h : ∀ x ∈ l, x.group ≠ g) :
    l.filter (fun x => decide (x.group = g)) = [] := by
  rw [List.filter_eq_nil_iff]
  intro x hx
  simpa using h x hx

theorem showAll_append (g : Option Str) (a : Bool) (i : Str) (k l : List Obj) :
    showAll g a i (k ++ l) = showAll g a i k ++ showAll g a i l := by
  induction k with
  | nil => simp [showAll]
  | cons o k ih => simp [showAll, ih]

/-- An object with entries below it. -/
def over (x : Entry) (l : List Entry) : Obj := .mk x.group x.name x.attrs (l.map leaf)

/-- An object over entries that are in other groups than it is. -/
theorem shows_over (g : Str) (a : Bool) (x : Entry) (l : List Entry) (hx : ∀ y ∈ l, y.group ≠ x.group) :
    shows (some g) a [] (over x l) =
      ((x :: l).filter fun y => decide (y.group = g)).flatMap (entryLines a) := by
  rw [over, shows_one]
  by_cases h : x.group = g
  · rw [if_pos h, if_pos h, showAll_none g a _ l (fun y hy => h ▸ hx y hy), entry_eq,
      List.filter_cons_of_pos (by simpa using h), filter_none g l (fun y hy => h ▸ hx y hy)]
    rfl
  · rw [if_neg h, if_neg h, showAll_leaves, List.filter_cons_of_neg (by simpa using h)]
    rfl

theorem showAll_over (g : Str) (a : Bool) : ∀ l : List (Entry × List Entry),
    (∀ x ∈ l, ∀ y ∈ x.2, y.group ≠ x.1.group) →
    showAll (some g) a [] (l.map fun x => over x.1 x.2) =
      ((l.flatMap fun x => x.1 :: x.2).filter fun y => decide (y.group = g)).flatMap (entryLines a) := by
  intro l
  induction l with
  | nil => intro _; rw [List.map_nil, showAll]; rfl
  | cons x l ih =>
    intro h
    rw [List.map_cons, showAll, ih (fun y hy => h y (by simp [hy])), shows_over g a _ _ (h x (by simp)),
      List.flatMap_cons, List.filter_append, List.flatMap_append]

theorem showAll_over_none (g : Str) (a : Bool) (i : Str) : ∀ l : List (Entry × List Entry),
    (∀ x ∈ l, x.1.group ≠ g ∧ ∀ y ∈ x.2, y.group ≠ g) →
    showAll (some g) a i (l.map fun x => over x.1 x.2) = [] := by
  intro l
  induction l with
  | nil => intro _; rw [List.map_nil, showAll]
  | cons x l ih =>
    intro h
    have hx := h x (by simp)
    rw [List.map_cons, showAll, ih (fun y hy => h y (by simp [hy])), over, shows_one, if_neg hx.1,
      if_neg hx.1, showAll_none g a _ _ hx.2]
    rfl

/-- Three levels of objects. -/
theorem shows_root (g : Str) (a : Bool) (r : Entry) (l : List (Entry × List Entry))
    (h1 : ∀ x ∈ l, ∀ y ∈ x.2, y.group ≠ x.1.group)
    (h2 : ∀ x ∈ l, x.1.group ≠ r.group ∧ ∀ y ∈ x.2, y.group ≠ r.group) :
    shows (some g) a [] (.mk r.group r.name r.attrs (l.map fun x => over x.1 x.2)) =
      ((r :: l.flatMap fun x => x.1 :: x.2).filter fun y => decide (y.group = g)).flatMap (entryLines a) := by
  rw [shows_one]
  by_cases h : r.group = g
  · have hn : ∀ y ∈ l.flatMap (fun x => x.1 :: x.2), y.group ≠ g := by
      intro y hy
      obtain ⟨x, hx, hm⟩ := List.mem_flatMap.mp hy
      rcases List.mem_cons.mp hm with rfl | hm
      · exact h ▸ (h2 x hx).1
      · exact h ▸ (h2 x hx).2 y hm
    rw [if_pos h, if_pos h, showAll_over_none g a _ l (fun x hx => h ▸ h2 x hx), entry_eq,
      List.filter_cons_of_pos (by simpa using h), filter_none g _ hn]
    rfl
  · rw [if_neg h, if_neg h, showAll_over g a l h1, List.filter_cons_of_neg (by simpa using h)]
    rfl

/-- **C121** with a group: exactly the objects of that group are listed, each of them once, in the order
of the providers and their units, with their attributes if these are wanted. -/
theorem C121_group (e : Explorer) (g : Str) (a : Bool) (out : List Str) (h : run e (some g) a = some out) :
    out = ((everything e).filter fun x => decide (x.group = g)).flatMap (entryLines a) := by
  unfold run objectTree at h
  simp only [Option.map_map, Option.map_eq_some_iff, Function.comp] at h
  obtain ⟨ps, hps, rfl⟩ := h
  obtain ⟨hl, rfl⟩ := (providers_spec _).2 ps hps
  clear hps
  let lp : List (Entry × List Entry) := e.providers.map fun p =>
    (⟨"provider".toList, p.name, p.attrs⟩, p.units.map fun u => ⟨u.type, goesBy u, u.attrs⟩)
  let lr : List (Entry × List Entry) := e.repositories.map fun r =>
    (⟨"repository".toList, r.location, []⟩, r.storages.map fun s => ⟨"storage".toList, s.location, s.attrs⟩)
  have hk : (e.providers.map fun p => Obj.mk "provider".toList p.name p.attrs
        (p.units.map fun u => .mk u.type (goesBy u) u.attrs [])) ++ e.repositories.map repositoryToObj =
      (lp ++ lr).map fun x => over x.1 x.2 := by
    rw [List.map_append]
    congr 1
    · rw [List.map_map]
      refine List.map_congr_left fun p _ => ?_
      simp only [Function.comp, over, List.map_map]
      rfl
    · rw [List.map_map]
      refine List.map_congr_left fun r _ => ?_
      simp only [Function.comp, over, List.map_map, repositoryToObj]
      rfl
  have hev : everything e = ⟨"service".toList, "'service object'".toList, []⟩ ::
      (lp ++ lr).flatMap fun x => x.1 :: x.2 := by
    rw [everything, List.flatMap_append, List.flatMap_map, List.flatMap_map]
  rw [hk, hev]
  refine shows_root g a ⟨"service".toList, "'service object'".toList, []⟩ (lp ++ lr) ?_ ?_
  · intro x hx y hy
    rcases List.mem_append.mp hx with hx | hx
    · obtain ⟨p, hp, rfl⟩ := List.mem_map.mp hx
      obtain ⟨u, hu, rfl⟩ := List.mem_map.mp hy
      have := hl p hp u hu
      intro hc
      simp only at hc
      rw [hc] at this; exact absurd this (by decide)
    · obtain ⟨r, hr, rfl⟩ := List.mem_map.mp hx
      obtain ⟨s, hs, rfl⟩ := List.mem_map.mp hy
      show "storage".toList ≠ "repository".toList
      decide
  · intro x hx
    rcases List.mem_append.mp hx with hx | hx
    · obtain ⟨p, hp, rfl⟩ := List.mem_map.mp hx
      refine ⟨by show "provider".toList ≠ "service".toList; decide, ?_⟩
      intro y hy
      obtain ⟨u, hu, rfl⟩ := List.mem_map.mp hy
      have := hl p hp u hu
      intro hc
      simp only at hc
      rw [hc] at this; exact absurd this (by decide)
    · obtain ⟨r, hr, rfl⟩ := List.mem_map.mp hx
      refine ⟨by show "repository".toList ≠ "service".toList; decide, ?_⟩
      intro y hy
      obtain ⟨s, hs, rfl⟩ := List.mem_map.mp hy
      show "storage".toList ≠ "service".toList
      decide

/-! ## The whole tree -/

/-- What can be seen of an object: a label, and what belongs to it. -/
inductive Tree where
  | node (label : Str) (below : List Tree)

mutual
/-- What can be seen of an object. -/
def treeOf : Obj → Tree
  | .mk g n _ cs => .node (g ++ " ".toList ++ n) (treesOf cs)

/-- What can be seen of objects. -/
def treesOf : List Obj → List Tree
  | [] => []
  | o :: os => treeOf o :: treesOf os
end

mutual
/-- Groups are words or several words and do not begin with a blank. -/
def Named : Obj → Prop
  | .mk g _ _ cs => (g ≠ [] ∧ g.head? ≠ some ' ') ∧ AllNamed cs

/-- All of them do. -/
def AllNamed : List Obj → Prop
  | [] => True
  | o :: os => Named o ∧ AllNamed os
end

/-- Number of blanks a line begins with. -/
def depth (l : Str) : Nat := (l.takeWhile (· = ' ')).length

theorem depth_line (k : Nat) (t : Str) (h : t ≠ []) (hb : t.head? ≠ some ' ') :
    depth (List.replicate k ' ' ++ t) = k := by
  unfold depth
  induction k with
  | zero =>
    cases t with
    | nil => exact absurd rfl h
    | cons c t =>
      have : c ≠ ' ' := by simpa using hb
      simp [this]
  | succ k ih =>
    rw [List.replicate_succ, List.cons_append, List.takeWhile_cons_of_pos (by simp), List.length_cons, ih]

theorem blanks (k : Nat) : List.replicate k ' ' ++ "  ".toList = List.replicate (k + 2) ' ' := by
  rw [← List.replicate_append_replicate]; rfl

/-- The line before what belongs to an object. -/
def kids (k : Nat) : Str := List.replicate (k + 2) ' ' ++ "children".toList

theorem depth_kids (k : Nat) : depth (kids k) = k + 2 := depth_line _ _ (by decide) (by decide)

/-- The label of an object. -/
def label (g n : Str) : Str := g ++ " ".toList ++ n

theorem depth_head (k : Nat) {g : Str} (n : Str) (h : g ≠ [] ∧ g.head? ≠ some ' ') :
    depth (List.replicate k ' ' ++ label g n) = k := by
  unfold label
  cases g with
  | nil => exact absurd rfl h.1
  | cons c g => exact depth_line _ _ (List.cons_ne_nil _ _) h.2

theorem shows_eq (k : Nat) (g n : Str) (as : List (Str × Str)) (cs : List Obj) :
    shows none false (List.replicate k ' ') (.mk g n as cs) =
      (List.replicate k ' ' ++ label g n) ::
        (if cs.isEmpty then [] else
          kids k ::
            showAll none false (List.replicate (k + 4) ' ') cs) := by
  rw [shows]
  simp only [true_or, if_true, blanks, Bool.false_eq_true, if_false, headLine, List.cons_append,
    List.nil_append, Nat.add_assoc]
  have hl : label g n = g ++ ' ' :: n := by unfold label; rw [List.append_assoc]; rfl
  rw [List.append_assoc, hl]
  rfl

mutual
theorem depth_shows (k : Nat) : ∀ (o : Obj), Named o → ∀ l ∈ shows none false (List.replicate k ' ') o,
    k ≤ depth l
  | .mk g n as cs, h, l, hl => by
    rw [shows_eq] at hl
    rw [Named] at h
    rcases List.mem_cons.mp hl with rfl | hl
    · rw [depth_head k n h.1]; exact Nat.le_refl _
    · split at hl
      · simp at hl
      · rcases List.mem_cons.mp hl with rfl | hl
        · rw [depth_kids]; omega
        · have := depth_showAll (k + 4) cs h.2 l hl; omega
theorem depth_showAll (k : Nat) : ∀ (os : List Obj), AllNamed os →
    ∀ l ∈ showAll none false (List.replicate k ' ') os, k ≤ depth l
  | [], _, l, hl => by rw [showAll] at hl; simp at hl
  | o :: os, h, l, hl => by
    rw [AllNamed] at h
    rw [showAll] at hl
    rcases List.mem_append.mp hl with hl | hl
    · exact depth_shows k o h.1 l hl
    · exact depth_showAll k os h.2 l hl
end

/-- Splitting where the indentation goes back. -/
theorem split_at {P : Str → Prop} {a b c d : List Str} (ha : ∀ x ∈ a, P x) (hc : ∀ x ∈ c, P x)
    (hb : ∀ x ∈ b.head?, ¬ P x) (hd : ∀ x ∈ d.head?, ¬ P x) (h : a ++ b = c ++ d) : a = c ∧ b = d := by
  induction a generalizing c with
  | nil =>
    cases c with
    | nil => exact ⟨rfl, h⟩
    | cons x c =>
      simp only [List.nil_append] at h
      rw [h] at hb
      exact absurd (hc x (by simp)) (hb x (by simp))
  | cons y a ih =>
    cases c with
    | nil =>
      simp only [List.nil_append] at h
      rw [← h] at hd
      exact absurd (ha y (by simp)) (hd y (by simp))
    | cons x c =>
      simp only [List.cons_append, List.cons.injEq] at h
      obtain ⟨h1, h2⟩ := ih (fun z hz => ha z (by simp [hz])) (fun z hz => hc z (by simp [hz])) h.2
      exact ⟨by rw [h.1, h1], h2⟩

theorem head_showAll (k : Nat) (os : List Obj) (h : AllNamed os) :
    ∀ x ∈ (showAll none false (List.replicate k ' ') os).head?, depth x = k := by
  cases os with
  | nil => rw [showAll]; simp
  | cons o os =>
    obtain ⟨g, n, as, cs⟩ := o
    rw [AllNamed, Named] at h
    rw [showAll, shows_eq]
    intro x hx
    simp only [List.cons_append, List.head?_cons, Option.mem_def, Option.some.injEq] at hx
    subst hx
    exact depth_head k n h.1.1

theorem showAll_inj (k : Nat) : ∀ (os os' : List Obj), AllNamed os → AllNamed os' →
    showAll none false (List.replicate k ' ') os = showAll none false (List.replicate k ' ') os' →
    treesOf os = treesOf os'
  | [], [], _, _, _ => rfl
  | [], .mk g n as cs :: os', _, _, h => by rw [showAll, showAll, shows_eq] at h; simp at h
  | .mk g n as cs :: os, [], _, _, h => by
    rw [showAll.eq_def, showAll.eq_def _ _ _ []] at h
    dsimp only at h
    rw [shows_eq] at h; simp at h
  | .mk g n as cs :: os, .mk g' n' as' cs' :: os', hn, hn', h => by
    rw [AllNamed, Named] at hn hn'
    rw [showAll, showAll, shows_eq, shows_eq] at h
    simp only [List.cons_append, List.cons.injEq] at h
    obtain ⟨h1, h2⟩ := h
    have hlab := List.append_cancel_left h1
    have hb : ∀ (cs : List Obj), AllNamed cs → ∀ x ∈ (if cs.isEmpty then [] else
          kids k ::
            showAll none false (List.replicate (k + 4) ' ') cs), k < depth x := by
      intro cs hcs x hx
      split at hx
      · simp at hx
      · rcases List.mem_cons.mp hx with rfl | hx
        · rw [depth_kids]; omega
        · have := depth_showAll (k + 4) cs hcs x hx; omega
    obtain ⟨h3, h4⟩ := split_at (P := fun x => k < depth x) (hb cs hn.1.2) (hb cs' hn'.1.2)
      (fun x hx => by have := head_showAll k os hn.2 x hx; omega)
      (fun x hx => by have := head_showAll k os' hn'.2 x hx; omega) h2
    have hrest := showAll_inj k os os' hn.2 hn'.2 h4
    have hkids : treesOf cs = treesOf cs' := by
      cases cs with
      | nil =>
        cases cs' with
        | nil => rfl
        | cons c' cs' => simp at h3
      | cons c cs =>
        cases cs' with
        | nil => simp at h3
        | cons c' cs' =>
          simp only [List.isEmpty_cons, Bool.false_eq_true, if_false, List.cons.injEq, true_and] at h3
          exact showAll_inj (k + 4) (c :: cs) (c' :: cs') hn.1.2 hn'.1.2 h3
    rw [treesOf, treesOf, treeOf, treeOf, show g ++ " ".toList ++ n = g' ++ " ".toList ++ n' from hlab, hkids, hrest]

/-- **C121** without a group: what is listed tells what there is and what belongs to what: two trees of
objects that give the same lines have the same objects in the same places. -/
theorem C121_tree (o o' : Obj) (h : Named o) (h' : Named o')
    (hs : shows none false [] o = shows none false [] o') : treeOf o = treeOf o' := by
  have := showAll_inj 0 [o] [o'] (by rw [AllNamed, AllNamed]; exact ⟨h, trivial⟩)
    (by rw [AllNamed, AllNamed]; exact ⟨h', trivial⟩) (by
      rw [showAll, showAll, showAll, showAll]
      simpa using hs)
  simpa [treesOf] using this

theorem named_of {e : Explorer} {o : Obj} (h : objectTree e = some o) : Named o := by
  unfold objectTree at h
  simp only [Option.map_eq_some_iff] at h
  obtain ⟨ps, hps, rfl⟩ := h
  obtain ⟨hl, rfl⟩ := (providers_spec _).2 ps hps
  have happ : ∀ k l, AllNamed k → AllNamed l → AllNamed (k ++ l) := by
    intro k l hk hl
    induction k with
    | nil => exact hl
    | cons o k ih => rw [AllNamed] at hk; rw [List.cons_append, AllNamed]; exact ⟨hk.1, ih hk.2⟩
  have hun : ∀ us : List Unit, (∀ u ∈ us, u.type ∈ listed) →
      AllNamed (us.map fun u => .mk u.type (goesBy u) u.attrs []) := by
    intro us
    induction us with
    | nil => intro _; rw [List.map_nil, AllNamed]; trivial
    | cons u us ih =>
      intro hu
      rw [List.map_cons, AllNamed, Named, AllNamed]
      refine ⟨⟨?_, trivial⟩, ih (fun v hv => hu v (by simp [hv]))⟩
      have hall : ∀ t ∈ listed, t ≠ [] ∧ t.head? ≠ some ' ' := by unfold listed; decide
      exact hall _ (hu u (by simp))
  rw [Named]
  refine ⟨by decide, happ _ _ ?_ ?_⟩
  · generalize e.providers = l at hl
    clear hps
    induction l with
    | nil => rw [List.map_nil, AllNamed]; trivial
    | cons p l ih =>
      rw [List.map_cons, AllNamed, Named]
      exact ⟨⟨by decide, hun _ (hl p (by simp))⟩, ih (fun q hq => hl q (by simp [hq]))⟩
  · generalize e.repositories = l
    induction l with
    | nil => rw [List.map_nil, AllNamed]; trivial
    | cons r l ih =>
      rw [List.map_cons, AllNamed, repositoryToObj, Named]
      refine ⟨⟨by decide, ?_⟩, ih⟩
      generalize r.storages = m
      induction m with
      | nil => rw [List.map_nil, AllNamed]; trivial
      | cons s m ih2 =>
        rw [List.map_cons, AllNamed, storageToObj, Named, AllNamed]
        exact ⟨⟨by decide, trivial⟩, ih2⟩

/-- **C121** without a group, for what is listed of two systems: if the lines are the same then so are
the trees. -/
theorem C121_systems (e e' : Explorer) (out : List Str) (h : run e none false = some out)
    (h' : run e' none false = some out) :
    ∃ o o', objectTree e = some o ∧ objectTree e' = some o' ∧ treeOf o = treeOf o' := by
  unfold run at h h'
  simp only [Option.map_eq_some_iff] at h h'
  obtain ⟨o, ho, hs⟩ := h
  obtain ⟨o', ho', hs'⟩ := h'
  exact ⟨o, o', ho, ho', C121_tree o o' (named_of ho) (named_of ho') (hs.trans hs'.symm)⟩

/-! ## Examples and violations -/

/-- A provider with two units, and a session. -/
def someExplorer : Explorer where
  providers := [⟨"'p'".toList, [("version".toList, "'1'".toList)],
    [⟨"job".toList, "'ns::a'".toList, [], [], [("user".toList, "None".toList)]⟩,
     ⟨"file".toList, [], "'/p/a.pxu'".toList, [], []⟩]⟩]
  repositories := [⟨"'/s'".toList, [⟨"'/s/1'".toList, []⟩]⟩]

example : run someExplorer (some "job".toList) true =
    some ["job 'ns::a'".toList, "  user           : None".toList] := by
  unfold run; decide +kernel

example : run someExplorer none false = some
    ["service 'service object'".toList, "  children".toList, "    provider 'p'".toList,
     "      children".toList, "        job 'ns::a'".toList, "        file '/p/a.pxu'".toList,
     "    repository '/s'".toList, "      children".toList, "        storage '/s/1'".toList] := by
  unfold run; decide +kernel

/-- **C121 is violated** if a provider has a unit of the base type, `unit: unit`, which can be loaded:
then nothing is listed at all, not even the units of other providers. -/
theorem C121_fails_violated (e : Explorer) (p : Provider) (u : Unit) (hp : p ∈ e.providers) (hu : u ∈ p.units)
    (ht : u.type = "unit".toList) (g : Option Str) (a : Bool) : run e g a = none := by
  have h := C121_given_partial e g a
  cases hr : run e g a with
  | none => rfl
  | some out =>
    rw [hr] at h
    have := h.mp rfl p hp u hu
    rw [ht] at this
    exact absurd this (by decide)

end Verif.Listing
