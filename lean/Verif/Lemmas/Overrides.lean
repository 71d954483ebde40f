import Verif.Model.Overrides
import Verif.Lemmas.Sort
import Verif.Lemmas.Pattern

set_option linter.unusedSimpArgs false

namespace Verif.Overrides

open Verif.Pattern

/-! ## Statements as the specification sees them -/

mutual
/-- A test plan and all the test plans nested in it, outer ones first. -/
def nodes : Plan → List Plan
  | .mk ns incl cat cert nested => .mk ns incl cat cert nested :: nodesL nested
def nodesL : List Plan → List Plan
  | [] => []
  | p :: ps => nodes p ++ nodesL ps
end

/-- Names of fields are written with dashes or underscores. -/
def fieldName : Str → Str
  | [] => []
  | '-' :: t => '_' :: fieldName t
  | c :: t => c :: fieldName t

theorem dashes_eq : dashes = fieldName := by
  funext t
  induction t with
  | nil => rfl
  | cons c t ih =>
    by_cases h : c = '-'
    · subst h
      show '_' :: dashes t = '_' :: fieldName t
      rw [ih]
    · have : fieldName (c :: t) = c :: fieldName t := by
        rw [fieldName]
        exact fun e => h e
      rw [this, ← ih]
      show (if c = '-' then '_' else c) :: dashes t = _
      rw [if_neg h]

/-- The overrides written in the include field of one test plan: (pattern, field, value). -/
def inlineStmts (p : Plan) : List (Str × Str × Str) :=
  (p.incl.getD []).flatMap fun st => st.2.map fun fv => (patternOf p.ns st.1, fieldName fv.1, fv.2)

/-- The category overrides of one test plan. -/
def catStmts (p : Plan) : List (Str × Str × Str) :=
  (p.cat.getD []).map fun st => (patternOf p.ns st.2, "category_id".toList, qualifyId p.ns st.1)

/-- The certification status overrides of one test plan. -/
def certStmts (p : Plan) : List (Str × Str × Str) :=
  (p.cert.getD []).map fun st => (patternOf p.ns st.2, "certification_status".toList, st.1)

/-- All override statements of a test plan with its nested parts, in order. -/
def stmts (p : Plan) : List (Str × Str × Str) :=
  (nodes p).flatMap inlineStmts ++ (nodes p).flatMap catStmts ++ (nodes p).flatMap certStmts

/-- No test plan without category overrides has nested parts with category overrides. -/
def CatOK (p : Plan) : Prop :=
  ∀ q ∈ nodes p, q.cat = none → ∀ r ∈ nodes q, catStmts r = []

/-- The position of the first test plan with a statement for the pattern. -/
def first : List Plan → Str → Nat
  | [], _ => 0
  | p :: ps, k => if k ∈ (stmts p).map (·.1) then 0 else first ps k + 1

/-- The order in which patterns take effect. -/
def Before (plans : List Plan) (a b : Str) : Prop :=
  first plans a < first plans b ∨ (first plans a = first plans b ∧ Sort.strLe a b = true)

/-- The value of an overridable field. -/
def getField (e : Eff) (f : Str) : Option Str :=
  if f = "category_id".toList then e.categoryId
  else if f = "certification_status".toList then e.certificationStatus
  else if f = "auto_retry".toList then e.autoRetry
  else none

/-- The overridable fields. -/
def Known (f : Str) : Prop :=
  f = "category_id".toList ∨ f = "certification_status".toList ∨ f = "auto_retry".toList

instance (f : Str) : Decidable (Known f) := by unfold Known; infer_instance

/-! ## Collection -/

def tagged (m : OMap) : List (Str × Str × Str) := m.flatMap fun x => x.2.map fun fv => (x.1, fv.1, fv.2)

def keys (m : OMap) : List Str := m.map (·.1)

theorem tagged_append (a b : OMap) : tagged (a ++ b) = tagged a ++ tagged b := by
  simp [tagged]

theorem tagged_inlineOf (ns : Option Str) (l : List (Str × List (Str × Str))) :
    tagged (inlineOf ns l) =
      l.flatMap fun st => st.2.map fun fv => (patternOf ns st.1, dashes fv.1, fv.2) := by
  induction l with
  | nil => rfl
  | cons st l ih =>
    obtain ⟨t, fvs⟩ := st
    unfold inlineOf at ih ⊢
    by_cases h : fvs = []
    · subst h
      rw [List.filterMap_cons_none (by simp)]
      rw [ih]; simp
    · rw [List.filterMap_cons_some (b := (patternOf ns t, fvs.map fun fv => (dashes fv.1, fv.2)))
        (by simp [h])]
      simp only [tagged, List.flatMap_cons, List.map_map] at ih ⊢
      rw [ih]; rfl

mutual
theorem inline_nodes : ∀ p, tagged (inlineOverrides p) = (nodes p).flatMap inlineStmts
  | .mk ns incl cat cert nested => by
    simp only [inlineOverrides, nodes, List.flatMap_cons, tagged_append, inline_nodesL nested]
    congr 1
    cases incl with
    | none => rfl
    | some l => exact (tagged_inlineOf ns l).trans (by rw [dashes_eq]; rfl)
theorem inline_nodesL : ∀ ps, tagged (inlineOverridesL ps) = (nodesL ps).flatMap inlineStmts
  | [] => rfl
  | p :: ps => by
    simp only [inlineOverridesL, nodesL, List.flatMap_append, tagged_append, inline_nodes p,
      inline_nodesL ps]
end

mutual
theorem blocker_nodes : ∀ p, blockerOverrides p = (nodes p).flatMap certStmts
  | .mk ns incl cat cert nested => by
    simp only [blockerOverrides, nodes, List.flatMap_cons, blocker_nodesL nested]
    congr 1
    cases cert with
    | none => rfl
    | some l => rfl
theorem blocker_nodesL : ∀ ps, blockerOverridesL ps = (nodesL ps).flatMap certStmts
  | [] => rfl
  | p :: ps => by
    simp only [blockerOverridesL, nodesL, List.flatMap_append, blocker_nodes p, blocker_nodesL ps]
end

mutual
theorem cat_nodes : ∀ p, CatOK p → categoryOverrides p = (nodes p).flatMap catStmts
  | .mk ns incl cat cert nested, h => by
    cases cat with
    | none =>
      have := h (.mk ns incl none cert nested) (by simp [nodes]) rfl
      simp only [categoryOverrides]
      symm
      rw [List.flatMap_eq_nil_iff]
      exact this
    | some l =>
      simp only [categoryOverrides, nodes, List.flatMap_cons]
      rw [cat_nodesL nested (fun q hq => h q (by simp [nodes, hq]))]
      rfl
theorem cat_nodesL : ∀ ps, (∀ q ∈ nodesL ps, q.cat = none → ∀ r ∈ nodes q, catStmts r = []) →
    categoryOverridesL ps = (nodesL ps).flatMap catStmts
  | [], _ => rfl
  | p :: ps, h => by
    simp only [categoryOverridesL, nodesL, List.flatMap_append]
    rw [cat_nodes p (fun q hq => h q (by simp [nodesL, hq])),
      cat_nodesL ps (fun q hq => h q (by simp [nodesL, hq]))]
end

/-! ## Dictionaries -/

theorem keys_cons (x : Str × List (Str × Str)) (m : OMap) : keys (x :: m) = x.1 :: keys m := rfl

theorem keys_extendAt (m : OMap) (k : Str) (l : List (Str × Str)) :
    keys (extendAt m k l) = keys m ++ if k ∈ keys m then [] else [k] := by
  induction m with
  | nil => simp [extendAt, keys]
  | cons x m ih =>
    obtain ⟨k', l'⟩ := x
    simp only [extendAt]
    by_cases h : k' = k
    · simp [h, keys_cons]
    · have : ¬ k = k' := fun e => h e.symm
      simp only [h, ↓reduceIte, keys_cons, ih, List.mem_cons, List.cons_append, this, false_or]

theorem filter_tag (k p : Str) (l : List (Str × Str)) :
    (l.map fun fv => (k, fv.1, fv.2)).filter (fun s => decide (s.1 = p)) =
      if k = p then l.map (fun fv => (k, fv.1, fv.2)) else [] := by
  by_cases h : k = p
  · rw [if_pos h, List.filter_eq_self]
    intro s hs
    obtain ⟨fv, _, rfl⟩ := List.mem_map.1 hs
    simpa using h
  · rw [if_neg h, List.filter_eq_nil_iff]
    intro s hs
    obtain ⟨fv, _, rfl⟩ := List.mem_map.1 hs
    simpa using h

theorem filter_tag_nil {m : OMap} {p : Str} (h : p ∉ keys m) :
    (tagged m).filter (fun s => decide (s.1 = p)) = [] := by
  rw [List.filter_eq_nil_iff]
  intro s hs
  simp only [tagged, List.mem_flatMap, List.mem_map] at hs
  obtain ⟨x, hx, fv, _, rfl⟩ := hs
  simp only [decide_eq_true_eq]
  rintro rfl
  exact h (List.mem_map.2 ⟨x, hx, rfl⟩)

theorem tagged_extendAt {m : OMap} (hn : (keys m).Nodup) (k : Str) (l : List (Str × Str)) (p : Str) :
    (tagged (extendAt m k l)).filter (fun s => decide (s.1 = p)) =
      (tagged m).filter (fun s => decide (s.1 = p)) ++
        (l.map fun fv => (k, fv.1, fv.2)).filter (fun s => decide (s.1 = p)) := by
  induction m with
  | nil => simp [extendAt, tagged]
  | cons x m ih =>
    obtain ⟨k', l'⟩ := x
    simp only [keys, List.map_cons, List.nodup_cons] at hn
    simp only [extendAt]
    by_cases h : k' = k
    · subst h
      simp only [↓reduceIte]
      have e : ∀ q, tagged ((k', q) :: m) = (q.map fun fv => (k', fv.1, fv.2)) ++ tagged m := by
        intro q; simp [tagged]
      rw [e, e]
      simp only [List.map_append, List.filter_append]
      by_cases hp : k' = p
      · subst hp
        rw [filter_tag_nil hn.1]
        simp
      · rw [filter_tag, filter_tag]
        simp [hp]
    · simp only [h, ↓reduceIte]
      have ih := ih hn.2
      simp only [tagged, List.flatMap_cons, List.filter_append] at ih ⊢
      rw [ih, List.append_assoc]

theorem nodup_extendAt {m : OMap} (hn : (keys m).Nodup) (k : Str) (l : List (Str × Str)) :
    (keys (extendAt m k l)).Nodup := by
  rw [keys_extendAt]
  split
  · simpa using hn
  · rename_i h
    rw [List.nodup_append]
    refine ⟨hn, by simp, ?_⟩
    intro a ha b hb
    simp only [List.mem_singleton] at hb
    subst hb
    rintro rfl
    exact h ha

/-- Merging items into a dictionary. -/
def merge (m o : OMap) : OMap := o.foldl (fun m x => extendAt m x.1 x.2) m

theorem merge_append (m o o' : OMap) : merge m (o ++ o') = merge (merge m o) o' := by
  simp [merge]

theorem nodup_merge {m : OMap} (o : OMap) (hn : (keys m).Nodup) : (keys (merge m o)).Nodup := by
  induction o generalizing m with
  | nil => exact hn
  | cons x o ih => exact ih (nodup_extendAt hn _ _)

theorem tagged_merge {m : OMap} (o : OMap) (hn : (keys m).Nodup) (p : Str) :
    (tagged (merge m o)).filter (fun s => decide (s.1 = p)) =
      (tagged m).filter (fun s => decide (s.1 = p)) ++
        (tagged o).filter (fun s => decide (s.1 = p)) := by
  induction o generalizing m with
  | nil => simp [merge, tagged]
  | cons x o ih =>
    have := ih (nodup_extendAt hn x.1 x.2)
    simp only [merge, List.foldl_cons] at this ⊢
    rw [this, tagged_extendAt hn, List.append_assoc]
    congr 1
    simp [tagged]

theorem merge_cons (m : OMap) (x : Str × List (Str × Str)) (o : OMap) :
    merge m (x :: o) = merge (extendAt m x.1 x.2) o := rfl

theorem mem_keys_extendAt (m : OMap) (k' k : Str) (l : List (Str × Str)) :
    k ∈ keys (extendAt m k' l) ↔ k ∈ keys m ∨ k = k' := by
  rw [keys_extendAt]
  by_cases h : k' ∈ keys m
  · rw [if_pos h, List.append_nil]
    constructor
    · exact .inl
    · rintro (h' | rfl)
      · exact h'
      · exact h
  · rw [if_neg h]; simp

theorem keys_merge (m o : OMap) (hn : (keys o).Nodup) :
    keys (merge m o) = keys m ++ (keys o).filter fun k => decide (k ∉ keys m) := by
  induction o generalizing m with
  | nil => simp [merge, keys]
  | cons x o ih =>
    rw [keys_cons, List.nodup_cons] at hn
    rw [merge_cons, ih _ hn.2]
    have hf : (keys o).filter (fun k => decide (k ∉ keys (extendAt m x.1 x.2))) =
        (keys o).filter fun k => decide (k ∉ keys m) := by
      apply List.filter_congr
      intro k hk
      have hne : k ≠ x.1 := by rintro rfl; exact hn.1 hk
      simp only [mem_keys_extendAt, hne, or_false]
    rw [hf, keys_extendAt, keys_cons, List.filter_cons, List.append_assoc]
    congr 1
    by_cases hx : x.1 ∈ keys m
    · rw [if_pos hx, if_neg (by simpa using hx)]; rfl
    · rw [if_neg hx, if_pos (by simpa using hx)]; rfl

theorem mem_keys_merge (m o : OMap) (k : Str) :
    k ∈ keys (merge m o) ↔ k ∈ keys m ∨ k ∈ keys o := by
  induction o generalizing m with
  | nil => simp [merge, keys]
  | cons x o ih =>
    rw [merge_cons, ih, mem_keys_extendAt, keys_cons, List.mem_cons, or_assoc]

/-! ## One test plan -/

def itemsOf (p : Plan) : OMap :=
  inlineOverrides p ++ (categoryOverrides p).map (fun x => (x.1, [x.2])) ++
    (blockerOverrides p).map (fun x => (x.1, [x.2]))

theorem overrideList_eq (p : Plan) : overrideList p = Sort.sortBy itemLe (merge [] (itemsOf p)) := by
  unfold overrideList itemsOf merge
  simp only [List.foldl_append, List.foldl_map]

theorem tagged_singles (l : List (Str × Str × Str)) :
    tagged (l.map fun x => (x.1, [x.2])) = l := by
  induction l with
  | nil => rfl
  | cons x l ih => simp only [tagged, List.map_cons, List.flatMap_cons] at ih ⊢; rw [ih]; rfl

theorem tagged_itemsOf {p : Plan} (h : CatOK p) : tagged (itemsOf p) = stmts p := by
  unfold itemsOf stmts
  rw [tagged_append, tagged_append, tagged_singles, tagged_singles, inline_nodes, cat_nodes p h,
    blocker_nodes]

theorem tagged_sort (m : OMap) (p : Str) :
    (tagged (Sort.sortBy itemLe m)).filter (fun s => decide (s.1 = p)) =
      (tagged m).filter (fun s => decide (s.1 = p)) := by
  have key : ∀ m : OMap, (tagged m).filter (fun s => decide (s.1 = p)) =
      tagged (m.filter fun x => decide (x.1 = p)) := by
    intro m
    induction m with
    | nil => rfl
    | cons x m ih =>
      have e : ∀ m, tagged (x :: m) = (x.2.map fun fv => (x.1, fv.1, fv.2)) ++ tagged m := by
        intro m; simp [tagged]
      rw [e, List.filter_append, ih, filter_tag, List.filter_cons]
      by_cases h : x.1 = p
      · simp [h, tagged]
      · simp [h]
  rw [key, key, Sort.sortBy_filter]
  intro a b ha hb
  simp only [decide_eq_true_eq] at ha hb
  unfold itemLe
  rw [ha, hb]
  exact Sort.strLe_refl p

theorem keys_overrideList (p : Plan) :
    (keys (overrideList p)).Nodup ∧
    (keys (overrideList p)).Pairwise (fun a b => Sort.strLe a b = true) := by
  rw [overrideList_eq]
  have hn : (keys (merge [] (itemsOf p))).Nodup := nodup_merge _ (by simp [keys])
  constructor
  · exact ((Sort.sortBy_perm _).map _).nodup_iff.2 hn
  · have := Sort.sortBy_sorted (le := itemLe) (fun a b => Sort.strLe_total _ _)
      (fun a b c => Sort.strLe_trans _ _ _) (merge [] (itemsOf p))
    exact List.pairwise_map.2 this

theorem inlineOf_ne {ns : Option Str} {l : List (Str × List (Str × Str))} :
    ∀ x ∈ inlineOf ns l, x.2 ≠ [] := by
  intro x hx
  simp only [inlineOf, List.mem_filterMap] at hx
  obtain ⟨st, _, h⟩ := hx
  split at h
  · cases h
  · rename_i hne
    cases h
    simpa using hne

mutual
theorem inline_ne : ∀ p, ∀ x ∈ inlineOverrides p, x.2 ≠ []
  | .mk ns incl cat cert nested, x, hx => by
    simp only [inlineOverrides, List.mem_append] at hx
    rcases hx with hx | hx
    · cases incl with
      | none => cases hx
      | some l => exact inlineOf_ne x hx
    · exact inline_neL nested x hx
theorem inline_neL : ∀ ps, ∀ x ∈ inlineOverridesL ps, x.2 ≠ []
  | [], x, hx => by cases hx
  | p :: ps, x, hx => by
    simp only [inlineOverridesL, List.mem_append] at hx
    rcases hx with hx | hx
    · exact inline_ne p x hx
    · exact inline_neL ps x hx
end

theorem itemsOf_ne (p : Plan) : ∀ x ∈ itemsOf p, x.2 ≠ [] := by
  intro x hx
  simp only [itemsOf, List.mem_append, List.mem_map] at hx
  rcases hx with (hx | ⟨y, _, rfl⟩) | ⟨y, _, rfl⟩
  · exact inline_ne p x hx
  · simp
  · simp

theorem mem_keys_tagged {m : OMap} (h : ∀ x ∈ m, x.2 ≠ []) (k : Str) :
    k ∈ keys m ↔ k ∈ (tagged m).map (·.1) := by
  simp only [keys, tagged, List.mem_map, List.mem_flatMap]
  constructor
  · rintro ⟨x, hx, rfl⟩
    obtain ⟨fv, hfv⟩ := List.exists_mem_of_ne_nil _ (h x hx)
    exact ⟨_, ⟨x, hx, fv, hfv, rfl⟩, rfl⟩
  · rintro ⟨_, ⟨x, hx, fv, _, rfl⟩, rfl⟩
    exact ⟨x, hx, rfl⟩

theorem mem_keys_overrideList {p : Plan} (h : CatOK p) (k : Str) :
    k ∈ keys (overrideList p) ↔ k ∈ (stmts p).map (·.1) := by
  rw [overrideList_eq]
  have : k ∈ keys (Sort.sortBy itemLe (merge [] (itemsOf p))) ↔ k ∈ keys (merge [] (itemsOf p)) :=
    ((Sort.sortBy_perm _).map _).mem_iff
  rw [this, mem_keys_merge, ← tagged_itemsOf h, ← mem_keys_tagged (itemsOf_ne p)]
  simp [keys]

theorem tagged_overrideList {p : Plan} (h : CatOK p) (k : Str) :
    (tagged (overrideList p)).filter (fun s => decide (s.1 = k)) =
      (stmts p).filter (fun s => decide (s.1 = k)) := by
  rw [overrideList_eq, tagged_sort, tagged_merge _ (by simp [keys]), tagged_itemsOf h]
  simp [tagged]

/-! ## Several test plans -/

theorem first_le (ps : List Plan) (k : Str) : first ps k ≤ ps.length := by
  induction ps with
  | nil => simp [first]
  | cons p ps ih => simp only [first, List.length_cons]; split <;> omega

theorem first_append (ps : List Plan) (q : Plan) (k : Str) :
    first (ps ++ [q]) k = if first ps k < ps.length then first ps k
      else if k ∈ (stmts q).map (·.1) then ps.length else ps.length + 1 := by
  induction ps with
  | nil => simp [first]
  | cons p ps ih =>
    simp only [List.cons_append, first, List.length_cons, ih]
    by_cases h : k ∈ (stmts p).map (·.1)
    · simp [h]
    · simp only [h, ↓reduceIte, Nat.add_lt_add_iff_right]
      by_cases h1 : first ps k < ps.length
      · simp only [h1, ↓reduceIte]
      · simp only [h1, ↓reduceIte]
        split <;> rfl

structure Inv (pre : List Plan) (m : OMap) : Prop where
  nodup : (keys m).Nodup
  mem : ∀ k, k ∈ keys m ↔ first pre k < pre.length
  ord : (keys m).Pairwise (Before pre)
  tags : ∀ k, (tagged m).filter (fun s => decide (s.1 = k)) =
    (pre.flatMap stmts).filter (fun s => decide (s.1 = k))

theorem Inv.step {pre : List Plan} {m : OMap} (h : Inv pre m) {q : Plan} (hq : CatOK q) :
    Inv (pre ++ [q]) (merge m (overrideList q)) := by
  obtain ⟨hon, hos⟩ := keys_overrideList q
  have hlen : ∀ k, first (pre ++ [q]) k < (pre ++ [q]).length ↔
      (first pre k < pre.length ∨ k ∈ (stmts q).map (·.1)) := by
    intro k
    rw [first_append]
    have := first_le pre k
    simp only [List.length_append, List.length_singleton]
    by_cases h1 : first pre k < pre.length
    · simp only [h1, ↓reduceIte, true_or, iff_true]; omega
    · simp only [h1, ↓reduceIte, false_or]
      by_cases h2 : k ∈ (stmts q).map (·.1)
      · simp only [h2, ↓reduceIte, iff_true]; omega
      · simp only [h2, ↓reduceIte, iff_false]; omega
  refine ⟨nodup_merge _ h.nodup, ?_, ?_, ?_⟩
  · intro k
    rw [mem_keys_merge, h.mem, mem_keys_overrideList hq, hlen]
  · rw [keys_merge _ _ hon, List.pairwise_append]
    refine ⟨?_, ?_, ?_⟩
    · refine h.ord.imp_of_mem ?_
      intro a b ha hb hab
      have ha := (h.mem a).1 ha
      have hb := (h.mem b).1 hb
      unfold Before at hab ⊢
      rw [first_append, first_append]
      simp only [ha, hb, ↓reduceIte]
      exact hab
    · refine (hos.sublist List.filter_sublist).imp_of_mem ?_
      intro a b ha hb hab
      simp only [List.mem_filter, decide_eq_true_eq, h.mem, mem_keys_overrideList hq] at ha hb
      unfold Before
      rw [first_append, first_append, if_neg ha.2, if_neg hb.2, if_pos ha.1, if_pos hb.1]
      exact .inr ⟨rfl, hab⟩
    · intro a ha b hb
      simp only [List.mem_filter, decide_eq_true_eq, h.mem, mem_keys_overrideList hq] at hb
      have ha := (h.mem a).1 ha
      unfold Before
      rw [first_append, first_append, if_pos ha, if_neg hb.2, if_pos hb.1]
      exact .inl ha
  · intro k
    rw [tagged_merge _ h.nodup, h.tags, tagged_overrideList hq, List.flatMap_append,
      List.filter_append]
    simp

theorem inv_fold : ∀ (ps pre : List Plan) (m : OMap), Inv pre m → (∀ p ∈ ps, CatOK p) →
    Inv (pre ++ ps) (ps.foldl (fun m p => merge m (overrideList p)) m)
  | [], pre, m, h, _ => by simpa using h
  | p :: ps, pre, m, h, hc => by
    have := inv_fold ps (pre ++ [p]) _ (h.step (hc p (by simp))) (fun q hq => hc q (by simp [hq]))
    simpa using this

theorem inv_compute {ps : List Plan} (hc : ∀ p ∈ ps, CatOK p) : Inv ps (computeOverrideMap ps) := by
  have := inv_fold ps [] [] ⟨by simp [keys], by simp [keys, first], by simp [keys], by simp [tagged]⟩ hc
  simpa [computeOverrideMap, merge] using this

/-! ## Application -/

theorem getField_cat (e : Eff) : getField e "category_id".toList = e.categoryId := if_pos rfl
theorem getField_cert (e : Eff) : getField e "certification_status".toList = e.certificationStatus :=
  (if_neg (by decide)).trans (if_pos rfl)
theorem getField_retry (e : Eff) : getField e "auto_retry".toList = e.autoRetry :=
  (if_neg (by decide)).trans ((if_neg (by decide)).trans (if_pos rfl))

theorem setField_known {e : Eff} {fv : Str × Str} (h : Known fv.1) :
    ∃ e', setField e fv = .ok e' ∧ ∀ f, Known f →
      getField e' f = if fv.1 = f then some fv.2 else getField e f := by
  obtain ⟨g, v⟩ := fv
  simp only at h
  rcases h with rfl | rfl | rfl
  · refine ⟨_, rfl, ?_⟩
    rintro f (rfl | rfl | rfl) <;> simp [getField]
  · refine ⟨{ e with certificationStatus := some v }, by simp [setField], ?_⟩
    rintro f (rfl | rfl | rfl) <;> simp [getField]
  · refine ⟨{ e with autoRetry := some v }, by simp [setField], ?_⟩
    rintro f (rfl | rfl | rfl) <;> simp [getField]

theorem setField_unknown {e : Eff} {fv : Str × Str} (h : ¬ Known fv.1) :
    setField e fv = .error .attributeError := by
  unfold Known at h
  simp only [not_or] at h
  exact (if_neg h.1).trans ((if_neg h.2.1).trans (if_neg h.2.2))

/-- The last value for a field. -/
def lastVal (l : List (Str × Str)) (f : Str) : Option Str :=
  ((l.filter fun fv => decide (fv.1 = f)).getLast?).map (·.2)

theorem applyOverrides_known {l : List (Str × Str)} (h : ∀ fv ∈ l, Known fv.1) (e : Eff) :
    ∃ e', applyOverrides e l = (e', none) ∧ ∀ f, Known f →
      getField e' f = (lastVal l f).or (getField e f) := by
  induction l generalizing e with
  | nil => exact ⟨e, rfl, by simp [lastVal]⟩
  | cons fv l ih =>
    obtain ⟨e1, h1, hg1⟩ := setField_known (e := e) (h fv (by simp))
    obtain ⟨e2, h2, hg2⟩ := ih (fun x hx => h x (by simp [hx])) e1
    refine ⟨e2, by simp only [applyOverrides, h1, h2], ?_⟩
    intro f hf
    rw [hg2 f hf, hg1 f hf]
    simp only [lastVal, List.filter_cons]
    by_cases he : fv.1 = f
    · simp only [he, decide_true, ↓reduceIte, List.getLast?_cons]
      cases (List.filter (fun fv => decide (fv.1 = f)) l).getLast? <;> simp
    · simp only [he, decide_false, ↓reduceIte, Bool.false_eq_true]

theorem getField_ext {a b : Eff} (h : ∀ f, Known f → getField a f = getField b f) : a = b := by
  obtain ⟨a1, a2, a3⟩ := a
  obtain ⟨b1, b2, b3⟩ := b
  have h1 := h "category_id".toList (.inl rfl)
  have h2 := h "certification_status".toList (.inr (.inl rfl))
  have h3 := h "auto_retry".toList (.inr (.inr rfl))
  rw [getField_cat, getField_cat] at h1
  rw [getField_cert, getField_cert] at h2
  rw [getField_retry, getField_retry] at h3
  simp only at h1 h2 h3
  rw [h1, h2, h3]

theorem applyOverrides_append (e : Eff) (a b : List (Str × Str)) :
    applyOverrides e (a ++ b) = match applyOverrides e a with
      | (e, none) => applyOverrides e b
      | (e, some x) => (e, some x) := by
  induction a generalizing e with
  | nil => rfl
  | cons fv a ih =>
    simp only [List.cons_append, applyOverrides]
    cases setField e fv with
    | ok e => exact ih e
    | error x => rfl

theorem overrideUpdate_flat {rx : Rx} {id : Str} {m : OMap} (hv : ∀ x ∈ m, rx.valid x.1 = true)
    (e : Eff) : overrideUpdate rx id e m =
      applyOverrides e ((m.filter fun x => rx.mt x.1 id).flatMap (·.2)) := by
  induction m generalizing e with
  | nil => rfl
  | cons x m ih =>
    obtain ⟨p, l⟩ := x
    have hp : rx.valid p = true := hv (p, l) (by simp)
    have ih := ih (fun x hx => hv x (by simp [hx]))
    simp only [overrideUpdate, hp, Bool.true_eq_false, ↓reduceIte, List.filter_cons]
    by_cases hm : rx.mt p id = true
    · simp only [hm, ↓reduceIte, List.flatMap_cons, applyOverrides_append]
      generalize applyOverrides e l = r
      obtain ⟨e1, x⟩ := r
      cases x with
      | none => exact ih e1
      | some x => rfl
    · simp only [hm, ↓reduceIte, Bool.false_eq_true]
      exact ih e

/-- Errors do not depend on the state: what is applied is a list of known assignments. -/
theorem overrideUpdate_run (rx : Rx) (id : Str) (m : OMap) :
    ∃ (l : List (Str × Str)) (x : Option Exc), (∀ fv ∈ l, Known fv.1) ∧
      ∀ e, overrideUpdate rx id e m = ((applyOverrides e l).1, x) := by
  induction m with
  | nil => exact ⟨[], none, by simp, fun e => rfl⟩
  | cons x m ih =>
    obtain ⟨p, l⟩ := x
    obtain ⟨l2, x2, hk2, h2⟩ := ih
    by_cases hv : rx.valid p = false
    · exact ⟨[], some .reError, by simp, fun e => by simp [overrideUpdate, hv, applyOverrides]⟩
    · by_cases hm : rx.mt p id = true
      · -- the known prefix of the list
        have key : ∀ l : List (Str × Str), ∃ l', (∀ fv ∈ l', Known fv.1) ∧
            ((l' = l ∧ ∀ e, (applyOverrides e l).2 = none) ∨
              ∀ e, applyOverrides e l = ((applyOverrides e l').1, some .attributeError)) := by
          intro l
          induction l with
          | nil => exact ⟨[], by simp, .inl ⟨rfl, fun e => rfl⟩⟩
          | cons fv l ihl =>
            by_cases hf : Known fv.1
            · obtain ⟨l', hl', hc⟩ := ihl
              refine ⟨fv :: l', ?_, ?_⟩
              · intro y hy
                rcases List.mem_cons.1 hy with rfl | hy
                · exact hf
                · exact hl' y hy
              · rcases hc with ⟨rfl, hc⟩ | hc
                · refine .inl ⟨rfl, fun e => ?_⟩
                  obtain ⟨e1, h1, _⟩ := setField_known (e := e) hf
                  simp only [applyOverrides, h1, hc]
                · refine .inr fun e => ?_
                  obtain ⟨e1, h1, _⟩ := setField_known (e := e) hf
                  simp only [applyOverrides, h1, hc]
            · exact ⟨[], by simp, .inr fun e => by simp [applyOverrides, setField_unknown hf]⟩
        obtain ⟨l', hl', hc⟩ := key l
        rcases hc with ⟨rfl, hc⟩ | hc
        · refine ⟨l' ++ l2, x2, ?_, fun e => ?_⟩
          · intro y hy
            rcases List.mem_append.1 hy with hy | hy
            · exact hl' y hy
            · exact hk2 y hy
          · simp only [overrideUpdate, if_neg hv, hm, ↓reduceIte, applyOverrides_append]
            have := hc e
            generalize applyOverrides e l' = r at this ⊢
            obtain ⟨e1, x⟩ := r
            simp only at this
            subst this
            simp only [h2]
        · refine ⟨l', some .attributeError, hl', fun e => ?_⟩
          simp only [overrideUpdate, if_neg hv, hm, ↓reduceIte, hc]
      · exact ⟨l2, x2, hk2, fun e => by simp only [overrideUpdate, if_neg hv, hm, ↓reduceIte, h2,
          Bool.false_eq_true]⟩

theorem applyOverrides_twice {l : List (Str × Str)} (h : ∀ fv ∈ l, Known fv.1) (e : Eff) :
    (applyOverrides (applyOverrides e l).1 l).1 = (applyOverrides e l).1 := by
  obtain ⟨e1, h1, hg1⟩ := applyOverrides_known h e
  obtain ⟨e2, h2, hg2⟩ := applyOverrides_known h e1
  rw [h1]; simp only
  rw [h2]
  apply getField_ext
  intro f hf
  rw [hg2 f hf, hg1 f hf]
  cases lastVal l f <;> rfl

end Verif.Overrides
