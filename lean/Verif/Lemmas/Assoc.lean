import Verif.Model.Checksum

/-! # Lemmas about dictionaries as association lists -/

set_option linter.unusedSimpArgs false

namespace Verif.Assoc

open Verif.Checksum (Str dictSet)

theorem lk_cons {V : Type} (k : Str) (x : Str × V) (l : List (Str × V)) :
    (x :: l).lookup k = if k = x.1 then some x.2 else l.lookup k := by
  obtain ⟨a, b⟩ := x
  by_cases h : k = a
  · rw [if_pos h, List.lookup, show (k == a) = true from beq_iff_eq.2 h]
  · rw [if_neg h, List.lookup, show (k == a) = false from beq_eq_false_iff_ne.2 h]

theorem lookup_dictSet {V : Type} (k : Str) (v : V) (l : List (Str × V)) (k' : Str) :
    (dictSet k v l).lookup k' = if k' = k then some v else l.lookup k' := by
  induction l with
  | nil => rw [dictSet, lk_cons]
  | cons x l ih =>
    rw [dictSet]
    by_cases h : x.1 = k
    · rw [if_pos h, lk_cons, lk_cons]
      by_cases h' : k' = k
      · rw [if_pos h', if_pos h']
      · rw [if_neg h', if_neg h', if_neg (fun e => h' (e.trans h))]
    · rw [if_neg h, lk_cons, lk_cons, ih]
      by_cases h' : k' = x.1
      · rw [if_pos h', if_neg (fun e => h (h'.symm.trans e)), if_pos h']
      · rw [if_neg h', if_neg h']

theorem lookup_filter {V : Type} (p : Str → Bool) (l : List (Str × V)) (k : Str) :
    (l.filter fun kv => p kv.1).lookup k = if p k = true then l.lookup k else none := by
  induction l with
  | nil => simp only [List.filter_nil, List.lookup_nil, ite_self]
  | cons x l ih =>
    rw [List.filter_cons, lk_cons]
    by_cases hp : p x.1 = true
    · rw [if_pos hp, lk_cons, ih]
      by_cases h : k = x.1
      · rw [if_pos h, if_pos h, if_pos (h ▸ hp)]
      · rw [if_neg h, if_neg h]
    · rw [if_neg hp, ih]
      by_cases h : k = x.1
      · rw [if_neg (h ▸ hp), if_neg (h ▸ hp)]
      · rw [if_neg h]

theorem lookup_map {V W : Type} (f : V → W) (l : List (Str × V)) (k : Str) :
    (l.map fun kv => (kv.1, f kv.2)).lookup k = (l.lookup k).map f := by
  induction l with
  | nil => rfl
  | cons x l ih =>
    rw [List.map_cons, lk_cons, lk_cons, ih]
    by_cases h : k = x.1
    · rw [if_pos h, if_pos h]; rfl
    · rw [if_neg h, if_neg h]

theorem nodup_dictSet {V : Type} (k : Str) (v : V) (l : List (Str × V)) (h : (l.map (·.1)).Nodup) :
    ((dictSet k v l).map (·.1)).Nodup := by
  have hk : ∀ l : List (Str × V), ∀ a, a ∈ (dictSet k v l).map (·.1) → a = k ∨ a ∈ l.map (·.1) := by
    intro l
    induction l with
    | nil => intro a ha; simpa [dictSet] using ha
    | cons x l ih =>
      intro a ha
      simp only [dictSet] at ha
      split at ha
      · rename_i hx
        simp only [List.map_cons, List.mem_cons] at ha ⊢
        rcases ha with rfl | ha
        · exact .inl rfl
        · exact .inr (.inr ha)
      · simp only [List.map_cons, List.mem_cons] at ha ⊢
        rcases ha with rfl | ha
        · exact .inr (.inl rfl)
        · rcases ih a ha with h | h
          · exact .inl h
          · exact .inr (.inr h)
  induction l with
  | nil => simp [dictSet]
  | cons x l ih =>
    rw [List.map_cons, List.nodup_cons] at h
    simp only [dictSet]
    split
    · rename_i hx
      rw [List.map_cons, List.nodup_cons, ← hx]
      exact h
    · rename_i hx
      rw [List.map_cons, List.nodup_cons]
      refine ⟨?_, ih h.2⟩
      intro hm
      rcases hk l _ hm with h' | h'
      · exact hx h'
      · exact h.1 h'

theorem perm_of_lookup {V : Type} : ∀ {l l' : List (Str × V)}, (l.map (·.1)).Nodup →
    (l'.map (·.1)).Nodup → (∀ k, l.lookup k = l'.lookup k) → l.Perm l' := by
  have hmem : ∀ {l : List (Str × V)}, (l.map (·.1)).Nodup → ∀ x, x ∈ l ↔ l.lookup x.1 = some x.2 := by
    intro l hn x
    induction l with
    | nil => simp
    | cons y l ih =>
      rw [List.map_cons, List.nodup_cons] at hn
      rw [List.lookup_cons]
      by_cases h : x.1 = y.1
      · simp only [h, beq_self_eq_true]
        constructor
        · intro hx
          rcases List.mem_cons.1 hx with rfl | hx
          · rfl
          · exact absurd (List.mem_map.2 ⟨x, hx, h⟩) hn.1
        · intro hv
          simp only [Option.some.injEq] at hv
          have : x = y := Prod.ext h hv.symm
          simp [this]
      · have : (x.1 == y.1) = false := by simpa using h
        simp only [this]
        rw [← ih hn.2, List.mem_cons]
        constructor
        · rintro (rfl | h')
          · exact absurd rfl h
          · exact h'
        · exact .inr
  intro l l' hn hn' h
  have nd : ∀ {l : List (Str × V)}, (l.map (·.1)).Nodup → l.Nodup := by
    intro l hn
    exact List.Pairwise.of_map _ (fun a b hab he => hab (by rw [he])) hn
  rw [List.perm_ext_iff_of_nodup (nd hn) (nd hn')]
  intro x
  rw [hmem hn, hmem hn', h]


end Verif.Assoc
