import Verif.Model.Sort

namespace Verif.Sort

variable {α : Type} {le : α → α → Bool}

theorem insertBy_perm (x : α) (l : List α) : (insertBy le x l).Perm (x :: l) := by
  induction l with
  | nil => exact .refl _
  | cons y l ih =>
    simp only [insertBy]
    split
    · exact .refl _
    · exact (ih.cons y).trans (.swap x y l)

theorem sortBy_perm (l : List α) : (sortBy le l).Perm l := by
  induction l with
  | nil => exact .refl _
  | cons x l ih => exact (insertBy_perm x _).trans (ih.cons x)

theorem insertBy_sorted (tot : ∀ a b, le a b = true ∨ le b a = true)
    (tr : ∀ a b c, le a b = true → le b c = true → le a c = true) (x : α) {l : List α}
    (h : l.Pairwise fun a b => le a b = true) :
    (insertBy le x l).Pairwise fun a b => le a b = true := by
  induction l with
  | nil => simp [insertBy]
  | cons y l ih =>
    rw [List.pairwise_cons] at h
    simp only [insertBy]
    split
    · rename_i hxy
      refine List.pairwise_cons.2 ⟨?_, List.pairwise_cons.2 h⟩
      intro z hz
      rcases List.mem_cons.1 hz with rfl | hz
      · exact hxy
      · exact tr _ _ _ hxy (h.1 z hz)
    · rename_i hxy
      refine List.pairwise_cons.2 ⟨?_, ih h.2⟩
      intro z hz
      rcases List.mem_cons.1 ((insertBy_perm x l).mem_iff.1 hz) with rfl | hz
      · exact (tot z y).resolve_left hxy
      · exact h.1 z hz

theorem sortBy_sorted (tot : ∀ a b, le a b = true ∨ le b a = true)
    (tr : ∀ a b c, le a b = true → le b c = true → le a c = true) (l : List α) :
    (sortBy le l).Pairwise fun a b => le a b = true := by
  induction l with
  | nil => exact .nil
  | cons x l ih => exact insertBy_sorted tot tr x ih

/-- Stability: elements of a class of pairwise equal elements keep their order. -/
theorem sortBy_filter (p : α → Bool) (hp : ∀ a b, p a = true → p b = true → le a b = true)
    (l : List α) : (sortBy le l).filter p = l.filter p := by
  induction l with
  | nil => rfl
  | cons x l ih =>
    have key : ∀ (l : List α), (insertBy le x l).filter p = (x :: l).filter p := by
      intro l
      induction l with
      | nil => rfl
      | cons y l ihl =>
        simp only [insertBy]
        split
        · rfl
        · rename_i hxy
          by_cases hx : p x = true
          · have hy : p y = false := by
              cases hy : p y
              · rfl
              · exact absurd (hp x y hx hy) hxy
            simp only [List.filter_cons, hy, hx, ↓reduceIte, Bool.false_eq_true] at ihl ⊢
            exact ihl
          · simp only [Bool.not_eq_true] at hx
            simp only [List.filter_cons, hx, ↓reduceIte, Bool.false_eq_true] at ihl ⊢
            rw [ihl]
    simp only [sortBy]
    rw [key, List.filter_cons, ih, ← List.filter_cons]

theorem strLe_total (a b : List Char) : strLe a b = true ∨ strLe b a = true := by
  induction a generalizing b with
  | nil => simp [strLe]
  | cons x a ih =>
    cases b with
    | nil => simp [strLe]
    | cons y b =>
      simp only [strLe]
      by_cases h1 : x.toNat < y.toNat
      · simp [h1]
      · by_cases h2 : y.toNat < x.toNat
        · simp [h2]
        · have : x = y := Char.toNat_inj.1 (by omega)
          subst this
          simpa using ih b

theorem strLe_trans (a b c : List Char) : strLe a b = true → strLe b c = true → strLe a c = true := by
  induction a generalizing b c with
  | nil => simp [strLe]
  | cons x a ih =>
    cases b with
    | nil => simp [strLe]
    | cons y b =>
      cases c with
      | nil => simp [strLe]
      | cons z c =>
        simp only [strLe]
        intro h1 h2
        split at h1
        · split at h2
          · rw [if_pos (by omega)]
          · split at h2
            · rename_i hyz; subst hyz; rw [if_pos (by assumption)]
            · simp at h2
        · split at h1
          · rename_i hxy
            subst hxy
            split at h2
            · rw [if_pos (by assumption)]
            · split at h2
              · rename_i hn h; rw [if_neg hn, if_pos h]; exact ih b c h1 h2
              · simp at h2
          · simp at h1

theorem strLe_refl (a : List Char) : strLe a a = true := by
  rcases strLe_total a a with h | h <;> exact h

theorem strLe_antisymm (a b : List Char) : strLe a b = true → strLe b a = true → a = b := by
  induction a generalizing b with
  | nil => cases b <;> simp [strLe]
  | cons x a ih =>
    cases b with
    | nil => simp [strLe]
    | cons y b =>
      simp only [strLe]
      intro h1 h2
      by_cases hxy : x = y
      · subst hxy
        simp only [Nat.lt_irrefl, ↓reduceIte] at h1 h2
        rw [ih b h1 h2]
      · have hyx : ¬ y = x := fun h => hxy h.symm
        simp only [hxy, hyx, ↓reduceIte, ite_eq_left_iff, Bool.false_eq_true, imp_false,
          Decidable.not_not] at h1 h2
        omega

end Verif.Sort
