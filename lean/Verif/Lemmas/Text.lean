import Verif.Model.Text

/-! # Facts about the string operations -/

namespace Verif.Text

theorem mem_takeWhile {α : Type} {p : α → Bool} {l : List α} {x : α} (h : x ∈ l.takeWhile p) :
    p x = true := by
  induction l with
  | nil => simp at h
  | cons a l ih =>
    rw [List.takeWhile_cons] at h
    split at h
    · rcases List.mem_cons.mp h with rfl | h
      · assumption
      · exact ih h
    · simp at h

theorem takeWhile_append_stop {α : Type} (p : α → Bool) (ds rest : List α)
    (h1 : ∀ c ∈ ds, p c = true) (h2 : ∀ c r, rest = c :: r → p c = false) :
    (ds ++ rest).takeWhile p = ds ∧ (ds ++ rest).dropWhile p = rest := by
  induction ds with
  | nil =>
    cases rest with
    | nil => simp
    | cons c r => simp [h2 c r rfl]
  | cons d ds ih =>
    have := ih (fun c hc => h1 c (by simp [hc]))
    simp [h1 d (by simp), this]

theorem dropWhile_eq_self {α : Type} {p : α → Bool} {l : List α} :
    l.dropWhile p = l ↔ ∀ c r, l = c :: r → p c = false := by
  cases l with
  | nil => simp
  | cons a l =>
    rw [List.dropWhile_cons]
    split
    · rename_i h
      constructor
      · intro he
        have := congrArg List.length he
        have h2 := (List.dropWhile_sublist (l := l) p).length_le
        simp at this; omega
      · intro he; have := he a l rfl; simp [h] at this
    · rename_i h; simp; simpa using h

theorem dropWhile_eq_nil {α : Type} {p : α → Bool} {l : List α} :
    l.dropWhile p = [] ↔ ∀ c ∈ l, p c = true := by
  induction l with
  | nil => simp
  | cons a l ih => rw [List.dropWhile_cons]; split <;> simp_all

theorem dropWhile_head {α : Type} {p : α → Bool} {l r : List α} {c : α}
    (h : l.dropWhile p = c :: r) : p c = false := by
  induction l with
  | nil => simp at h
  | cons a l ih =>
    rw [List.dropWhile_cons] at h
    split at h
    · exact ih h
    · rename_i ha; simp at h; rw [← h.1]; simpa using ha

theorem lstrip_eq_self {l : List Char} :
    lstrip l = l ↔ ∀ c, l.head? = some c → isSpace c = false := by
  unfold lstrip
  rw [dropWhile_eq_self]
  cases l with
  | nil => simp
  | cons a l => simp

theorem rstrip_eq_self {l : List Char} :
    rstrip l = l ↔ ∀ c, l.getLast? = some c → isSpace c = false := by
  unfold rstrip
  rw [← List.head?_reverse]
  constructor
  · intro h
    have : l.reverse.dropWhile isSpace = l.reverse := by
      have := congrArg List.reverse h; simpa using this
    exact lstrip_eq_self.mp this
  · intro h
    have : l.reverse.dropWhile isSpace = l.reverse := lstrip_eq_self.mpr h
    rw [this]; simp

theorem lstrip_append_of_head {l r : List Char} {c : Char} (h : l.head? = some c)
    (hc : isSpace c = false) : lstrip (l ++ r) = l ++ r := by
  rw [lstrip_eq_self]
  intro d hd
  cases l with
  | nil => simp at h
  | cons a l => simp at h hd; rw [← hd, h]; exact hc

theorem rstrip_append_space {l s : List Char} (hs : ∀ c ∈ s, isSpace c = true) :
    rstrip (l ++ s) = rstrip l := by
  unfold rstrip
  rw [List.reverse_append]
  congr 1
  have : ∀ s l : List Char, (∀ c ∈ s, isSpace c = true) →
      (s ++ l).dropWhile isSpace = l.dropWhile isSpace := by
    intro s l
    induction s with
    | nil => simp
    | cons a s ih => intro h; simp [h a (by simp)]; exact ih (fun c hc => h c (by simp [hc]))
  exact this _ _ (by simpa using hs)

theorem lstrip_append_of_not_all {l r : List Char} (h : ¬ ∀ c ∈ l, isSpace c = true) :
    lstrip (l ++ r) = lstrip l ++ r := by
  unfold lstrip
  induction l with
  | nil => simp at h
  | cons a l ih =>
    rw [List.cons_append, List.dropWhile_cons, List.dropWhile_cons]
    split
    · rename_i ha
      apply ih
      intro hl; apply h; intro c hc
      rcases List.mem_cons.mp hc with rfl | hc
      · exact ha
      · exact hl c hc
    · rfl

/-- A text is its own stripped version exactly when neither end is white space. -/
theorem strip_eq_self {l : List Char} :
    strip l = l ↔ (∀ c, l.head? = some c → isSpace c = false) ∧
      (∀ c, l.getLast? = some c → isSpace c = false) := by
  constructor
  · intro h
    have hlen1 : (rstrip (lstrip l)).length ≤ (lstrip l).length := by
      unfold rstrip
      have := (List.dropWhile_sublist (l := (lstrip l).reverse) isSpace).length_le
      simpa using this
    have hl : lstrip l = l := by
      have h2 : (lstrip l).Sublist l := List.dropWhile_sublist _
      have hlen : l.length ≤ (lstrip l).length := by
        have := congrArg List.length h
        unfold strip at this; omega
      exact h2.eq_of_length (by have := h2.length_le; omega)
    refine ⟨lstrip_eq_self.mp hl, ?_⟩
    unfold strip at h
    rw [hl] at h
    exact rstrip_eq_self.mp h
  · rintro ⟨h1, h2⟩
    unfold strip
    rw [lstrip_eq_self.mpr h1, rstrip_eq_self.mpr h2]

theorem strip_eq_nil {l : List Char} : strip l = [] ↔ ∀ c ∈ l, isSpace c = true := by
  constructor
  · intro h
    apply Classical.byContradiction; intro hn
    unfold strip at h
    have hne : lstrip l ≠ [] := by
      unfold lstrip; rw [Ne, dropWhile_eq_nil]; exact hn
    obtain ⟨c, r, hcr⟩ := List.exists_cons_of_ne_nil hne
    have hc := dropWhile_head hcr
    rw [hcr] at h
    unfold rstrip at h
    simp only [List.reverse_eq_nil_iff, dropWhile_eq_nil] at h
    have := h c (by simp)
    rw [hc] at this; simp at this
  · intro h
    unfold strip
    have : lstrip l = [] := dropWhile_eq_nil.mpr h
    rw [this]; rfl

/-- The result of stripping is stripped. -/
theorem strip_idem (l : List Char) : strip (strip l) = strip l := by
  rw [strip_eq_self]
  have hl : ∀ c, (lstrip l).head? = some c → isSpace c = false := by
    intro c hc
    cases h : lstrip l with
    | nil => rw [h] at hc; simp at hc
    | cons a r => rw [h] at hc; simp at hc; rw [← hc]; exact dropWhile_head h
  have key : ∀ m : List Char, (∀ c, m.head? = some c → isSpace c = false) →
      (∀ c, (rstrip m).head? = some c → isSpace c = false) := by
    intro m hm c hc
    unfold rstrip at hc
    rw [List.head?_reverse] at hc
    obtain ⟨p, hp⟩ : ∃ p, m.reverse = p ++ m.reverse.dropWhile isSpace :=
      ⟨_, (List.takeWhile_append_dropWhile).symm⟩
    apply hm
    rw [← List.reverse_reverse m, List.head?_reverse, hp]
    cases hd : m.reverse.dropWhile isSpace with
    | nil => rw [hd] at hc; simp at hc
    | cons a r => rw [hd] at hc; rw [List.getLast?_append]; simp [hc]
  refine ⟨key _ hl, ?_⟩
  intro c hc
  unfold strip rstrip at hc
  rw [List.getLast?_reverse] at hc
  cases h : (lstrip l).reverse.dropWhile isSpace with
  | nil => rw [h] at hc; simp at hc
  | cons a r => rw [h] at hc; simp at hc; rw [← hc]; exact dropWhile_head h

/-! ## Splitting and joining -/

theorem splitOn_ne_nil (sep : Char) (l : List Char) : splitOn sep l ≠ [] := by
  induction l with
  | nil => simp [splitOn]
  | cons c l ih =>
    unfold splitOn
    split
    · simp
    · split <;> simp

theorem joinWith_cons (sep : Char) (p : List Char) {ps : List (List Char)} (h : ps ≠ []) :
    joinWith sep (p :: ps) = p ++ sep :: joinWith sep ps := by
  cases ps with
  | nil => exact absurd rfl h
  | cons q qs => rfl

theorem join_split (sep : Char) (l : List Char) : joinWith sep (splitOn sep l) = l := by
  induction l with
  | nil => rfl
  | cons c l ih =>
    unfold splitOn
    split
    · rename_i h
      rw [joinWith_cons _ _ (splitOn_ne_nil sep l), ih, h]; rfl
    · rename_i h
      split
      · rename_i hs; exact absurd hs (splitOn_ne_nil sep l)
      · rename_i p ps hs
        rw [hs] at ih
        cases ps with
        | nil => simp only [joinWith] at ih ⊢; rw [ih]
        | cons q qs => simp only [joinWith, List.cons_append] at ih ⊢; rw [ih]

theorem split_no_sep {sep : Char} {l : List Char} (h : sep ∉ l) : splitOn sep l = [l] := by
  induction l with
  | nil => rfl
  | cons c l ih =>
    simp only [List.mem_cons, not_or] at h
    unfold splitOn
    rw [if_neg (fun hc => h.1 hc.symm), ih h.2]

theorem split_append {sep : Char} {l r : List Char} (h : sep ∉ l) :
    splitOn sep (l ++ sep :: r) = l :: splitOn sep r := by
  induction l with
  | nil => simp [splitOn]
  | cons c l ih =>
    simp only [List.mem_cons, not_or] at h
    rw [List.cons_append]
    rw [splitOn, if_neg (fun hc => h.1 hc.symm), ih h.2]

theorem split_parts_no_sep {sep : Char} (l : List Char) : ∀ p ∈ splitOn sep l, sep ∉ p := by
  induction l with
  | nil => simp [splitOn]
  | cons c l ih =>
    unfold splitOn
    split
    · intro p hp
      rcases List.mem_cons.mp hp with rfl | hp
      · simp
      · exact ih p hp
    · rename_i hc
      split
      · rename_i hs; exact absurd hs (splitOn_ne_nil sep l)
      · rename_i q qs hs
        rw [hs] at ih
        intro p hp
        rcases List.mem_cons.mp hp with rfl | hp
        · simp only [List.mem_cons, not_or]
          exact ⟨fun h => hc h.symm, ih q (by simp)⟩
        · exact ih p (by simp [hp])

theorem split_join {sep : Char} {ps : List (List Char)} (hne : ps ≠ [])
    (h : ∀ p ∈ ps, sep ∉ p) : splitOn sep (joinWith sep ps) = ps := by
  induction ps with
  | nil => exact absurd rfl hne
  | cons p ps ih =>
    cases ps with
    | nil => exact split_no_sep (h p (by simp))
    | cons q qs =>
      rw [joinWith_cons _ _ (by simp), split_append (h p (by simp)),
        ih (by simp) (fun x hx => h x (by simp [hx]))]

/-! ## Lines -/

theorem linesKeep_append {l r : List Char} (h : '\n' ∉ l) :
    linesKeep (l ++ '\n' :: r) = (l ++ ['\n']) :: linesKeep r := by
  induction l with
  | nil => simp [linesKeep]
  | cons c l ih =>
    simp only [List.mem_cons, not_or] at h
    rw [List.cons_append, linesKeep, if_neg (fun hc => h.1 hc.symm), ih h.2]
    rfl

theorem linesKeep_flatten (l : List Char) : (linesKeep l).flatten = l := by
  induction l with
  | nil => rfl
  | cons c l ih =>
    unfold linesKeep
    split
    · rename_i h; simp [ih, h]
    · cases hl : linesKeep l with
      | nil => rw [hl] at ih; simp at ih; simp [← ih]
      | cons p ps => rw [hl] at ih; simp at ih ⊢; exact ih

end Verif.Text
