import Verif.Model.Path

/-! # Facts about path names -/

namespace Verif.Path

theorem takeWhile_append_stop {α : Type} {p : α → Bool} {a b : List α} (ha : ∀ x ∈ a, p x = true)
    (hb : b = [] ∨ ∃ y l, b = y :: l ∧ p y = false) : (a ++ b).takeWhile p = a := by
  induction a with
  | nil =>
    rcases hb with rfl | ⟨y, l, rfl, hy⟩
    · rfl
    · simp [hy]
  | cons x a ih =>
    rw [List.cons_append, List.takeWhile_cons, if_pos (ha x List.mem_cons_self),
      ih (fun z hz => ha z (List.mem_cons_of_mem _ hz))]

theorem dropWhile_append_stop {α : Type} {p : α → Bool} {a b : List α} (ha : ∀ x ∈ a, p x = true)
    (hb : b = [] ∨ ∃ y l, b = y :: l ∧ p y = false) : (a ++ b).dropWhile p = b := by
  induction a with
  | nil =>
    rcases hb with rfl | ⟨y, l, rfl, hy⟩
    · rfl
    · simp [hy]
  | cons x a ih =>
    rw [List.cons_append, List.dropWhile_cons, if_pos (ha x List.mem_cons_self),
      ih (fun z hz => ha z (List.mem_cons_of_mem _ hz))]

/-- A list ends with `y` or is empty, seen from the end. -/
theorem reverse_stop {pre : Str} {p : Char → Bool} {y : Char} (h : pre = [] ∨ pre.getLast? = some y)
    (hy : p y = false) : pre.reverse = [] ∨ ∃ z l, pre.reverse = z :: l ∧ p z = false := by
  rcases h with rfl | h
  · exact .inl rfl
  · right
    rw [← List.head?_reverse] at h
    cases hr : pre.reverse with
    | nil => rw [hr] at h; cases h
    | cons z l =>
      rw [hr] at h
      cases h
      exact ⟨_, l, rfl, hy⟩

theorem after_upto {pre t : Str} (ht : '/' ∉ t) (hp : pre = [] ∨ pre.getLast? = some '/') :
    afterSlash (pre ++ t) = t ∧ uptoSlash (pre ++ t) = pre := by
  have h1 : ∀ x ∈ t.reverse, decide (x ≠ '/') = true := by
    intro x hx
    simp only [decide_eq_true_eq]
    rintro rfl
    exact ht (List.mem_reverse.mp hx)
  have h2 := reverse_stop (p := fun c => decide (c ≠ '/')) hp (by decide)
  constructor
  · simp only [afterSlash, List.reverse_append]
    rw [takeWhile_append_stop h1 h2, List.reverse_reverse]
  · simp only [uptoSlash, List.reverse_append]
    rw [dropWhile_append_stop h1 h2, List.reverse_reverse]

theorem upto_append_after (p : Str) : uptoSlash p ++ afterSlash p = p := by
  simp only [uptoSlash, afterSlash, ← List.reverse_append, List.takeWhile_append_dropWhile,
    List.reverse_reverse]

theorem mem_takeWhile_holds {α : Type} {p : α → Bool} {l : List α} : ∀ x ∈ l.takeWhile p, p x = true := by
  induction l with
  | nil => intro x hx; cases hx
  | cons y l ih =>
    intro x hx
    rw [List.takeWhile_cons] at hx
    split at hx
    · rcases List.mem_cons.mp hx with rfl | hx
      · assumption
      · exact ih x hx
    · cases hx

theorem dropWhile_head {α : Type} {p : α → Bool} {l : List α} :
    l.dropWhile p = [] ∨ ∃ y r, l.dropWhile p = y :: r ∧ p y = false := by
  induction l with
  | nil => exact .inl rfl
  | cons y l ih =>
    rw [List.dropWhile_cons]
    split
    · exact ih
    · next h => exact .inr ⟨y, l, rfl, by simpa using h⟩

theorem after_noSlash (p : Str) : '/' ∉ afterSlash p := by
  intro h
  have := mem_takeWhile_holds _ (List.mem_reverse.mp h)
  simp at this

theorem upto_end (p : Str) : uptoSlash p = [] ∨ (uptoSlash p).getLast? = some '/' := by
  rcases dropWhile_head (p := fun c => decide (c ≠ '/')) (l := p.reverse) with h | ⟨y, r, h, hy⟩
  · left; unfold uptoSlash; rw [h]; rfl
  · right
    have e : y = '/' := by simpa using hy
    subst e
    unfold uptoSlash
    rw [← List.head?_reverse, List.reverse_reverse, h]
    rfl

/-- `f` has the extension `e`: its last component is a name with something other than dots in it,
followed by `e`, which starts with its only dot. -/
def HasExt (f e : Str) : Prop :=
  ∃ pre stem r, f = pre ++ stem ++ e ∧ (pre = [] ∨ pre.getLast? = some '/') ∧ '/' ∉ stem ∧
    e = '.' :: r ∧ '/' ∉ r ∧ '.' ∉ r ∧ ∃ c ∈ stem, c ≠ '.'

theorem ext_of_hasExt {f e : Str} (h : HasExt f e) : ext f = e := by
  obtain ⟨pre, stem, r, rfl, hp, hs, rfl, hr, hd, c, hc, hcd⟩ := h
  have h1 : afterSlash (pre ++ stem ++ '.' :: r) = stem ++ '.' :: r := by
    rw [List.append_assoc]
    refine (after_upto ?_ hp).1
    simp only [List.mem_append, List.mem_cons, not_or]
    exact ⟨hs, by decide, hr⟩
  have h2 : ∀ x ∈ r.reverse, decide (x ≠ '.') = true := by
    intro x hx
    simp only [decide_eq_true_eq]
    rintro rfl
    exact hd (List.mem_reverse.mp hx)
  have h3 : ('.' :: stem.reverse = ([] : Str)) ∨ ∃ y l, '.' :: stem.reverse = y :: l ∧
      decide (y ≠ '.') = false := .inr ⟨'.', stem.reverse, rfl, by decide⟩
  have e1 : (stem ++ '.' :: r).reverse = r.reverse ++ '.' :: stem.reverse := by simp
  unfold ext
  rw [h1, e1]
  unfold extRev
  rw [dropWhile_append_stop h2 h3, takeWhile_append_stop h2 h3]
  show (if stem.reverse.any (fun x => decide (x ≠ '.')) = true then _ else _) = _
  rw [if_pos, List.reverse_reverse]
  rw [List.any_eq_true]
  exact ⟨c, List.mem_reverse.mpr hc, by simpa using hcd⟩

theorem hasExt_ext {f : Str} (h : ext f ≠ []) : HasExt f (ext f) := by
  unfold ext at h ⊢
  unfold extRev at h ⊢
  rcases dropWhile_head (p := fun c => decide (c ≠ '.')) (l := (afterSlash f).reverse) with
    hd | ⟨y, b, hd, hy⟩
  · rw [hd] at h; exact absurd rfl h
  · have ey : y = '.' := by simpa using hy
    subst ey
    rw [hd] at h ⊢
    dsimp only at h ⊢
    by_cases hb : b.any (fun x => decide (x ≠ '.')) = true
    · rw [if_pos hb]
      have es : afterSlash f = b.reverse ++ '.' ::
          ((afterSlash f).reverse.takeWhile (fun c => decide (c ≠ '.'))).reverse := by
        have := List.takeWhile_append_dropWhile (p := fun c => decide (c ≠ '.'))
          (l := (afterSlash f).reverse)
        rw [hd] at this
        have h2 := congrArg List.reverse this
        rw [List.reverse_reverse] at h2
        rw [List.reverse_append, List.reverse_cons, List.append_assoc] at h2
        exact h2.symm
      have hns := after_noSlash f
      generalize htw : ((afterSlash f).reverse.takeWhile (fun c => decide (c ≠ '.'))).reverse = r at es ⊢
      refine ⟨uptoSlash f, b.reverse, r, ?_, upto_end f, ?_, rfl, ?_, ?_, ?_⟩
      · rw [List.append_assoc, ← es, upto_append_after]
      · intro hm; apply hns; rw [es]; simp [hm]
      · intro hm; apply hns; rw [es]; simp [hm]
      · intro hm
        rw [← htw] at hm
        have := mem_takeWhile_holds _ (List.mem_reverse.mp hm)
        simp at this
      · obtain ⟨c, hc, hcd⟩ := List.any_eq_true.mp hb
        exact ⟨c, List.mem_reverse.mpr hc, by simpa using hcd⟩
    · rw [if_neg hb] at h
      exact absurd rfl h

theorem ext_iff {f e : Str} (he : e ≠ []) : ext f = e ↔ HasExt f e := by
  constructor
  · intro h
    subst h
    exact hasExt_ext he
  · exact ext_of_hasExt

/-- The directory part of `a/t`. -/
theorem dirname_slash {a t : Str} (ht : '/' ∉ t) (ha : a ≠ []) (he : a.getLast? ≠ some '/') :
    dirname (a ++ '/' :: t) = a := by
  have e : a ++ '/' :: t = (a ++ ['/']) ++ t := by simp
  have h := (after_upto (pre := a ++ ['/']) ht (.inr (by simp))).2
  have hr : rstripSlash (a ++ ['/']) = a := by
    unfold rstripSlash
    rw [List.reverse_append, List.reverse_cons, List.reverse_nil, List.nil_append, List.cons_append,
      List.nil_append, List.dropWhile_cons, if_pos (by decide)]
    cases hra : a.reverse with
    | nil => exact absurd (List.reverse_eq_nil_iff.mp hra) ha
    | cons z l =>
      have hz : z ≠ '/' := by
        rintro rfl
        rw [← List.head?_reverse, hra] at he
        exact he rfl
      rw [List.dropWhile_cons, if_neg (by simpa using hz), ← hra, List.reverse_reverse]
  unfold dirname
  rw [e, h]
  split
  · next hall =>
    exfalso
    cases hra : a.reverse with
    | nil => exact absurd (List.reverse_eq_nil_iff.mp hra) ha
    | cons z l =>
      have hz : z ∈ a := List.mem_reverse.mp (hra ▸ List.mem_cons_self)
      have := List.all_eq_true.mp hall z (List.mem_append_left _ hz)
      have ez : z = '/' := by simpa using this
      subst ez
      rw [← List.head?_reverse, hra] at he
      exact he rfl
  · exact hr

theorem basename_slash {a t : Str} (ht : '/' ∉ t) : basename (a ++ '/' :: t) = t := by
  have e : a ++ '/' :: t = (a ++ ['/']) ++ t := by simp
  rw [basename, e]
  exact (after_upto ht (.inr (by simp))).1

theorem rstrip_prefix (p : Str) : rstripSlash p <+: p := by
  have := List.dropWhile_suffix (l := p.reverse) (fun c => decide (c = '/'))
  have h := List.reverse_prefix.mpr this
  rw [List.reverse_reverse] at h
  exact h

theorem upto_prefix (p : Str) : uptoSlash p <+: p := ⟨afterSlash p, upto_append_after p⟩

theorem dirname_prefix (p : Str) : dirname p <+: p := by
  unfold dirname
  split
  · exact upto_prefix p
  · exact (rstrip_prefix _).trans (upto_prefix p)

/-- The directory part is shorter unless the name consists of slashes. -/
theorem dirname_shorter {p : Str} (h : ∃ c ∈ p, c ≠ '/') : (dirname p).length < p.length := by
  obtain ⟨c, hc, hcs⟩ := h
  have hle : (dirname p).length ≤ p.length := (dirname_prefix p).length_le
  refine Nat.lt_of_le_of_ne hle ?_
  intro he
  have e : dirname p = p := (dirname_prefix p).eq_of_length he
  unfold dirname at e
  split at e
  · next hall =>
    rw [e] at hall
    have := List.all_eq_true.mp hall c hc
    simp at this
    exact hcs this
  · next hall =>
    have h1 : uptoSlash p = p := (upto_prefix p).eq_of_length (Nat.le_antisymm (upto_prefix p).length_le
      (by have := (rstrip_prefix (uptoSlash p)).length_le; rw [e] at this; exact this))
    rw [h1] at e
    rcases upto_end p with h2 | h2
    · rw [h1] at h2; subst h2; cases hc
    · rw [h1] at h2
      rw [← List.head?_reverse] at h2
      unfold rstripSlash at e
      cases hr : p.reverse with
      | nil => rw [hr] at h2; cases h2
      | cons z l =>
        rw [hr] at h2 e
        cases h2
        rw [List.dropWhile_cons, if_pos (by decide)] at e
        have l1 := congrArg List.length e
        have l2 := (List.dropWhile_suffix (l := l) (fun c => decide (c = '/'))).length_le
        have l3 := congrArg List.length hr
        simp only [List.length_reverse, List.length_cons] at l1 l3
        omega

/-- A name of slashes is its own directory part. -/
theorem dirname_slashes {p : Str} (h : ∀ c ∈ p, c = '/') : dirname p = p ∧ basename p = [] := by
  have hb : afterSlash p = [] := by
    cases ha : afterSlash p with
    | nil => rfl
    | cons c l =>
      exfalso
      have hm : c ∈ afterSlash p := ha ▸ List.mem_cons_self
      have hp : c ∈ p := by
        rw [← upto_append_after p]; exact List.mem_append_right _ hm
      have := h c hp
      subst this
      exact after_noSlash p hm
  have hu : uptoSlash p = p := by
    have := upto_append_after p
    rw [hb, List.append_nil] at this
    exact this
  refine ⟨?_, hb⟩
  unfold dirname
  rw [hu, if_pos]
  exact List.all_eq_true.mpr fun c hc => by simpa using h c hc

end Verif.Path
