import Verif.Model.Sysinfo
import Mathlib.Data.List.Forall2

/-!
# Searching line by line
-/

namespace Verif.Sysinfo

open Verif.Text

/-- What comes after a line. -/
def After (z : Str) : Prop := z = [] ∨ ∃ y, z = '\n' :: y

theorem literal_spec : ∀ (k s r : Str), literal k s = some r ↔ s = k ++ r := by
  intro k
  induction k with
  | nil => intro s r; simp [literal]
  | cons c k ih =>
    intro s r
    cases s with
    | nil => simp [literal]
    | cons d s =>
      simp only [literal, List.cons_append, List.cons.injEq]
      by_cases h : c = d
      · rw [if_pos h, ih]
        exact ⟨fun e => ⟨h.symm, e⟩, fun e => e.2⟩
      · rw [if_neg h]
        exact ⟨(fun e => nomatch e), fun e => absurd e.1.symm h⟩

theorem takeWhile_stop {p : Char → Bool} {a : Str} {c : Char} {r : Str} (ha : ∀ x ∈ a, p x = true) (hc : p c = false) :
    (a ++ c :: r).takeWhile p = a ∧ (a ++ c :: r).dropWhile p = c :: r := by
  induction a with
  | nil => simp [hc]
  | cons x a ih =>
    obtain ⟨h1, h2⟩ := ih fun y hy => ha y (List.mem_cons_of_mem _ hy)
    have := ha x List.mem_cons_self
    simp [this, h1, h2]

/-- The names that a line has for a pattern. -/
def LineHas {α : Type} (m : Str → Option (α × Str)) (l : Str) (xs : List α) : Prop :=
  ∀ z, After z → ∀ fuel, (l ++ z).length ≤ fuel → ∃ f, z.length ≤ f ∧ finditer m fuel (l ++ z) = xs ++ finditer m f z

theorem finditer_nil {α : Type} (m : Str → Option (α × Str)) (f : Nat) : finditer m f [] = [] := by
  cases f <;> rfl

theorem finditer_skip {α : Type} {m : Str → Option (α × Str)} {z : Str} : ∀ (l : Str),
    (∀ u v, l = u ++ v → v ≠ [] → m (v ++ z) = none) → ∀ fuel, (l ++ z).length ≤ fuel →
    ∃ f, z.length ≤ f ∧ finditer m fuel (l ++ z) = finditer m f z := by
  intro l
  induction l with
  | nil => intro _ fuel hf; exact ⟨fuel, hf, rfl⟩
  | cons c l ih =>
    intro hm fuel hf
    cases fuel with
    | zero => simp at hf
    | succ fuel =>
      obtain ⟨f, h1, h2⟩ := ih (fun u v e hv => hm (c :: u) v (by rw [e]; rfl) hv) fuel (by
        simp only [List.cons_append, List.length_cons] at hf; omega)
      refine ⟨f, h1, ?_⟩
      rw [List.cons_append, finditer, show m (c :: (l ++ z)) = none from hm [] (c :: l) rfl (by simp)]
      exact h2

theorem lineHas_none {α : Type} {m : Str → Option (α × Str)} {l : Str}
    (h : ∀ z, After z → ∀ u v, l = u ++ v → v ≠ [] → m (v ++ z) = none) : LineHas m l [] := by
  intro z hz fuel hf
  obtain ⟨f, h1, h2⟩ := finditer_skip l (h z hz) fuel hf
  exact ⟨f, h1, h2⟩

theorem lineHas_one {α : Type} {m : Str → Option (α × Str)} {a b r : Str} {x : α} (hb : b ≠ [])
    (hr : r.length < b.length)
    (h1 : ∀ z, After z → ∀ u v, a = u ++ v → v ≠ [] → m (v ++ (b ++ z)) = none)
    (h2 : ∀ z, After z → m (b ++ z) = some (x, r ++ z))
    (h3 : ∀ z, After z → ∀ u v, r = u ++ v → v ≠ [] → m (v ++ z) = none) : LineHas m (a ++ b) [x] := by
  intro z hz fuel hf
  rw [List.append_assoc] at hf ⊢
  obtain ⟨f, hf1, e1⟩ := finditer_skip a (h1 z hz) fuel hf
  rw [e1]
  cases b with
  | nil => exact absurd rfl hb
  | cons c b =>
    cases f with
    | zero => simp at hf1
    | succ f =>
      obtain ⟨g, hg1, e2⟩ := finditer_skip r (h3 z hz) f (by
        simp only [List.cons_append, List.length_cons, List.length_append] at hf1 hr ⊢; omega)
      refine ⟨g, hg1, ?_⟩
      have := h2 z hz
      rw [List.cons_append] at this
      rw [List.cons_append, finditer, this]
      dsimp only
      rw [e2]
      rfl

theorem finditer_lines {α : Type} {m : Str → Option (α × Str)} (hm : ∀ y, m ('\n' :: y) = none) {ls : List Str}
    {xss : List (List α)} (h : List.Forall₂ (LineHas m) ls xss) : ∀ fuel, (joinWith '\n' ls).length ≤ fuel →
    finditer m fuel (joinWith '\n' ls) = xss.flatten := by
  induction h with
  | nil => intro fuel _; exact finditer_nil m fuel
  | @cons l xs ls xss h hs ih =>
    intro fuel hf
    cases ls with
    | nil =>
      cases hs
      obtain ⟨f, -, e⟩ := h [] (.inl rfl) fuel (by simpa [joinWith] using hf)
      rw [finditer_nil, List.append_nil, List.append_nil] at e
      simpa [joinWith] using e
    | cons l' ls =>
      rw [show joinWith '\n' (l :: l' :: ls) = l ++ '\n' :: joinWith '\n' (l' :: ls) from rfl] at hf ⊢
      obtain ⟨f, hf', e⟩ := h _ (.inr ⟨_, rfl⟩) fuel hf
      rw [e]
      cases f with
      | zero => simp at hf'
      | succ f =>
        rw [finditer, hm]
        dsimp only
        rw [ih f (by simp only [List.length_cons] at hf'; omega)]
        rfl

theorem search_head {α : Type} {m : Str → Option (α × Str)} (hm : m [] = none) : ∀ (s : Str) (fuel : Nat),
    s.length ≤ fuel → search m s = (finditer m fuel s).head? := by
  intro s
  induction s with
  | nil => intro fuel _; rw [finditer_nil, search, hm]; rfl
  | cons c s ih =>
    intro fuel hf
    cases fuel with
    | zero => simp at hf
    | succ fuel =>
      rw [search, finditer]
      cases h : m (c :: s) with
      | none => exact ih fuel (by simp only [List.length_cons] at hf; omega)
      | some x => rfl

/-- What can end a name. -/
structure Ends (tail : Str → Option Str) (T : Str → Prop) : Prop where
  spec : ∀ s r, tail s = some r ↔ ∃ t, T t ∧ s = t ++ r
  inside : ∀ t, T t → ∃ w t', t = w :: t' ∧ '\n' ∉ t'

theorem lazyTo_stop {tail : Str → Option Str} {T : Str → Prop} (ht : Ends tail T) {ids z : Str} (hi : T ids) :
    ∀ name : Str, '\n' ∉ name → (∀ u v, name = u ++ v → v ≠ [] → tail (v ++ (ids ++ z)) = none) →
    lazyTo tail (name ++ (ids ++ z)) = some (name, z) := by
  intro name
  induction name with
  | nil =>
    intro _ _
    rw [lazyTo.eq_def]
    rw [List.nil_append, (ht.spec _ z).2 ⟨ids, hi, rfl⟩]
  | cons c name ih =>
    intro hn hu
    rw [lazyTo.eq_def, hu [] (c :: name) rfl (by simp)]
    simp only [List.mem_cons, not_or] at hn
    dsimp only [List.cons_append]
    rw [if_neg (fun e => hn.1 e.symm), ih hn.2 fun u v e hv => hu (c :: u) v (by rw [e]; rfl) hv]
    rfl

theorem afterColon_stop {tail : Str → Option Str} {s : Str} {x : Str × Str} (w : Char) (hw : isSpace w = true)
    (h : lazyTo tail s = some x) : ∀ mid : Str, ':' ∉ mid → '\n' ∉ mid →
    afterColon tail (mid ++ ':' :: w :: s) = some x := by
  intro mid
  induction mid with
  | nil =>
    intro _ _
    rw [List.nil_append, afterColon.eq_def]
    have : colonHere tail ':' (w :: s) = some x := (if_pos ⟨rfl, hw⟩).trans h
    dsimp only
    rw [this]
  | cons c mid ih =>
    intro h1 h2
    simp only [List.mem_cons, not_or] at h1 h2
    rw [List.cons_append, afterColon.eq_def]
    have : colonHere tail c (mid ++ ':' :: w :: s) = none := by
      unfold colonHere
      split
      · rw [if_neg fun e => h1.1 e.1.symm]
      · rfl
    dsimp only
    rw [this]
    dsimp only
    rw [if_neg fun e => h2.1 e.symm]
    exact ih h1.2 h2.2

theorem literal_after {k v z : Str} (hk : '\n' ∉ k) (hz : After z) (hv : ¬ k <+: v) : literal k (v ++ z) = none := by
  cases h : literal k (v ++ z) with
  | none => rfl
  | some r =>
    exfalso
    have e := (literal_spec _ _ _).1 h
    rcases List.append_eq_append_iff.1 e with ⟨a, h1, h2⟩ | ⟨a, h1, h2⟩
    · cases a with
      | nil => exact hv (by rw [h1, List.append_nil]; exact List.prefix_refl _)
      | cons c a =>
        rcases hz with rfl | ⟨y, rfl⟩
        · simp at h2
        · rw [List.cons_append] at h2
          injection h2 with h2 _
          exact hk (by rw [h1, ← h2]; simp)
    · exact hv ⟨a, h1.symm⟩

theorem prefix_line {l z x r : Str} (hx : '\n' ∉ x) (hz : After z) (e : l ++ z = x ++ r) :
    ∃ b, l = x ++ b ∧ r = b ++ z := by
  rcases List.append_eq_append_iff.1 e with ⟨a, h1, h2⟩ | ⟨a, h1, h2⟩
  · cases a with
    | nil => exact ⟨[], by rw [h1]; simp, by rw [h2]; simp⟩
    | cons c a =>
      rcases hz with rfl | ⟨y, rfl⟩
      · simp at h2
      · rw [List.cons_append] at h2
        injection h2 with h2 _
        exact absurd (by rw [h1, ← h2]; simp) hx
  · exact ⟨a, h1, h2⟩

theorem takeWhile_all {p : Char → Bool} : ∀ (l : Str), ∀ c ∈ l.takeWhile p, p c = true := by
  intro l
  induction l with
  | nil => simp
  | cons x l ih =>
    intro c hc
    rw [List.takeWhile_cons] at hc
    split at hc
    · rename_i hx
      rcases List.mem_cons.1 hc with rfl | hc
      · exact hx
      · exact ih c hc
    · simp at hc

end Verif.Sysinfo
