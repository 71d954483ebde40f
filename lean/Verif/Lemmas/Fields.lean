import Verif.Model.Fields
import Verif.Lemmas.Text
import Verif.Props.RFC822

/-! # Lemmas about the fields of units -/

namespace Verif.Fields

open Verif.Text
open Verif.RFC822

theorem strip_append_space {l s : List Char} (hs : ∀ c ∈ s, isSpace c = true) : strip (l ++ s) = strip l := by
  by_cases h : ∀ c ∈ l, isSpace c = true
  · rw [strip_eq_nil.2 h, strip_eq_nil.2]
    intro c hc
    rcases List.mem_append.1 hc with hc | hc
    · exact h c hc
    · exact hs c hc
  · unfold strip
    rw [lstrip_append_of_not_all h, rstrip_append_space hs]

theorem rstripNL_spec (v : Str) : ∃ k, v = rstripNL v ++ List.replicate k '\n' := by
  refine ⟨(v.reverse.takeWhile (· = '\n')).length, ?_⟩
  have h1 : v.reverse.takeWhile (· = '\n') ++ v.reverse.dropWhile (· = '\n') = v.reverse :=
    List.takeWhile_append_dropWhile
  have h2 : v.reverse.takeWhile (· = '\n') = List.replicate (v.reverse.takeWhile (· = '\n')).length '\n' := by
    rw [List.eq_replicate_iff]
    refine ⟨rfl, fun b hb => ?_⟩
    have := Text.mem_takeWhile hb
    simpa using this
  have h3 := congrArg List.reverse h1
  rw [List.reverse_append, List.reverse_reverse] at h3
  rw [h2, List.reverse_replicate] at h3
  exact h3.symm

theorem splitOn_newlines (w : Str) (k : Nat) :
    splitOn '\n' (w ++ List.replicate k '\n') = splitOn '\n' w ++ List.replicate k [] := by
  induction k with
  | zero => simp
  | succ k ih =>
    rw [List.replicate_succ', ← List.append_assoc, splitOn_sep, ih, List.append_assoc]
    simp only [splitOn]
    rw [← List.replicate_succ']

theorem joinWith_empties {l : List Str} (h : l ≠ []) (k : Nat) :
    joinWith '\n' (l ++ List.replicate k []) = joinWith '\n' l ++ List.replicate k '\n' := by
  induction l with
  | nil => exact absurd rfl h
  | cons p l ih =>
    cases l with
    | nil =>
      clear ih
      show joinWith '\n' (p :: List.replicate k []) = p ++ _
      have : ∀ k p, joinWith '\n' (p :: List.replicate k []) = p ++ List.replicate k '\n' := by
        intro k
        induction k with
        | zero => intro p; simp [joinWith]
        | succ k ih =>
          intro p
          rw [List.replicate_succ, joinWith_cons _ _ (List.cons_ne_nil _ _), ih]
          rfl
      exact this k p
    | cons q l =>
      rw [List.cons_append, joinWith_cons _ _ (by simp), ih (List.cons_ne_nil _ _), joinWith_cons _ _ (List.cons_ne_nil _ _)]
      simp

theorem dedent_empties (l : List Str) (k : Nat) :
    dedent (l ++ List.replicate k []) = dedent l ++ List.replicate k [] := by
  unfold dedent
  have hm : ∀ l : List Str, margin (l ++ List.replicate k []) = margin l := by
    intro l
    unfold margin
    rw [List.filter_append]
    have : (List.replicate k ([] : Str)).filter (fun l => !(l.all isBlankChar)) = [] := by
      rw [List.filter_eq_nil_iff]
      intro a ha
      rw [List.eq_of_mem_replicate ha]
      simp
    rw [this, List.append_nil]
  simp only [List.map_append, List.map_replicate, List.all_nil, if_true, hm]
  simp

/-- Newlines at the end make no difference, unless they decide whether there is more than one newline. -/
theorem normalize_rstripNL {v : Str} (h : ¬ (1 < v.count '\n' ∧ (rstripNL v).count '\n' ≤ 1)) :
    normalize (rstripNL v) = normalize v := by
  obtain ⟨k, hk⟩ := rstripNL_spec v
  generalize hw : rstripNL v = w at *
  have hs : ∀ c ∈ List.replicate k '\n', isSpace c = true := by
    intro c hc
    rw [List.eq_of_mem_replicate hc]
    decide
  have hle : w.count '\n' ≤ v.count '\n' := by
    rw [hk, List.count_append]
    omega
  unfold normalize
  by_cases h1 : 1 < v.count '\n'
  · have h2 : 1 < w.count '\n' := by
      by_cases h2 : 1 < w.count '\n'
      · exact h2
      · exact absurd ⟨h1, by omega⟩ h
    rw [if_pos h1, if_pos h2, hk, splitOn_newlines, List.map_append, List.map_replicate]
    have : undot [] = [] := rfl
    rw [this, dedent_empties, joinWith_empties, strip_append_space hs]
    unfold dedent
    simp only [ne_eq, List.map_eq_nil_iff]
    exact splitOn_ne_nil _ _
  · have h2 : ¬ 1 < w.count '\n' := by omega
    rw [if_neg h1, if_neg h2, hk, strip_append_space hs]

theorem lookup_map_snd {α β γ : Type} [BEq α] (f : β → γ) (l : List (α × β)) (a : α) :
    (l.map fun x => (x.1, f x.2)).lookup a = (l.lookup a).map f := by
  induction l with
  | nil => rfl
  | cons x l ih =>
    obtain ⟨k, v⟩ := x
    simp only [List.map_cons, List.lookup_cons]
    cases a == k
    · exact ih
    · rfl

theorem lookup_append {α β : Type} [BEq α] (l r : List (α × β)) (a : α) :
    (l ++ r).lookup a = (l.lookup a).or (r.lookup a) := by
  induction l with
  | nil => rfl
  | cons x l ih =>
    obtain ⟨k, v⟩ := x
    simp only [List.cons_append, List.lookup_cons]
    cases a == k
    · exact ih
    · rfl

end Verif.Fields
