import Verif.Model.Sibling
import Verif.Lemmas.Assoc
import Verif.Props.Words

/-! # Lemmas about words in a text, their removal, and the fields of derived jobs -/

set_option linter.unusedSimpArgs false
set_option linter.unusedSectionVars false

namespace Verif.Sibling

open Verif.Checksum (Str dictSet)

variable {P : Type}

/-! ## Words between separators -/

/-- No separator in the word. -/
def NoSep (w : Str) : Prop := ∀ c ∈ w, isSep c = false

/-- Words, each with the separator after it, and a last word. -/
def glue : List (Str × Char) → Str → Str
  | [], last => last
  | (w, c) :: l, last => w ++ c :: glue l last

/-- The parts are words and separators. -/
def Parts (l : List (Str × Char)) (last : Str) : Prop :=
  (∀ p ∈ l, NoSep p.1 ∧ isSep p.2 = true) ∧ NoSep last

/-- All words. -/
def wordsOf (l : List (Str × Char)) (last : Str) : List Str := l.map (·.1) ++ [last]

theorem noSep_cons {c : Char} {w : Str} (hc : isSep c = false) (h : NoSep w) : NoSep (c :: w) := by
  intro d hd
  rcases List.mem_cons.1 hd with rfl | hd
  · exact hc
  · exact h d hd

theorem exists_glue (t : Str) : ∃ l last, t = glue l last ∧ Parts l last := by
  induction t with
  | nil => exact ⟨[], [], rfl, by simp, by simp [NoSep]⟩
  | cons c t ih =>
    obtain ⟨l, last, rfl, hl, hlast⟩ := ih
    by_cases hc : isSep c = true
    · refine ⟨([], c) :: l, last, rfl, ?_, hlast⟩
      intro p hp
      rcases List.mem_cons.1 hp with rfl | hp
      · exact ⟨by simp [NoSep], hc⟩
      · exact hl p hp
    · rw [Bool.not_eq_true] at hc
      cases l with
      | nil => exact ⟨[], c :: last, rfl, by simp, noSep_cons hc hlast⟩
      | cons p l =>
        obtain ⟨w, d⟩ := p
        refine ⟨(c :: w, d) :: l, last, rfl, ?_, hlast⟩
        intro q hq
        rcases List.mem_cons.1 hq with rfl | hq
        · exact ⟨noSep_cons hc (hl (w, d) List.mem_cons_self).1, (hl (w, d) List.mem_cons_self).2⟩
        · exact hl q (List.mem_cons_of_mem _ hq)

theorem split_word {w : Str} (hw : NoSep w) (t acc : Str) (b : Bool) (h : w ≠ []) :
    split (w ++ t) acc b = split t (w.reverse ++ acc) false := by
  induction w generalizing acc b with
  | nil => exact absurd rfl h
  | cons c w ih =>
    have hc := hw c List.mem_cons_self
    rw [List.cons_append, split, if_neg (by rw [hc]; exact Bool.noConfusion)]
    by_cases hn : w = []
    · subst hn; rfl
    · rw [ih (fun d hd => hw d (List.mem_cons_of_mem _ hd)) _ _ hn]
      simp

theorem mem_split_glue {w : Str} (hw : w ≠ []) : ∀ (l : List (Str × Char)) (last : Str) (b : Bool), Parts l last →
    (w ∈ split (glue l last) [] b ↔ w ∈ wordsOf l last) := by
  intro l
  induction l with
  | nil =>
    intro last b h
    rw [glue]
    by_cases hn : last = []
    · subst hn; simp [split, wordsOf]
    · have := split_word h.2 [] [] b hn
      rw [List.append_nil] at this
      rw [this]
      simp [split, wordsOf]
  | cons p l ih =>
    intro last b h
    obtain ⟨u, c⟩ := p
    have hu := h.1 (u, c) List.mem_cons_self
    have ih := ih last true ⟨fun q hq => h.1 q (List.mem_cons_of_mem _ hq), h.2⟩
    have hw' : wordsOf ((u, c) :: l) last = u :: wordsOf l last := rfl
    rw [glue, hw', List.mem_cons, ← ih]
    by_cases hn : u = []
    · subst hn
      rw [List.nil_append, split, if_pos hu.2]
      cases b with
      | true => simp [hw]
      | false => simp [hw]
    · rw [split_word hu.1 _ _ _ hn, split, if_pos hu.2, if_neg (by simp)]
      simp

/-! ## Replacing -/

theorem replaceAll_nil (x : Str) (n : Nat) : Export.replaceAll x [] n [] = [] := by
  cases n <;> rfl

theorem replaceAll_fuel {x : Str} (hx : x ≠ []) : ∀ (n m : Nat) (s : Str), s.length ≤ n → s.length ≤ m →
    Export.replaceAll x [] n s = Export.replaceAll x [] m s := by
  intro n
  induction n with
  | zero =>
    intro m s hs _
    have : s = [] := List.length_eq_zero_iff.1 (Nat.le_zero.1 hs)
    subst this
    rw [replaceAll_nil, replaceAll_nil]
  | succ n ih =>
    intro m s hs hm
    cases s with
    | nil => rw [replaceAll_nil, replaceAll_nil]
    | cons c r =>
      cases m with
      | zero => simp at hm
      | succ m =>
        have hr : r.length ≤ n := by simpa using hs
        have hr' : r.length ≤ m := by simpa using hm
        rw [Export.replaceAll, Export.replaceAll]
        have hl : ((c :: r).drop x.length).length ≤ r.length := by
          have : 0 < x.length := List.length_pos_iff.2 hx
          rw [List.length_drop, List.length_cons]; omega
        rw [ih m _ (Nat.le_trans hl hr) (Nat.le_trans hl hr'), ih m r hr hr']

/-- `text.replace(x, '')`. -/
def repl (x s : Str) : Str := Export.replaceAll x [] s.length s

theorem repl_cons {x : Str} {c : Char} {r : Str} (h : ¬ x <+: c :: r) : repl x (c :: r) = c :: repl x r := by
  rw [repl, List.length_cons, Export.replaceAll, if_neg (by rwa [List.isPrefixOf_iff_prefix])]
  rfl

theorem repl_prefix {x : Str} (hx : x ≠ []) (r : Str) : repl x (x ++ r) = repl x r := by
  cases x with
  | nil => exact absurd rfl hx
  | cons d x =>
    rw [repl, List.cons_append, List.length_cons, Export.replaceAll,
      if_pos (by rw [List.isPrefixOf_iff_prefix]; exact ⟨r, rfl⟩), List.nil_append]
    have : (d :: (x ++ r)).drop (d :: x).length = r := by
      rw [← List.cons_append]; exact List.drop_left
    rw [this, repl]
    exact replaceAll_fuel (by simp) _ _ _ (by simp) (Nat.le_refl _)

theorem prefix_of_sep {x w r : Str} {c : Char} (hx : NoSep x) (hc : isSep c = true) (h : x <+: w ++ c :: r) : x <+: w := by
  induction w generalizing x with
  | nil =>
    cases x with
    | nil => exact List.prefix_refl _
    | cons d x =>
      have hd : d = c := (List.cons_prefix_cons.1 h).1
      have := hx d List.mem_cons_self
      rw [hd, hc] at this
      exact Bool.noConfusion this
  | cons e w ih =>
    cases x with
    | nil => exact List.nil_prefix
    | cons d x =>
      have h := List.cons_prefix_cons.1 h
      exact List.cons_prefix_cons.2 ⟨h.1, ih (fun a ha => hx a (List.mem_cons_of_mem _ ha)) h.2⟩

theorem not_infix_tail {x : Str} {c : Char} {w : Str} (h : ¬ x <:+: c :: w) : ¬ x <:+: w :=
  fun hh => h (hh.trans (List.suffix_cons _ _).isInfix)

theorem repl_word {x w : Str} (hx : NoSep x) (h : ¬ x <:+: w) {c : Char} (hc : isSep c = true) (r : Str) :
    repl x (w ++ c :: r) = w ++ repl x (c :: r) := by
  induction w with
  | nil => rfl
  | cons d w ih =>
    rw [List.cons_append, repl_cons, ih (not_infix_tail h)]; rfl
    intro hp
    rw [← List.cons_append] at hp
    exact h (prefix_of_sep hx hc hp).isInfix

theorem repl_sep {x : Str} (hx : NoSep x) (hn : x ≠ []) {c : Char} (hc : isSep c = true) (r : Str) :
    repl x (c :: r) = c :: repl x r := by
  refine repl_cons fun hp => ?_
  have := prefix_of_sep (w := []) hx hc hp
  exact hn (List.prefix_nil.1 this)

theorem repl_end {x w : Str} (h : ¬ x <:+: w) : repl x w = w := by
  induction w with
  | nil => rfl
  | cons d w ih =>
    rw [repl_cons (fun hp => h hp.isInfix), ih (not_infix_tail h)]

/-- What becomes of a word by replacing `x` by nothing, for words that are `x`, begin with it or do not contain it. -/
inductive Becomes (x : Str) : Str → Str → Prop
  | same (w : Str) : ¬ x <:+: w → Becomes x w w
  | rest (w : Str) : ¬ x <:+: w → Becomes x (x ++ w) w

theorem repl_glue {x : Str} (hx : NoSep x) (hn : x ≠ []) (f : Str → Str) : ∀ (l : List (Str × Char)) (last : Str),
    Parts l last → (∀ w ∈ wordsOf l last, Becomes x w (f w)) →
    repl x (glue l last) = glue (l.map fun p => (f p.1, p.2)) (f last) := by
  intro l
  induction l with
  | nil =>
    intro last _ h
    have h := h last (by simp [wordsOf])
    rw [glue, List.map_nil, glue]
    generalize f last = y at h
    cases h with
    | same _ h => exact repl_end h
    | rest _ hy => rw [repl_prefix hn, repl_end hy]
  | cons p l ih =>
    intro last hp h
    obtain ⟨u, c⟩ := p
    have hu := hp.1 (u, c) List.mem_cons_self
    have ih := ih last ⟨fun q hq => hp.1 q (List.mem_cons_of_mem _ hq), hp.2⟩
      (fun w hw => h w (List.mem_cons_of_mem _ hw))
    have h := h u List.mem_cons_self
    rw [glue, List.map_cons, glue, ← ih]
    dsimp only
    generalize f u = y at h
    cases h with
    | same _ h => rw [repl_word hx h hu.2, repl_sep hx hn hu.2]
    | rest _ hy => rw [List.append_assoc, repl_prefix hn, repl_word hx hy hu.2, repl_sep hx hn hu.2]

/-! ## The two flags -/

theorem noSep_auto : NoSep autoFlag := by unfold NoSep; decide +kernel
theorem noSep_manual : NoSep manualFlag := by unfold NoSep; decide +kernel
theorem auto_ne : autoFlag ≠ [] := by decide +kernel
theorem manual_ne : manualFlag ≠ [] := by decide +kernel

/-- What is left of the flag `also-after-suspend-manual`. -/
def leftover : Str := "-manual".toList

theorem manual_eq : manualFlag = autoFlag ++ leftover := by decide +kernel
theorem auto_ne_manual : autoFlag ≠ manualFlag := by decide +kernel
theorem auto_not_leftover : ¬ autoFlag <:+: leftover := by decide +kernel
theorem auto_infix_manual : autoFlag <:+: manualFlag := by decide +kernel

/-- The word of the new flags for a word of the old ones. -/
def stays (w : Str) : Str := if w = autoFlag then [] else if w = manualFlag then leftover else w

theorem becomes_stays {w : Str} (h : autoFlag <:+: w → w = autoFlag ∨ w = manualFlag) : Becomes autoFlag w (stays w) := by
  unfold stays
  by_cases h1 : w = autoFlag
  · rw [if_pos h1]
    have := Becomes.rest (x := autoFlag) [] (by decide +kernel)
    rw [List.append_nil] at this
    rw [h1]; exact this
  · rw [if_neg h1]
    by_cases h2 : w = manualFlag
    · rw [if_pos h2, h2]
      have := Becomes.rest (x := autoFlag) leftover auto_not_leftover
      rw [← manual_eq] at this
      exact this
    · rw [if_neg h2]
      refine .same _ fun hi => ?_
      rcases h hi with h | h
      · exact h1 h
      · exact h2 h

theorem stays_no_auto {w : Str} (h : autoFlag <:+: w → w = autoFlag ∨ w = manualFlag) : ¬ autoFlag <:+: stays w := by
  have := becomes_stays h
  generalize stays w = y at this
  cases this with
  | same _ hy => exact hy
  | rest _ hy => exact hy

theorem noSep_stays {w : Str} (h : NoSep w) : NoSep (stays w) := by
  unfold stays
  split
  · simp [NoSep]
  · split
    · unfold NoSep leftover; decide +kernel
    · exact h

theorem withoutFlags_glue (l : List (Str × Char)) (last : Str) (hp : Parts l last)
    (h : ∀ w ∈ wordsOf l last, autoFlag <:+: w → w = autoFlag ∨ w = manualFlag) :
    withoutFlags (glue l last) = glue (l.map fun p => (stays p.1, p.2)) (stays last) ∧
      Parts (l.map fun p => (stays p.1, p.2)) (stays last) := by
  have hp' : Parts (l.map fun p => (stays p.1, p.2)) (stays last) := by
    refine ⟨?_, noSep_stays hp.2⟩
    intro q hq
    obtain ⟨p, hm, rfl⟩ := List.mem_map.1 hq
    exact ⟨noSep_stays (hp.1 p hm).1, (hp.1 p hm).2⟩
  refine ⟨?_, hp'⟩
  show repl manualFlag (repl autoFlag (glue l last)) = _
  rw [repl_glue noSep_auto auto_ne stays l last hp fun w hw => becomes_stays (h w hw)]
  have := repl_glue noSep_manual manual_ne id _ _ hp' ?_
  · rw [this, List.map_map]
    rfl
  · intro w hw
    refine .same _ fun hi => ?_
    have : ∃ u ∈ wordsOf l last, stays u = w := by
      simp only [wordsOf, List.map_map, List.mem_append, List.mem_map, Function.comp, List.mem_singleton] at hw
      rcases hw with ⟨p, hm, rfl⟩ | rfl
      · exact ⟨p.1, by simp only [wordsOf, List.mem_append, List.mem_map]; exact .inl ⟨p, hm, rfl⟩, rfl⟩
      · exact ⟨last, by simp [wordsOf], rfl⟩
    obtain ⟨u, hu, rfl⟩ := this
    exact stays_no_auto (h u hu) (auto_infix_manual.trans hi)

/-- The words of the new flags. -/
theorem mem_withoutFlags {t w : Str} (hw : w ≠ [])
    (h : ∀ u ∈ split t [] false, autoFlag <:+: u → u = autoFlag ∨ u = manualFlag) :
    w ∈ split (withoutFlags t) [] false ↔ ∃ u ∈ split t [] false, stays u = w := by
  obtain ⟨l, last, rfl, hp⟩ := exists_glue t
  have hne : ∀ u, autoFlag <:+: u → u ≠ [] := by
    intro u hi hu
    subst hu
    exact auto_ne (List.eq_nil_of_infix_nil hi)
  obtain ⟨he, hp'⟩ := withoutFlags_glue l last hp fun u hu hi =>
    h u ((mem_split_glue (hne u hi) l last false hp).2 hu) hi
  rw [he, mem_split_glue hw _ _ _ hp']
  have hs0 : ∀ u, stays u = w → u ≠ [] := by
    intro u hu hn
    subst hn
    exact hw (by rw [← hu]; decide +kernel)
  constructor
  · intro hm
    simp only [wordsOf, List.map_map, List.mem_append, List.mem_map, Function.comp, List.mem_singleton] at hm
    rcases hm with ⟨p, hm, hs⟩ | hs
    · refine ⟨p.1, (mem_split_glue (hs0 _ hs) l last false hp).2 ?_, hs⟩
      simp only [wordsOf, List.mem_append, List.mem_map]; exact .inl ⟨p, hm, rfl⟩
    · exact ⟨last, (mem_split_glue (hs0 _ hs.symm) l last false hp).2 (by simp [wordsOf]), hs.symm⟩
  · rintro ⟨u, hu, hs⟩
    have hu := (mem_split_glue (hs0 _ hs) l last false hp).1 hu
    simp only [wordsOf, List.map_map, List.mem_append, List.mem_map, Function.comp, List.mem_singleton] at hu ⊢
    rcases hu with ⟨p, hm, rfl⟩ | rfl
    · exact .inl ⟨p, hm, hs⟩
    · exact .inr hs.symm

end Verif.Sibling
