import Verif.Model.Para
import Verif.Lemmas.Where
import Mathlib.Data.List.Forall2

set_option linter.unusedSimpArgs false

/-! # C128: a paragraph is a box with the whole text in it -/

namespace Verif.Para

open Verif.Words (Str)
open Verif.Text (isSpace)

/-! ## Specification -/

/-- What can be seen of a text. -/
def ink (s : Str) : Str := s.filter fun c => !isSpace c

/-- A way to cut a text into words and what is between them: nothing is lost, no piece is empty. -/
structure Cuts (split : Str → List Str) : Prop where
  whole : ∀ s, (split s).flatten = s
  nonempty : ∀ s, [] ∉ split s

/-- How a text is placed in a column of some width. -/
def Placed : Align → Nat → Str → Str → Prop
  | .left, w, s, x => ∃ b, x = s ++ List.replicate b ' ' ∧ x.length = w
  | .right, w, s, x => ∃ a, x = List.replicate a ' ' ++ s ∧ x.length = w
  | .center, w, s, x => ∃ a b, x = List.replicate a ' ' ++ s ++ List.replicate b ' ' ∧ x.length = w ∧ a ≤ b + 1 ∧ b ≤ a + 1
  | .other, _, s, x => x = s

/-! ## Lemmas -/

theorem ink_append (a b : Str) : ink (a ++ b) = ink a ++ ink b := List.filter_append ..

theorem ink_blank {s : Str} (h : blank s = true) : ink s = [] := by
  unfold blank at h
  rw [List.all_eq_true] at h
  unfold ink
  rw [List.filter_eq_nil_iff]
  intro c hc
  simp [h c hc]

theorem ink_spaces (n : Nat) : ink (spaces n) = [] :=
  ink_blank (by simp [blank, spaces]; exact .inr (by decide))

theorem ink_expand (s : Str) (col : Nat) : ink (Help.expandTabs col s) = ink s := by
  induction s generalizing col with
  | nil => rfl
  | cons c s ih =>
    rw [Help.expandTabs]
    split
    · next h =>
      rw [ink_append, ih]
      have := ink_spaces (8 - col % 8)
      unfold spaces at this
      rw [this, h]
      simp [ink, show isSpace '\t' = true by decide]
    · split
      · have := ih 0
        unfold ink at this ⊢
        rw [List.filter_cons, List.filter_cons, this]
      · have := ih (col + 1)
        unfold ink at this ⊢
        rw [List.filter_cons, List.filter_cons, this]

theorem ink_munge (s : Str) : ink (munge s) = ink s := by
  rw [← ink_expand s 0]
  unfold munge
  generalize Help.expandTabs 0 s = t
  induction t with
  | nil => rfl
  | cons c t ih =>
    unfold ink at ih ⊢
    rw [List.map_cons, List.filter_cons, List.filter_cons, ih]
    by_cases h : 9 ≤ c.toNat ∧ c.toNat ≤ 13
    · rw [if_pos h]
      have : isSpace c = true := by simp [isSpace, h]
      simp [this, show isSpace ' ' = true by decide]
    · rw [if_neg h]

theorem fill_spec (width n : Nat) (l : List Str) (hn : n ≤ width) :
    (fill width n l).1 ++ (fill width n l).2 = l ∧ n + (fill width n l).1.flatten.length ≤ width ∧
      (∀ c cs, (fill width n l).2 = c :: cs → width < n + (fill width n l).1.flatten.length + c.length) := by
  induction l generalizing n with
  | nil => exact ⟨rfl, by simpa [fill] using hn, fun c cs h => by cases h⟩
  | cons c cs ih =>
    simp only [fill]
    by_cases h : n + c.length ≤ width
    · rw [if_pos h]
      obtain ⟨h1, h2, h3⟩ := ih (n + c.length) h
      refine ⟨by simp [h1], by simp only [List.flatten_cons, List.length_append]; omega, fun d ds e => ?_⟩
      have := h3 d ds e
      simp only [List.flatten_cons, List.length_append]
      omega
    · rw [if_neg h]
      refine ⟨rfl, by simpa using hn, fun d ds e => ?_⟩
      cases e
      simp
      omega

/-- A round: the line and what is left. -/
theorem round_spec (width : Nat) (hw : 0 < width) (l : List Str) :
    (long width (fill width 0 l)).1.flatten ++ (long width (fill width 0 l)).2.flatten = l.flatten ∧
      (long width (fill width 0 l)).1.flatten.length ≤ width ∧
      (l ≠ [] → [] ∉ l → (long width (fill width 0 l)).2.flatten.length < l.flatten.length) ∧
      ([] ∉ l → [] ∉ (long width (fill width 0 l)).2) ∧
      ((∀ c ∈ l, c.length ≤ width) → (long width (fill width 0 l)).1 ++ (long width (fill width 0 l)).2 = l) := by
  obtain ⟨h1, h2, h3⟩ := fill_spec width 0 l (by omega)
  generalize fill width 0 l = r at h1 h2 h3 ⊢
  obtain ⟨a, b⟩ := r
  simp only at h1 h2 h3 ⊢
  subst h1
  unfold long
  cases b with
  | nil =>
    simp only
    refine ⟨by simp, by omega, fun hne hnil => ?_, fun _ => List.not_mem_nil, fun _ => trivial⟩
    simp only [List.append_nil] at hne hnil ⊢
    cases a with
    | nil => exact absurd rfl hne
    | cons x a =>
      have : x ≠ [] := fun e => hnil (e ▸ List.mem_cons_self ..)
      have := List.length_pos_iff.2 this
      simp only [List.flatten_cons, List.flatten_append, List.flatten_nil, List.length_append, List.length_nil, List.length_take, List.length_drop, List.append_nil, List.nil_append]
      omega
  | cons c cs =>
    simp only
    have hlt := h3 c cs rfl
    by_cases hc : width < c.length
    · rw [if_pos hc]
      refine ⟨by simp only [List.flatten_cons, List.flatten_append, List.flatten_nil, List.length_append, List.length_nil, List.length_take, List.length_drop, List.append_nil, List.nil_append]; rw [List.append_assoc, ← List.append_assoc (c.take _), List.take_append_drop], by simp only [List.flatten_cons, List.flatten_append, List.flatten_nil, List.length_append, List.length_nil, List.length_take, List.length_drop, List.append_nil, List.nil_append]; omega, fun hne hnil => ?_, fun hnil => ?_, fun hall => ?_⟩
      · cases a with
        | nil =>
          simp only [List.flatten_cons, List.flatten_append, List.flatten_nil, List.length_append, List.length_nil, List.length_take, List.length_drop, List.append_nil, List.nil_append]
          omega
        | cons x a =>
          have : x ≠ [] := fun e => hnil (e ▸ List.mem_append_left _ (List.mem_cons_self ..))
          have := List.length_pos_iff.2 this
          simp only [List.flatten_cons, List.flatten_append, List.flatten_nil, List.length_append, List.length_nil, List.length_take, List.length_drop, List.append_nil, List.nil_append]
          omega
      · simp only [List.mem_append, List.mem_cons, not_or] at hnil ⊢
        refine ⟨fun e => ?_, hnil.2.2⟩
        have := congrArg List.length e
        simp only [List.length_nil, List.length_drop] at this
        omega
      · exact absurd (hall c (by simp)) (by omega)
    · rw [if_neg hc]
      refine ⟨by simp, by simpa using h2, fun hne hnil => ?_, fun hnil => ?_, fun _ => rfl⟩
      · cases a with
        | nil => simp only [List.flatten_nil, List.length_nil] at hlt; omega
        | cons x a =>
          have : x ≠ [] := fun e => hnil (e ▸ List.mem_append_left _ (List.mem_cons_self ..))
          have := List.length_pos_iff.2 this
          simp only [List.flatten_cons, List.flatten_append, List.flatten_nil, List.length_append, List.length_nil, List.length_take, List.length_drop, List.append_nil, List.nil_append]
          omega
      · intro e
        exact hnil (List.mem_append_right _ e)

theorem trimLast_spec (l : List Str) :
    ink (trimLast l).flatten = ink l.flatten ∧ (trimLast l).flatten.length ≤ l.flatten.length ∧
      (trimLast l).filter (fun c => !blank c) = l.filter (fun c => !blank c) ∧ (trimLast l).Sublist l := by
  unfold trimLast
  cases h : l.getLast? with
  | none => exact ⟨rfl, Nat.le_refl _, rfl, .refl _⟩
  | some c =>
    simp only
    split
    · next hb =>
      have hl : l = l.dropLast ++ [c] := by
        obtain ⟨ys, rfl⟩ := List.getLast?_eq_some_iff.1 h
        simp
      generalize l.dropLast = d at hl ⊢
      subst hl
      refine ⟨?_, by simp, by simp [List.filter_append, hb], List.sublist_append_left ..⟩
      rw [List.flatten_append, ink_append]
      simp [ink_blank hb]
    · exact ⟨rfl, Nat.le_refl _, rfl, .refl _⟩

theorem wrapLoop_spec (width : Nat) (hw : 0 < width) (f : Nat) (started : Bool) (l : List Str) (hn : [] ∉ l)
    (hf : l.flatten.length < f) :
    (∀ x ∈ wrapLoop width f started l, x.length ≤ width) ∧
      ink (wrapLoop width f started l).flatten = ink l.flatten ∧
      ((∀ c ∈ l, c.length ≤ width) → ∃ groups : List (List Str), wrapLoop width f started l = groups.map List.flatten ∧
        groups.flatten.filter (fun c => !blank c) = l.filter (fun c => !blank c) ∧ groups.flatten.Sublist l ∧ [] ∉ groups) := by
  induction f generalizing started l with
  | zero => omega
  | succ f ih =>
    cases l with
    | nil => exact ⟨by simp [wrapLoop], rfl, fun _ => ⟨[], rfl, rfl, .refl _, by simp⟩⟩
    | cons c cs =>
      simp only [wrapLoop]
      -- the chunks of this round
      have hch : ∃ l', (if blank c = true ∧ started = true then cs else c :: cs) = l' ∧ ink l'.flatten = ink (c :: cs).flatten ∧ [] ∉ l' ∧
          l'.filter (fun c => !blank c) = (c :: cs).filter (fun c => !blank c) ∧ l'.Sublist (c :: cs) ∧
          (l'.flatten.length < (c :: cs).flatten.length ∨ l' = c :: cs) := by
        have hc : c ≠ [] := fun e => hn (e ▸ List.mem_cons_self ..)
        have hc' := List.length_pos_iff.2 hc
        by_cases hb : blank c = true ∧ started = true
        · rw [if_pos hb]
          refine ⟨cs, rfl, ?_, fun e => hn (List.mem_cons_of_mem _ e), ?_, List.sublist_cons_self .., .inl ?_⟩
          · rw [List.flatten_cons, ink_append, ink_blank hb.1, List.nil_append]
          · rw [List.filter_cons_of_neg (by simp [hb.1])]
          · simp; omega
        · rw [if_neg hb]
          exact ⟨c :: cs, rfl, rfl, hn, rfl, .refl _, .inr rfl⟩
      obtain ⟨l', hl', k1, k2, k3, k4, k5⟩ := hch
      rw [hl']
      obtain ⟨r1, r2, r3, r4, r5⟩ := round_spec width hw l'
      obtain ⟨t1, t2, t3, t4⟩ := trimLast_spec (long width (fill width 0 l')).1
      have hlen : (long width (fill width 0 l')).2.flatten.length < f := by
        rcases k5 with k5 | k5
        · have := congrArg List.length r1
          simp only [List.length_append] at this
          omega
        · have := r3 (by rw [k5]; simp) k2
          rw [k5] at this
          rw [k5]
          omega
      have hi := fun st => ih st (long width (fill width 0 l')).2 (r4 k2) hlen
      have hink : ink (trimLast (long width (fill width 0 l')).1).flatten ++ ink (long width (fill width 0 l')).2.flatten =
          ink (c :: cs).flatten := by
        rw [t1, ← ink_append, r1, k1]
      have hfilt : (∀ x ∈ c :: cs, x.length ≤ width) →
          (trimLast (long width (fill width 0 l')).1).filter (fun c => !blank c) ++
            (long width (fill width 0 l')).2.filter (fun c => !blank c) = (c :: cs).filter (fun c => !blank c) := by
        intro hall
        rw [t3, ← List.filter_append, r5 (fun x hx => hall x (k4.subset hx)), k3]
      have hall' : (∀ x ∈ c :: cs, x.length ≤ width) → ∀ x ∈ (long width (fill width 0 l')).2, x.length ≤ width := by
        intro hall x hx
        have := r5 (fun x hx => hall x (k4.subset hx))
        exact hall x (k4.subset (this ▸ List.mem_append_right _ hx))
      by_cases he : (trimLast (long width (fill width 0 l')).1).isEmpty = true
      · rw [if_pos he]
        rw [List.isEmpty_iff] at he
        rw [he] at hink hfilt
        obtain ⟨i1, i2, i3⟩ := hi started
        refine ⟨i1, by rw [i2]; simpa [ink] using hink, fun hall => ?_⟩
        obtain ⟨g, g1, g2, g3, g4⟩ := i3 (hall' hall)
        refine ⟨g, g1, by rw [g2, ← hfilt hall]; simp, g3.trans ?_, g4⟩
        refine List.Sublist.trans ?_ k4
        have h := List.sublist_append_right (long width (fill width 0 l')).1 (long width (fill width 0 l')).2
        rw [r5 (fun x hx => hall x (k4.subset hx))] at h
        exact h
      · rw [if_neg he]
        obtain ⟨i1, i2, i3⟩ := hi true
        refine ⟨fun x hx => ?_, ?_, fun hall => ?_⟩
        · rcases List.mem_cons.1 hx with rfl | hx
          · omega
          · exact i1 x hx
        · rw [List.flatten_cons, ink_append, i2, hink]
        · obtain ⟨g, g1, g2, g3, g4⟩ := i3 (hall' hall)
          refine ⟨trimLast (long width (fill width 0 l')).1 :: g, by rw [g1]; rfl, ?_, ?_, ?_⟩
          · rw [List.flatten_cons, List.filter_append, g2, hfilt hall]
          · rw [List.flatten_cons]
            refine List.Sublist.trans ?_ k4
            have h := t4.append g3
            rw [r5 (fun x hx => hall x (k4.subset hx))] at h
            exact h
          · intro e
            rcases List.mem_cons.1 e with e | e
            · exact he (List.isEmpty_iff.2 e.symm)
            · exact g4 e

theorem break_space {c : Char} (h : Where.isBreak c = true) : isSpace c = true := by
  simp only [Where.isBreak, isSpace, Bool.or_eq_true, Bool.and_eq_true, decide_eq_true_iff, beq_iff_eq] at h ⊢
  omega

theorem splitLines_ink (b : Bool) (s : Str) :
    ink (Where.splitLines' b s).flatten = ink s ∧ ∀ x ∈ Where.splitLines' b s, x.length ≤ s.length := by
  induction s generalizing b with
  | nil => exact ⟨rfl, by simp [Where.splitLines']⟩
  | cons c s ih =>
    rw [Where.splitLines']
    split
    · next h =>
      simp only [Bool.and_eq_true, beq_iff_eq] at h
      obtain ⟨i1, i2⟩ := ih false
      refine ⟨?_, fun x hx => by have := i2 x hx; simp; omega⟩
      rw [i1, h.2]
      simp [ink, show isSpace '\n' = true by decide]
    · split
      · next h =>
        obtain ⟨i1, i2⟩ := ih (c == '\r')
        refine ⟨?_, fun x hx => ?_⟩
        · rw [List.flatten_cons, List.nil_append, i1]
          simp [ink, break_space h]
        · rcases List.mem_cons.1 hx with rfl | hx
          · simp
          · have := i2 x hx; simp; omega
      · obtain ⟨i1, i2⟩ := ih false
        cases hs : Where.splitLines' false s with
        | nil =>
          rw [hs] at i1
          refine ⟨?_, by simp⟩
          simp only [ink, List.flatten_cons, List.flatten_nil, List.append_nil, List.filter_cons, List.filter_nil] at i1 ⊢
          rw [← i1]
        | cons p ps =>
          rw [hs] at i1 i2
          refine ⟨?_, fun x hx => ?_⟩
          · simp only [ink, List.flatten_cons, List.cons_append, List.filter_cons] at i1 ⊢
            rw [i1]
          · simp only at hx
            rcases List.mem_cons.1 hx with rfl | hx
            · have := i2 p (List.mem_cons_self ..); simp; omega
            · have := i2 x (List.mem_cons_of_mem _ hx); simp; omega

theorem flat_lines (l : List Str) (w : Nat) (h : ∀ x ∈ l, x.length ≤ w) :
    ink (l.flatMap Where.splitLines).flatten = ink l.flatten ∧ ∀ x ∈ l.flatMap Where.splitLines, x.length ≤ w := by
  constructor
  · induction l with
    | nil => rfl
    | cons s l ih =>
      rw [List.flatMap_cons, List.flatten_append, ink_append, ih (fun x hx => h x (List.mem_cons_of_mem _ hx)),
        List.flatten_cons, ink_append]
      congr 1
      exact (splitLines_ink false s).1
  · intro x hx
    obtain ⟨s, hs, hx⟩ := List.mem_flatMap.1 hx
    exact Nat.le_trans ((splitLines_ink false s).2 x hx) (h s hs)

theorem justify_placed (a : Align) (w : Nat) (s : Str) (h : s.length ≤ w) : Placed a w s (justify a w s) := by
  cases a with
  | left => exact ⟨w - s.length, rfl, by simp [justify, spaces]; omega⟩
  | right => exact ⟨w - s.length, rfl, by simp [justify, spaces]; omega⟩
  | center =>
    refine ⟨_, _, rfl, ?_, ?_, ?_⟩
    · show (spaces _ ++ s ++ spaces _).length = w
      simp only [spaces, List.length_append, List.length_replicate]
      split <;> omega
    · split <;> omega
    · split <;> omega
  | other => rfl

/-- The lines of a text, before they are placed. -/
theorem lines_spec (split : Str → List Str) (hs : Cuts split) (s : Str) (w : Nat) (hw : 0 < w) :
    ∃ ls, lines split (.text s) (w : Int) = some ls ∧ (∀ x ∈ ls, x.length ≤ w) ∧ ink ls.flatten = ink s ∧
      ((∀ c ∈ split (munge s), c.length ≤ w) → (∀ c ∈ munge s, Where.isBreak c = false) →
        ∃ groups : List (List Str), ls = groups.map List.flatten ∧
          groups.flatten.filter (fun c => !blank c) = (split (munge s)).filter (fun c => !blank c)) := by
  obtain ⟨h1, h2, h3⟩ := wrapLoop_spec w hw ((split (munge s)).flatten.length + 1) false (split (munge s)) (hs.nonempty _) (by omega)
  have hwrap : wrap split s (w : Int) = some (wrapLoop w ((split (munge s)).flatten.length + 1) false (split (munge s))) := by
    unfold wrap
    rw [if_neg (by omega)]
    rfl
  obtain ⟨f1, f2⟩ := flat_lines _ w h1
  refine ⟨_, by simp only [lines, hwrap, Option.map_some], f2, ?_, fun hl hb => ?_⟩
  · rw [f1, h2, hs.whole, ink_munge]
  · obtain ⟨g, g1, g2, g3, g4⟩ := h3 hl
    refine ⟨g, ?_, g2⟩
    rw [g1]
    have hg : ∀ x ∈ g, Where.splitLines x.flatten = [x.flatten] := by
      intro x hx
      have hsub : ∀ c ∈ x, c ∈ split (munge s) := fun c hc => g3.subset (List.mem_flatten.2 ⟨x, hx, hc⟩)
      refine Where.splitLines_one (fun c hc => ?_) (fun e => ?_)
      · obtain ⟨y, hy, hc⟩ := List.mem_flatten.1 hc
        refine hb c ?_
        rw [← hs.whole (munge s)]
        exact List.mem_flatten.2 ⟨y, hsub y hy, hc⟩
      · cases x with
        | nil => exact g4 hx
        | cons y ys =>
          rw [List.flatten_cons, List.append_eq_nil_iff] at e
          exact hs.nonempty _ (e.1 ▸ hsub y (List.mem_cons_self ..))
    clear g1 g2 g3 g4
    induction g with
    | nil => rfl
    | cons x g ih =>
      rw [List.map_cons, List.flatMap_cons, hg x (List.mem_cons_self ..), ih (fun y hy => hg y (List.mem_cons_of_mem _ hy))]
      rfl

/-! ## The property -/

/-- **C128, full statement.** Every line of a paragraph has the width of the context. -/
def BoxStatement : Prop :=
  ∀ (split : Str → List Str) (c : Ctx) (t : Content) (ls : List Line), Cuts split → c.align ≠ .other →
    para split c t = some ls → ∀ l ∈ ls, l.text.length = c.width

/-- **C128 (box), partial.** A text is printed as a box: empty lines of the padding above and below; in between lines that
begin with the padding on the left and end with the padding on the right; every line is as wide as the context, and in
its colours; and the lines have the whole text, in its order.  Missing: lists, which are not wrapped. -/
theorem C128_box_partial (split : Str → List Str) (hs : Cuts split) (c : Ctx) (ha : c.align ≠ .other)
    (hw : c.left + c.right < c.width) (s : Str) :
    ∃ mid : List Line, para split c (.text s) =
        some (List.replicate c.top ⟨List.replicate c.width ' ', c.fg, c.bg, false⟩ ++ mid ++
          List.replicate c.bottom ⟨List.replicate c.width ' ', c.fg, c.bg, false⟩) ∧
      (∀ l ∈ mid, l.text.length = c.width ∧ l.fg = c.fg ∧ l.bg = c.bg ∧ l.bold = c.bold ∧
        l.text.take c.left = List.replicate c.left ' ' ∧ l.text.drop (c.width - c.right) = List.replicate c.right ' ') ∧
      ink (mid.map (·.text)).flatten = ink s := by
  obtain ⟨ls, h1, h2, h3, _⟩ := lines_spec split hs s (c.width - (c.left + c.right)) (by omega)
  have hcw : ((c.width : Int) - ((c.left : Int) + (c.right : Int))) = ((c.width - (c.left + c.right) : Nat) : Int) := by omega
  have hlen : ∀ l ∈ ls, (justify c.align (c.width - (c.left + c.right)) l).length = c.width - (c.left + c.right) ∧
      ink (justify c.align (c.width - (c.left + c.right)) l) = ink l := by
    intro l hl
    have hp := justify_placed c.align _ l (h2 l hl)
    have hi : ink (justify c.align (c.width - (c.left + c.right)) l) = ink l := by
      cases c.align <;> simp [justify, ink_append, ink_spaces]
    refine ⟨?_, hi⟩
    cases hal : c.align with
    | left => rw [hal] at hp; obtain ⟨_, _, h⟩ := hp; exact h
    | right => rw [hal] at hp; obtain ⟨_, _, h⟩ := hp; exact h
    | center => rw [hal] at hp; obtain ⟨_, _, _, h, _⟩ := hp; exact h
    | other => exact absurd hal ha
  refine ⟨_, by simp only [para, hcw, h1, Option.map_some]; rfl, fun l hl => ?_, ?_⟩
  · obtain ⟨x, hx, rfl⟩ := List.mem_map.1 hl
    have hj := (hlen x hx).1
    simp only [Int.toNat_natCast]
    generalize justify c.align (c.width - (c.left + c.right)) x = j at hj
    refine ⟨by simp [spaces]; omega, trivial, trivial, trivial, ?_, ?_⟩
    · rw [List.append_assoc, List.take_append_of_le_length (by simp [spaces])]
      simp [spaces]
    · rw [List.drop_append, List.drop_eq_nil_of_le (by simp [spaces]; omega)]
      simp [spaces]
      omega
  · rw [← h3]
    simp only [Int.toNat_natCast, List.map_map]
    clear h1 h2 h3
    rename_i hx4
    clear hx4
    induction ls with
    | nil => rfl
    | cons l ls ih =>
      rw [List.map_cons, List.flatten_cons, List.flatten_cons, ink_append, ink_append,
        ih (fun x hx => hlen x (List.mem_cons_of_mem _ hx))]
      congr 1
      simp only [Function.comp, ink_append, ink_spaces, List.nil_append, List.append_nil]
      exact (hlen l (List.mem_cons_self ..)).2

/-- **C128 (words).** If every word fits into a line and there are no unusual line separators, words are never broken and
never lost: the lines consist of the words in their order, and each line is placed as the alignment says. -/
theorem C128_words (split : Str → List Str) (hs : Cuts split) (c : Ctx) (hw : c.left + c.right < c.width) (s : Str)
    (hl : ∀ x ∈ split (munge s), x.length ≤ c.width - (c.left + c.right)) (hb : ∀ x ∈ munge s, Where.isBreak x = false) :
    ∃ (groups : List (List Str)) (mid : List Str),
      (para split c (.text s)).map (fun ls => ((ls.drop c.top).take (ls.length - c.top - c.bottom)).map (·.text)) = some mid ∧
      List.Forall₂ (fun g x => ∃ y, x = List.replicate c.left ' ' ++ y ++ List.replicate c.right ' ' ∧
        Placed c.align (c.width - (c.left + c.right)) g.flatten y) groups mid ∧
      groups.flatten.filter (fun c => !blank c) = (split (munge s)).filter (fun c => !blank c) := by
  obtain ⟨ls, h1, h2, h3, h4⟩ := lines_spec split hs s (c.width - (c.left + c.right)) (by omega)
  obtain ⟨g, g1, g2⟩ := h4 hl hb
  have hcw : ((c.width : Int) - ((c.left : Int) + (c.right : Int))) = ((c.width - (c.left + c.right) : Nat) : Int) := by omega
  refine ⟨g, ls.map fun l => spaces c.left ++ justify c.align (c.width - (c.left + c.right)) l ++ spaces c.right, ?_, ?_, g2⟩
  · simp only [para, hcw, h1, Option.map_some, Int.toNat_natCast, Option.some.injEq]
    rw [List.append_assoc, List.drop_left' (by simp), List.take_left' (by simp)]
    simp
  · subst g1
    clear h1 h3 h4 g2
    induction g with
    | nil => exact .nil
    | cons x g ih =>
      rw [List.map_cons, List.map_cons]
      exact .cons ⟨_, rfl, justify_placed _ _ _ (h2 _ (List.mem_cons_self ..))⟩ (ih fun y hy => h2 y (List.mem_cons_of_mem _ hy))

/-- Cutting at the borders of runs of white space. -/
def cut : Str → List Str
  | [] => []
  | c :: s =>
    match cut s with
    | [] => [[c]]
    | w :: ws =>
      match w with
      | [] => [c] :: ws
      | d :: w => if isSpace c = isSpace d then (c :: d :: w) :: ws else [c] :: (d :: w) :: ws

theorem cut_cuts : Cuts cut where
  whole := by
    intro s
    induction s with
    | nil => rfl
    | cons c s ih =>
      rw [cut]
      split
      · next h => rw [h] at ih; simp at ih; simp [← ih]
      · next w ws h =>
        rw [h] at ih
        split
        · simpa using ih
        · split <;> simpa using ih
  nonempty := by
    intro s
    induction s with
    | nil => simp [cut]
    | cons c s ih =>
      rw [cut]
      split
      · simp
      · next w ws h =>
        rw [h] at ih
        simp only [List.mem_cons, not_or] at ih
        split
        · simp [ih.2]
        · split <;> simp [ih.2]

/-- A context of ten columns with padding. -/
def exCtx (a : Align) : Ctx := ⟨10, none, none, false, 1, 1, 0, 2, a⟩

example : (para cut (exCtx .center) (.text "one\ttwo abcdefghi  x".toList)).map (·.map fun l => String.ofList l.text) =
    some ["          ", "    one   ", "  two abc ", "   defghi ", "     x    "] := by decide +kernel

example : (exCtx .left).left + (exCtx .left).right < (exCtx .left).width ∧
    (∀ x ∈ cut (munge "one two three".toList), x.length ≤ 7) ∧ (∀ x ∈ munge "one two three".toList, Where.isBreak x = false) := by
  decide +kernel

/-- **C128 is violated**: the lines of a list, such as those of a traceback, are as long as they are. -/
theorem C128_box_violated : ¬ BoxStatement := by
  intro h
  have := h cut (exCtx .left) (.list ["a long line of a traceback".toList]) _ cut_cuts (by decide) rfl
    ⟨"  a long line of a traceback ".toList, none, none, false⟩ (by decide +kernel)
  revert this
  decide +kernel

/-- **C128 (crash).** After a crash every line of the traceback is printed unchanged, but for blanks at its end, in order, in
bright white on red, whatever the context was set to before; and the status of the program is 1. -/
theorem C128_crash (split : Str → List Str) (hs : Cuts split) (before : Ctx) (title report apology : Str)
    (blocks : List (List Str)) (hb : ∀ ls ∈ blocks, ∀ l ∈ ls, ∀ x ∈ l, Where.isBreak x = false) :
    ∃ a b c, dispatchFailed split before title (blocks.map fun ls => (ls.map (· ++ ['\n'])).flatten) report apology =
        some (a ++ b ++ c, 1) ∧
      List.Forall₂ (fun t (l : Line) => ∃ n, l.text = t ++ List.replicate n ' ' ∧ l.fg = some "bright_white".toList ∧
        l.bg = some "red".toList) blocks.flatten b ∧
      ink (a.map (·.text)).flatten = ink title ∧ ink (c.map (·.text)).flatten = ink report ++ ink apology := by
  have hink : ∀ (m n w : Nat) (f g : Option Str) (mid : List Line),
      ink ((List.replicate m (Line.mk (List.replicate w ' ') f g false) ++ mid ++ List.replicate n (Line.mk (List.replicate w ' ') f g false)).map
        (fun l : Line => l.text)).flatten = ink (mid.map (·.text)).flatten := by
    intro m n w f g mid
    have hr : ∀ m, ink (List.replicate m (List.replicate w ' ')).flatten = [] := by
      intro m
      induction m with
      | zero => rfl
      | succ m ih =>
        rw [List.replicate_succ, List.flatten_cons, ink_append, ih]
        have := ink_spaces w
        unfold spaces at this
        rw [this]
        rfl
    simp only [List.map_append, List.map_replicate, List.flatten_append, ink_append, hr, List.nil_append, List.append_nil]
  have hbox : ∀ (c : Ctx) (s : Str), c.align ≠ .other → c.left + c.right < c.width →
      ∃ ls, para split c (.text s) = some ls ∧ ink (ls.map (·.text)).flatten = ink s := by
    intro c s h1 h2
    obtain ⟨mid, h3, _, h4⟩ := C128_box_partial split hs c h1 h2 s
    exact ⟨_, h3, by rw [hink, h4]⟩
  have hsplit : ∀ ls : List Str, (∀ l ∈ ls, ∀ x ∈ l, Where.isBreak x = false) →
      Where.splitLines (ls.map (· ++ ['\n'])).flatten = ls := by
    intro ls h
    induction ls with
    | nil => rfl
    | cons l ls ih =>
      rw [List.map_cons, List.flatten_cons, List.append_assoc]
      rw [List.singleton_append, Where.splitLines_cons (h l (List.mem_cons_self ..)), ih fun x hx => h x (List.mem_cons_of_mem _ hx)]
  have hlines : (blocks.map fun ls => (ls.map (· ++ ['\n'])).flatten).flatMap Where.splitLines = blocks.flatten := by
    clear hbox hink
    induction blocks with
    | nil => rfl
    | cons ls blocks ih =>
      rw [List.map_cons, List.flatMap_cons, hsplit ls (hb ls (List.mem_cons_self ..)), ih fun x hx => hb x (List.mem_cons_of_mem _ hx),
        List.flatten_cons]
  unfold dispatchFailed
  simp only
  obtain ⟨a, a1, a2⟩ := hbox { reset before with bg := some "red".toList, fg := some "bright_white".toList, bold := true, align := .center, top := 1, right := 1, bottom := 1, left := 1 } title (by simp) (by simp [reset])
  rw [a1, Option.bind_some]
  simp only [para, lines, hlines, Option.map_some, Option.bind_some, reset]
  obtain ⟨c, c1, c2⟩ := hbox { reset before with bg := some "red".toList, fg := some "bright_white".toList, bold := false, align := .left, top := 2, right := 2, bottom := 0, left := 2 } report (by simp) (by simp [reset])
  obtain ⟨d, d1, d2⟩ := hbox { reset before with bg := some "red".toList, fg := some "bright_white".toList, bold := false, align := .left, top := 1, right := 2, bottom := 1, left := 2 } apology (by simp) (by simp [reset])
  simp only [para, lines, reset] at c1 d1
  rw [c1, Option.bind_some, d1, Option.map_some]
  refine ⟨a, _, c ++ d, by simp only [List.append_assoc]; rfl, ?_, a2, by rw [List.map_append, List.flatten_append, ink_append, c2, d2]⟩
  generalize blocks.flatten = ls
  induction ls with
  | nil => exact .nil
  | cons l ls ih =>
    refine .cons ⟨80 - l.length, ?_, rfl, rfl⟩ ih
    simp [justify, spaces]

/-- A traceback in two pieces, after something had been printed with other settings. -/
example : ((dispatchFailed cut (exCtx .other) "Bad".toList ["Traceback:\n".toList, "  File x\n    f()\n".toList] "Report".toList "Sorry".toList).map
    fun r => (r.1.length, ((r.1.drop 3).take 3).map fun l => String.ofList (l.text.take 12), r.2)) =
      some (12, ["Traceback:  ", "  File x    ", "    f()     "], 1) := by decide +kernel

end Verif.Para
