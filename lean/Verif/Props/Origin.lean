import Verif.Model.Origin

/-! # Property C51 -/

set_option linter.unusedSimpArgs false

namespace Verif.Origin

variable {S : Type} [DecidableEq S]

/-- Both line numbers are known. -/
def Lined (o : Origin S) : Prop := o.lineStart.isSome ∧ o.lineEnd.isSome

/-- **C51**, order.  On origins of one source with line numbers, `>` never raises and is a strict
total order (by first line, then last line) consistent with `==`; the operators derived from it
agree with it; and shifting both sides preserves it. -/
theorem C51_strict_order (sgt : S → S → Option Bool) :
    (∀ a b : Origin S, a.source = b.source → Lined a → Lined b →
      ∃ g, a.gt sgt b = some g ∧ (g = true ↔ ∃ s e s' e' : Int,
        a.lineStart = some s ∧ a.lineEnd = some e ∧ b.lineStart = some s' ∧ b.lineEnd = some e' ∧
        (s > s' ∨ s = s' ∧ e > e'))) ∧
    (∀ a : Origin S, a.gt sgt a = some false) ∧
    (∀ a b : Origin S, a.source = b.source → a.gt sgt b = some true →
      b.gt sgt a = some false) ∧
    (∀ a b c : Origin S, a.source = b.source → b.source = c.source → Lined b →
      a.gt sgt b = some true → b.gt sgt c = some true → a.gt sgt c = some true) ∧
    (∀ a b : Origin S, a.source = b.source → Lined a → Lined b →
      a.gt sgt b = some true ∨ a = b ∨ b.gt sgt a = some true) ∧
    (∀ a b : Origin S, a.source = b.source → Lined a → Lined b →
      a.lt sgt b = b.gt sgt a ∧ a.le sgt b = b.ge sgt a) := by
  refine ⟨?_, ?_, ?_, ?_, ?_, ?_⟩
  · rintro ⟨s, _ | a1, _ | a2⟩ ⟨s', _ | b1, _ | b2⟩ h ha hb <;> simp [Lined] at ha hb h ⊢
    subst h
    simp only [Origin.gt, lineGt]
    by_cases h1 : a1 = b1 <;> by_cases h2 : a2 = b2 <;> simp [h1, h2] <;> omega
  · intro a; simp [Origin.gt]
  · rintro ⟨s, _ | a1, _ | a2⟩ ⟨s', _ | b1, _ | b2⟩ h <;> simp at h <;> subst h <;>
      simp [Origin.gt, lineGt] <;> grind
  · rintro ⟨s, _ | a1, _ | a2⟩ ⟨s', _ | b1, _ | b2⟩ ⟨s'', _ | c1, _ | c2⟩ h h' hb <;>
      simp [Lined] at h h' hb <;> subst h h' <;> simp [Origin.gt, lineGt] <;> grind
  · rintro ⟨s, _ | a1, _ | a2⟩ ⟨s', _ | b1, _ | b2⟩ h ha hb <;> simp [Lined] at ha hb h ⊢
    subst h
    simp only [Origin.gt, lineGt]
    by_cases h1 : a1 = b1 <;> by_cases h2 : a2 = b2 <;>
      simp [h1, h2, eq_comm (a := b1), eq_comm (a := b2)] <;> omega
  · rintro ⟨s, _ | a1, _ | a2⟩ ⟨s', _ | b1, _ | b2⟩ h ha hb <;> simp [Lined] at ha hb h ⊢
    subst h
    simp only [Origin.gt, Origin.lt, Origin.le, Origin.ge, lineGt]
    by_cases h1 : a1 = b1 <;> by_cases h2 : a2 = b2 <;>
      simp [h1, h2, eq_comm (a := b1), eq_comm (a := b2)] <;> grind

/-- Exactly when comparing origins of one source raises `TypeError`. -/
theorem C51_comparison_raises (sgt : S → S → Option Bool) (a b : Origin S)
    (h : a.source = b.source) :
    a.gt sgt b = none ↔
      (a.lineStart.isSome ≠ b.lineStart.isSome) ∨
      (a.lineStart = b.lineStart ∧ a.lineEnd.isSome ≠ b.lineEnd.isSome) := by
  rcases a with ⟨s, _ | a1, _ | a2⟩ <;> rcases b with ⟨s', _ | b1, _ | b2⟩ <;> simp at h <;>
    subst h <;> simp [Origin.gt, lineGt] <;> grind

/-- **C51**, shifting: two shifts are one shift by the sum (also in that they raise together), a
shift by zero changes nothing, and shifts keep source, mode and order. -/
theorem C51_shift (o : Origin S) :
    (∀ m n, ((o.withOffset m).bind fun p => p.withOffset n) = o.withOffset (m + n)) ∧
    (∀ m p, o.withOffset m = some p → p.source = o.source ∧ p.mode = o.mode ∧
      p.lineStart = o.lineStart.map (· + m) ∧ p.lineEnd = o.lineEnd.map (· + m)) ∧
    (∀ m p q q' (sgt : S → S → Option Bool), o.withOffset m = some p →
      q.withOffset m = some q' → Lined o → Lined q → o.source = q.source →
      p.gt sgt q' = o.gt sgt q) ∧
    (∀ m, o.withOffset m = none ↔ o.lineStart.isSome ≠ o.lineEnd.isSome) := by
  refine ⟨?_, ?_, ?_, ?_⟩
  · rcases o with ⟨s, _ | a1, _ | a2⟩ <;> intro m n <;>
      simp [Origin.withOffset, Origin.mode, addLine]
    by_cases h : a1 = a2 <;> simp [h] <;> omega
  · rcases o with ⟨s, _ | a1, _ | a2⟩ <;> intro m p <;>
      simp [Origin.withOffset, Origin.mode, addLine]
    · rintro rfl; simp
    · by_cases h : a1 = a2 <;> simp [h] <;> rintro rfl <;> simp
      omega
  · rintro m p q q' sgt h1 h2 ho hq hs
    rcases o with ⟨s, _ | a1, _ | a2⟩ <;> rcases q with ⟨s', _ | b1, _ | b2⟩ <;>
      simp [Lined] at ho hq hs
    subst hs
    have e : ∀ x y : Int, (⟨s, some x, some y⟩ : Origin S).withOffset m =
        some ⟨s, some (x + m), some (y + m)⟩ := by
      intro x y
      by_cases h : x = y <;> simp [Origin.withOffset, Origin.mode, addLine, h]
    rw [e] at h1 h2
    simp only [Option.some.injEq] at h1 h2
    subst h1 h2
    simp only [Origin.gt, lineGt]
    by_cases g1 : a1 = b1 <;> by_cases g2 : a2 = b2 <;> simp [g1, g2]
  · rcases o with ⟨s, _ | a1, _ | a2⟩ <;> intro m <;>
      simp [Origin.withOffset, Origin.mode, addLine]
    by_cases h : a1 = a2 <;> simp [h]

/-- C51, single lines: the line reported for something `k` lines into a range of lines is the line
that many lines after the first one, in whichever order the origin is shifted and narrowed (the code
does both), and nothing but the file is left of an origin by `just_file`. -/
theorem C51_line (src : S) (s e k : Int) :
    ((⟨src, some s, some e⟩ : Origin S).withOffset k).map Origin.justLine =
      some ⟨src, some (s + k), some (s + k)⟩ ∧
    (⟨src, some s, some e⟩ : Origin S).justLine.withOffset k =
      some ⟨src, some (s + k), some (s + k)⟩ ∧
    (⟨src, some s, some e⟩ : Origin S).justLine.mode = .singleLine ∧
    (⟨src, some s, some e⟩ : Origin S).justFile.mode = .wholeFile ∧
    (⟨src, some s, some e⟩ : Origin S).justFile.source = src := by
  refine ⟨?_, ?_, by simp [Origin.justLine, Origin.mode], rfl, rfl⟩
  · simp only [Origin.withOffset, Origin.mode]
    by_cases h : s = e
    · subst h; simp [addLine, Origin.justLine]
    · simp [h, addLine, Origin.justLine]
  · simp [Origin.withOffset, Origin.mode, Origin.justLine, addLine]

/-- Outside the property: origins of two command line arguments can each be greater than the other,
because `CommandLineTextSource.__gt__` looks at the value even when the name is smaller. -/
theorem cmd_sources_not_ordered : ∃ a b : Origin (Nat × Nat),
    a.gt cmdGt b = some true ∧ b.gt cmdGt a = some true :=
  ⟨⟨(1, 2), some 1, some 1⟩, ⟨(2, 1), some 1, some 1⟩, by decide⟩

example : (⟨0, some 3, some 7⟩ : Origin Nat).gt (fun _ _ => none) ⟨0, some 3, some 5⟩ = some true ∧
    Lined (⟨0, some 3, some 7⟩ : Origin Nat) := ⟨by decide, by decide, by decide⟩
example : (⟨0, some 3, some 7⟩ : Origin Nat).withOffset (-2) = some ⟨0, some 1, some 5⟩ := by decide

end Verif.Origin
