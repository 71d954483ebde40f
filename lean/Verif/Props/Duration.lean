import Verif.Model.Duration
import Mathlib.Tactic.Ring
import Mathlib.Tactic.Linarith
import Mathlib.Algebra.BigOperators.Group.List.Basic

/-!
# C71: estimated durations

* `C71_duration`: the duration of a text is the seconds it denotes in hours, minutes and seconds; if it is not
  of this form, what it denotes as a number; otherwise it is unknown.
* `C71_written`: any number of hours, minutes and seconds, written with any blanks or colons between, is read
  back.
* `C71_totals`: the totals of a session are the sums of the estimates, and when they are unknown.
* `C71_validated`: when validation reports the field of a job; a duration that passes is known and positive.
* `C71_plan`: test plans have the same durations, and validation of the field is the same.
* `C71_time_left`: the time left printed before each job is the sum of the estimates of the jobs still to run,
  or unknown throughout.
* `C71_plan_violated`: a text that is no duration ends the validation of a test plan with an exception.
* `C71_blank_violated`: a text without any number is a duration of zero seconds instead of an unknown one.
* `C71_zero_violated`: a total that is known to be zero is said not to be known.
-/

namespace Verif.Duration

variable {F : Type} (d : Digits)

/-! ## Specification -/

/-- A text of digits denotes a number, the last digit being the ones. -/
inductive Numeral (d : Digits) : Str → Nat → Prop where
  | one {c : Char} {n : Nat} : d.val c = some n → Numeral d [c] n
  | more {s : Str} {c : Char} {n k : Nat} : Numeral d s n → d.val c = some k → Numeral d (s ++ [c]) (10 * n + k)

/-- A part with its unit, or nothing. -/
inductive Part (d : Digits) (u : Char) : Str → Nat → Prop where
  | absent : Part d u [] 0
  | there {s : Str} {n : Nat} : Numeral d s n → Part d u (s ++ [u]) n

/-- Blanks and colons. -/
def Sep (s : Str) : Prop := ∀ c ∈ s, c = ' ' ∨ c = ':'

/-- The text says so many hours, minutes and seconds, perhaps with a line break at the end. -/
def Says (d : Digits) (value : Str) (hours minutes seconds : Nat) : Prop :=
  ∃ h w m w' s e, value = h ++ w ++ m ++ w' ++ s ++ e ∧ Part d 'h' h hours ∧ Sep w ∧ Part d 'm' m minutes ∧
    Sep w' ∧ Part d 's' s seconds ∧ (e = [] ∨ e = ['\n'])

/-! ## Numerals -/

variable {d}

theorem int_append (s : Str) (c : Char) : d.int (s ++ [c]) = 10 * d.int s + (d.val c).getD 0 := by
  unfold Digits.int; rw [List.foldl_append]; rfl

theorem numeral_int {s : Str} {n : Nat} (h : Numeral d s n) :
    d.int s = n ∧ s ≠ [] ∧ ∀ c ∈ s, d.is c = true := by
  induction h with
  | one hc => exact ⟨by simp [Digits.int, hc], by simp, by simp [Digits.is, hc]⟩
  | more _ hc ih =>
    refine ⟨by rw [int_append, ih.1, hc]; rfl, by simp, fun x hx => ?_⟩
    rcases List.mem_append.mp hx with hx | hx
    · exact ih.2.2 x hx
    · rw [List.mem_singleton.mp hx]; simp [Digits.is, hc]

theorem int_numeral {s : Str} (h0 : s ≠ []) (h : ∀ c ∈ s, d.is c = true) : Numeral d s (d.int s) := by
  induction hs : s.length generalizing s with
  | zero => exact absurd (List.eq_nil_of_length_eq_zero hs) h0
  | succ n ih =>
    rcases List.eq_nil_or_concat s with rfl | ⟨l, c, rfl⟩
    · exact absurd rfl h0
    · rw [List.concat_eq_append] at *
      obtain ⟨k, hk⟩ := Option.isSome_iff_exists.mp (h c (by simp))
      by_cases hl : l = []
      · subst hl
        rw [show d.int ([] ++ [c]) = k by simp [Digits.int, hk]]
        exact .one hk
      · rw [int_append, hk]
        exact .more (ih hl (fun x hx => h x (by simp [hx])) (by simpa using hs)) hk

/-! ## The matcher -/

theorem digitsPlus_mem {s : Str} {p : Str × Str} :
    p ∈ digitsPlus d s ↔ p.1 ≠ [] ∧ (∀ c ∈ p.1, d.is c = true) ∧ s = p.1 ++ p.2 := by
  induction s generalizing p with
  | nil =>
    rw [digitsPlus]
    constructor
    · intro h; cases h
    · rintro ⟨h1, _, h3⟩
      exact absurd (List.append_eq_nil_iff.mp h3.symm).1 h1
  | cons c s ih =>
    rw [digitsPlus]
    by_cases hc : d.is c = true
    · rw [if_pos hc, List.mem_append, List.mem_map, List.mem_singleton]
      constructor
      · rintro (⟨q, hq, rfl⟩ | rfl)
        · obtain ⟨h1, h2, h3⟩ := ih.mp hq
          refine ⟨by simp, fun x hx => ?_, by simp [h3]⟩
          rcases List.mem_cons.mp hx with rfl | hx
          · exact hc
          · exact h2 x hx
        · exact ⟨by simp, by simpa using hc, rfl⟩
      · rintro ⟨h1, h2, h3⟩
        obtain ⟨a, r⟩ := p
        dsimp only at *
        cases a with
        | nil => exact absurd rfl h1
        | cons x a =>
          injection h3 with hx h3
          subst hx
          cases a with
          | nil => right; rw [h3]; rfl
          | cons y a =>
            left
            exact ⟨(y :: a, r), ih.mpr ⟨by simp, fun z hz => h2 z (List.mem_cons_of_mem _ hz), h3⟩, rfl⟩
    · rw [if_neg hc]
      constructor
      · intro h; cases h
      · rintro ⟨h1, h2, h3⟩
        obtain ⟨a, r⟩ := p
        dsimp only at *
        cases a with
        | nil => exact absurd rfl h1
        | cons x a =>
          injection h3 with hx h3
          subst hx
          exact absurd (h2 c (by simp)) hc

theorem group_mem {u : Char} {s : Str} {p : Option Str × Str} :
    p ∈ group d u s ↔ ∃ a, Part d u a (count d p.1) ∧ s = a ++ p.2 ∧ (p.1 = none ↔ a = []) ∧
      ∀ x, p.1 = some x → a = x ++ [u] := by
  unfold group
  rw [List.mem_append, List.mem_flatMap, List.mem_singleton]
  constructor
  · rintro (⟨q, hq, hp⟩ | rfl)
    · obtain ⟨a, r⟩ := q
      obtain ⟨h1, h2, h3⟩ := digitsPlus_mem.mp hq
      dsimp only at *
      cases r with
      | nil => cases hp
      | cons c r =>
        unfold lit at hp
        dsimp only at hp
        by_cases hc : c = u
        · rw [if_pos hc, List.mem_singleton] at hp
          subst hp hc
          refine ⟨a ++ [c], .there (int_numeral h1 h2), by simp [h3], by simp, ?_⟩
          intro x hx; injection hx with hx; rw [hx]
        · rw [if_neg hc] at hp; cases hp
    · exact ⟨[], .absent, rfl, by simp, by simp⟩
  · rintro ⟨a, ha, hs, hn, hx⟩
    obtain ⟨o, r⟩ := p
    dsimp only at *
    cases o with
    | none => right; rw [hn.mp rfl] at hs; rw [hs]; rfl
    | some x =>
      left
      have hxa := hx x rfl
      refine ⟨(x, u :: r), digitsPlus_mem.mpr ?_, ?_⟩
      · generalize count d (some x) = k at ha
        cases ha with
        | absent => simp at hxa
        | there hnum =>
          have hsx := List.append_inj_left' hxa rfl
          subst hsx
          exact ⟨(numeral_int hnum).2.1, (numeral_int hnum).2.2, by rw [hs]; simp⟩
      · unfold lit
        dsimp only
        rw [if_pos rfl]
        simp

theorem seps_mem {s r : Str} : r ∈ seps s ↔ ∃ w, Sep w ∧ s = w ++ r := by
  induction s with
  | nil =>
    rw [seps, List.mem_singleton]
    constructor
    · rintro rfl; exact ⟨[], by simp [Sep], rfl⟩
    · rintro ⟨w, _, h⟩; exact (List.append_eq_nil_iff.mp h.symm).2
  | cons c s ih =>
    rw [seps]
    by_cases hc : c = ' ' ∨ c = ':'
    · rw [if_pos hc, List.mem_append, List.mem_singleton, ih]
      constructor
      · rintro (⟨w, hw, rfl⟩ | rfl)
        · refine ⟨c :: w, fun x hx => ?_, rfl⟩
          rcases List.mem_cons.mp hx with rfl | hx
          · exact hc
          · exact hw x hx
        · exact ⟨[], by simp [Sep], rfl⟩
      · rintro ⟨w, hw, h⟩
        cases w with
        | nil => exact .inr h.symm
        | cons x w =>
          injection h with _ h
          exact .inl ⟨w, fun y hy => hw y (List.mem_cons_of_mem _ hy), h⟩
    · rw [if_neg hc, List.mem_singleton]
      constructor
      · rintro rfl; exact ⟨[], by simp [Sep], rfl⟩
      · rintro ⟨w, hw, h⟩
        cases w with
        | nil => exact h.symm
        | cons x w =>
          injection h with hx _
          subst hx
          exact absurd (hw c (by simp)) hc

theorem atEnd_iff {s : Str} : atEnd s = true ↔ s = [] ∨ s = ['\n'] := by
  unfold atEnd; simp

theorem group_of_part {u : Char} {a : Str} {n : Nat} (h : Part d u a n) (r : Str) :
    ∃ o, (o, r) ∈ group d u (a ++ r) ∧ count d o = n := by
  cases h with
  | absent => exact ⟨none, group_mem.mpr ⟨[], .absent, rfl, by simp, by simp⟩, rfl⟩
  | @there s n hn =>
    refine ⟨some s, group_mem.mpr ⟨s ++ [u], ?_, rfl, by simp, ?_⟩, (numeral_int hn).1⟩
    · show Part d u (s ++ [u]) (d.int s)
      rw [(numeral_int hn).1]
      exact .there hn
    · intro x hx; injection hx with hx; rw [hx]

/-- The ways to match are the ways to read the text. -/
theorem allMatches_says {value : Str} {h m s : Nat} :
    Says d value h m s ↔ ∃ t ∈ allMatches d value, count d t.1 = h ∧ count d t.2.1 = m ∧ count d t.2.2 = s := by
  unfold allMatches Says
  constructor
  · rintro ⟨a, w, b, w', c, e, rfl, ha, hw, hb, hw', hc, he⟩
    obtain ⟨oa, ga, ea⟩ := group_of_part ha (w ++ b ++ w' ++ c ++ e)
    obtain ⟨ob, gb, eb⟩ := group_of_part hb (w' ++ c ++ e)
    obtain ⟨oc, gc, ec⟩ := group_of_part hc e
    refine ⟨(oa, ob, oc), ?_, ea, eb, ec⟩
    simp only [List.mem_flatMap, List.mem_map, List.mem_filter, Prod.exists]
    refine ⟨oa, w ++ b ++ w' ++ c ++ e, by simpa [List.append_assoc] using ga, b ++ w' ++ c ++ e,
      seps_mem.mpr ⟨w, hw, by simp⟩, ob, w' ++ c ++ e, by simpa [List.append_assoc] using gb, c ++ e,
      seps_mem.mpr ⟨w', hw', by simp⟩, oc, e, ⟨gc, atEnd_iff.mpr he⟩, rfl⟩
  · rintro ⟨t, ht, rfl, rfl, rfl⟩
    simp only [List.mem_flatMap, List.mem_map, List.mem_filter, Prod.exists] at ht
    obtain ⟨oa, ra, ga, s1, hs1, ob, rb, gb, s2, hs2, oc, e, ⟨gc, he⟩, rfl⟩ := ht
    obtain ⟨a, ha, h1, _⟩ := group_mem.mp ga
    obtain ⟨w, hw, h2⟩ := seps_mem.mp hs1
    obtain ⟨b, hb, h3, _⟩ := group_mem.mp gb
    obtain ⟨w', hw', h4⟩ := seps_mem.mp hs2
    obtain ⟨c, hc, h5, _⟩ := group_mem.mp gc
    dsimp only at *
    exact ⟨a, w, b, w', c, e, by rw [h1, h2, h3, h4, h5]; simp, ha, hw, hb, hw', hc, atEnd_iff.mp he⟩

/-! ## A text says one thing -/

/-- Taking a part off a text. -/
def peel (d : Digits) (u : Char) (s : Str) : Nat × Str :=
  if s.takeWhile d.is ≠ [] ∧ (s.dropWhile d.is).head? = some u then
    (d.int (s.takeWhile d.is), (s.dropWhile d.is).drop 1)
  else (0, s)

def dropSep (s : Str) : Str := s.dropWhile fun c => c = ' ' || c = ':'

/-- A text does not begin with a digit. -/
def NoDigit (d : Digits) (s : Str) : Prop := ∀ c, s.head? = some c → d.is c = false

theorem not_digit {c : Char} (h : c ∈ ['h', 'm', 's', ' ', ':', '\n']) : d.is c = false := by
  unfold Digits.is; rw [d.others c h]; rfl

theorem span_digits {s r : Str} (h : ∀ c ∈ s, d.is c = true) (hr : NoDigit d r) :
    (s ++ r).takeWhile d.is = s ∧ (s ++ r).dropWhile d.is = r := by
  induction s with
  | nil =>
    cases r with
    | nil => exact ⟨rfl, rfl⟩
    | cons c r =>
      have hc := hr c rfl
      exact ⟨by rw [List.nil_append, List.takeWhile_cons, if_neg (by simp [hc])],
        by rw [List.nil_append, List.dropWhile_cons, if_neg (by simp [hc])]⟩
  | cons c s ih =>
    have hc := h c (by simp)
    have := ih fun x hx => h x (by simp [hx])
    exact ⟨by rw [List.cons_append, List.takeWhile_cons, if_pos hc, this.1],
      by rw [List.cons_append, List.dropWhile_cons, if_pos hc, this.2]⟩

theorem peel_there {u : Char} (hu : u ∈ ['h', 'm', 's']) {s : Str} {n : Nat} (h : Numeral d s n) (r : Str) :
    peel d u (s ++ [u] ++ r) = (n, r) := by
  have hn : NoDigit d (u :: r) := fun c hc => by
    injection hc with hc; subst hc
    exact not_digit (by revert hu; simp; intro h; rcases h with h | h | h <;> simp [h])
  have hsp := span_digits (numeral_int h).2.2 hn
  rw [List.append_assoc, List.singleton_append]
  unfold peel
  rw [hsp.1, hsp.2, if_pos ⟨(numeral_int h).2.1, rfl⟩, (numeral_int h).1]
  rfl

theorem peel_noDigit {u : Char} {s : Str} (h : NoDigit d s) : peel d u s = (0, s) := by
  have := span_digits (s := []) (by simp) h
  rw [List.nil_append] at this
  unfold peel
  rw [this.1, if_neg (by simp)]

theorem peel_other {u u' : Char} (hu' : u' ∈ ['h', 'm', 's']) (hne : u' ≠ u) {s : Str} {n : Nat}
    (h : Numeral d s n) (r : Str) : peel d u (s ++ [u'] ++ r) = (0, s ++ [u'] ++ r) := by
  have hn : NoDigit d (u' :: r) := fun c hc => by
    injection hc with hc; subst hc
    exact not_digit (by revert hu'; simp; intro h; rcases h with h | h | h <;> simp [h])
  have hsp := span_digits (numeral_int h).2.2 hn
  rw [List.append_assoc, List.singleton_append]
  unfold peel
  rw [hsp.1, hsp.2, if_neg]
  rintro ⟨_, h⟩
  injection h with h
  exact hne h

theorem dropSep_append {w r : Str} (hw : Sep w) (hr : ∀ c, r.head? = some c → ¬ (c = ' ' ∨ c = ':')) :
    dropSep (w ++ r) = r := by
  unfold dropSep
  induction w with
  | nil =>
    cases r with
    | nil => rfl
    | cons c r =>
      have := hr c rfl
      rw [List.nil_append, List.dropWhile_cons, if_neg (by simpa using this)]
  | cons c w ih =>
    rw [List.cons_append, List.dropWhile_cons, if_pos (by simpa using hw c (by simp))]
    exact ih fun x hx => hw x (by simp [hx])

/-- Reading a text from the left. -/
def canon (d : Digits) (v : Str) : Nat × Nat × Nat :=
  let h := peel d 'h' v
  let m := peel d 'm' (dropSep h.2)
  let s := peel d 's' (dropSep m.2)
  (h.1, m.1, s.1)

theorem noDigit_end {e : Str} (he : e = [] ∨ e = ['\n']) : NoDigit d e := by
  rcases he with rfl | rfl
  · intro c hc; cases hc
  · intro c hc; injection hc with hc; subst hc; exact not_digit (by simp)

theorem numeral_head {s : Str} {n : Nat} (h : Numeral d s n) (r : Str) :
    ∃ c t, s ++ r = c :: t ∧ d.is c = true := by
  obtain ⟨_, h1, h2⟩ := numeral_int h
  cases s with
  | nil => exact absurd rfl h1
  | cons c s => exact ⟨c, s ++ r, rfl, h2 c (by simp)⟩

theorem head_numeral_not_sep {s r : Str} {n : Nat} (h : Numeral d s n) :
    ∀ c, (s ++ r).head? = some c → ¬ (c = ' ' ∨ c = ':') := by
  obtain ⟨c, t, hc, hd⟩ := numeral_head h r
  intro x hx
  rw [hc] at hx
  injection hx with hx
  subst hx
  rintro (rfl | rfl)
  · rw [not_digit (by simp)] at hd; cases hd
  · rw [not_digit (by simp)] at hd; cases hd

theorem noDigit_sep {w r : Str} (hw : Sep w) (hne : w ≠ []) : NoDigit d (w ++ r) := by
  cases w with
  | nil => exact absurd rfl hne
  | cons c w =>
    intro x hx
    injection hx with hx
    subst hx
    rcases hw c (by simp) with rfl | rfl <;> exact not_digit (by simp)

theorem end_not_sep {e : Str} (he : e = [] ∨ e = ['\n']) :
    ∀ c, e.head? = some c → ¬ (c = ' ' ∨ c = ':') := by
  rcases he with rfl | rfl
  · intro c hc; cases hc
  · intro c hc; injection hc with hc; subst hc; decide

/-- The last part. -/
theorem canon_seconds {w' c e : Str} {n : Nat} (hw' : Sep w') (hc : Part d 's' c n)
    (he : e = [] ∨ e = ['\n']) : (peel d 's' (dropSep (w' ++ c ++ e))).1 = n := by
  cases hc with
  | absent =>
    rw [List.append_nil, dropSep_append hw' (end_not_sep he), peel_noDigit (noDigit_end he)]
  | @there s n hn =>
    rw [List.append_assoc, dropSep_append hw'
      (by rw [List.append_assoc]; exact head_numeral_not_sep hn), peel_there (by simp) hn]

theorem sep_append {w w' : Str} (h : Sep w) (h' : Sep w') : Sep (w ++ w') := fun c hc => by
  rcases List.mem_append.mp hc with hc | hc
  · exact h c hc
  · exact h' c hc

/-- What follows the hours: nothing is taken for them. -/
theorem peel_rest {u : Char} (hu : u = 'h' ∨ u = 'm') {w c e : Str} {n : Nat} (hw : Sep w)
    (hc : Part d 's' c n) (he : e = [] ∨ e = ['\n']) : peel d u (w ++ c ++ e) = (0, w ++ c ++ e) := by
  by_cases hwn : w = []
  · subst hwn
    cases hc with
    | absent => exact peel_noDigit (noDigit_end he)
    | @there s n hn =>
      exact peel_other (by simp) (by rcases hu with rfl | rfl <;> decide) hn e
  · rw [List.append_assoc]; exact peel_noDigit (noDigit_sep hw hwn)

theorem canon_minutes {w b w' c e : Str} {m n : Nat} (hw : Sep w) (hb : Part d 'm' b m) (hw' : Sep w')
    (hc : Part d 's' c n) (he : e = [] ∨ e = ['\n']) :
    (peel d 'm' (dropSep (w ++ b ++ w' ++ c ++ e))).1 = m ∧
      (peel d 's' (dropSep (peel d 'm' (dropSep (w ++ b ++ w' ++ c ++ e))).2)).1 = n := by
  cases hb with
  | absent =>
    have h1 : dropSep (w ++ [] ++ w' ++ c ++ e) = c ++ e := by
      rw [List.append_nil, List.append_assoc (w ++ w')]
      refine dropSep_append (sep_append hw hw') ?_
      cases hc with
      | absent => exact end_not_sep he
      | there hn => rw [List.append_assoc]; exact head_numeral_not_sep hn
    have h2 := peel_rest (d := d) (u := 'm') (.inr rfl) (w := []) (by simp [Sep]) hc he
    rw [List.nil_append] at h2
    rw [h1, h2]
    exact ⟨rfl, by simpa using canon_seconds (d := d) (w' := []) (by simp [Sep]) hc he⟩
  | @there s k hn =>
    have h1 : dropSep (w ++ (s ++ ['m']) ++ w' ++ c ++ e) = s ++ ['m'] ++ (w' ++ c ++ e) := by
      rw [show w ++ (s ++ ['m']) ++ w' ++ c ++ e = w ++ (s ++ ['m'] ++ (w' ++ c ++ e)) by simp]
      refine dropSep_append hw ?_
      rw [List.append_assoc]; exact head_numeral_not_sep hn
    rw [h1, peel_there (by simp) hn]
    exact ⟨rfl, canon_seconds hw' hc he⟩

theorem says_canon {v : Str} {h m s : Nat} (hs : Says d v h m s) : canon d v = (h, m, s) := by
  obtain ⟨a, w, b, w', c, e, rfl, ha, hw, hb, hw', hc, he⟩ := hs
  have hm := canon_minutes hw hb hw' hc he
  have hh : peel d 'h' (a ++ w ++ b ++ w' ++ c ++ e) = (h, w ++ b ++ w' ++ c ++ e) := by
    cases ha with
    | absent =>
      rw [List.nil_append]
      by_cases hwn : w = []
      · subst hwn
        cases hb with
        | absent => simpa using peel_rest (d := d) (u := 'h') (.inl rfl) hw' hc he
        | @there x k hn =>
          have := peel_other (d := d) (u := 'h') (u' := 'm') (by simp) (by decide) hn (w' ++ c ++ e)
          simpa [List.append_assoc] using this
      · rw [show w ++ b ++ w' ++ c ++ e = w ++ (b ++ w' ++ c ++ e) by simp]
        exact peel_noDigit (noDigit_sep hw hwn)
    | @there x k hn =>
      have := peel_there (d := d) (u := 'h') (by simp) hn (w ++ b ++ w' ++ c ++ e)
      simpa [List.append_assoc] using this
  unfold canon
  dsimp only
  rw [hh]
  dsimp only
  rw [hm.1, hm.2]

/-- **C71**: the duration of a job is what the text in the field says: so many hours, minutes and seconds; or
else a number; or else it is not known.  A text does not say two things. -/
theorem C71_duration (float : Str → Option F) (value : Option Str) :
    (∀ n, estimatedDuration d float value = .secs n ↔
      ∃ v h m s, value = some v ∧ Says d v h m s ∧ n = 3600 * h + 60 * m + s) ∧
    (∀ f, estimatedDuration d float value = .num f ↔
      ∃ v, value = some v ∧ (¬ ∃ h m s, Says d v h m s) ∧ float v = some f) ∧
    (estimatedDuration d float value = .unknown ↔
      ∀ v, value = some v → (¬ ∃ h m s, Says d v h m s) ∧ float v = none) ∧
    ∀ v h m s h' m' s', Says d v h m s → Says d v h' m' s' → h = h' ∧ m = m' ∧ s = s' := by
  refine ⟨?_, ?_, ?_, ?_⟩
  rotate_left 3
  · intro v h m s h' m' s' h1 h2
    have := (says_canon h1).symm.trans (says_canon h2)
    injection this with e1 e2
    injection e2 with e2 e3
    exact ⟨e1, e2, e3⟩
  all_goals cases value with
  | none => simp [estimatedDuration]
  | some v =>
    cases hm : allMatches d v with
    | cons t rest =>
      obtain ⟨oh, om, os⟩ := t
      have hsays : Says d v (count d oh) (count d om) (count d os) :=
        allMatches_says.mpr ⟨(oh, om, os), by rw [hm]; simp, rfl, rfl, rfl⟩
      have hval : estimatedDuration d float (some v) =
          .secs (count d os + count d om * 60 + count d oh * 3600) := by
        unfold estimatedDuration; dsimp only; rw [hm]
      rw [hval]
      first
      | (intro n
         constructor
         · intro h
           injection h with h
           exact ⟨v, _, _, _, rfl, hsays, by omega⟩
         · rintro ⟨v', h, m, s, hv, hs, rfl⟩
           injection hv with hv
           subst hv
           have := (says_canon hsays).symm.trans (says_canon hs)
           injection this with e1 e2
           injection e2 with e2 e3
           rw [e1, e2, e3]
           congr 1
           omega)
      | (intro f
         constructor
         · intro h; cases h
         · rintro ⟨v', hv, hn, _⟩
           injection hv with hv
           subst hv
           exact absurd ⟨_, _, _, hsays⟩ hn)
      | (constructor
         · intro h; cases h
         · intro h
           exact absurd ⟨_, _, _, hsays⟩ (h v rfl).1)
    | nil =>
      have hno : ¬ ∃ h m s, Says d v h m s := by
        rintro ⟨h, m, s, hs⟩
        obtain ⟨t, ht, _⟩ := allMatches_says.mp hs
        rw [hm] at ht; cases ht
      unfold estimatedDuration
      dsimp only
      rw [hm]
      dsimp only
      cases hf : float v with
      | none =>
        first
        | (intro n
           constructor
           · intro h; cases h
           · rintro ⟨v', h, m, s, hv, hs, _⟩
             injection hv with hv
             subst hv
             exact absurd ⟨h, m, s, hs⟩ hno)
        | (intro f
           constructor
           · intro h; cases h
           · rintro ⟨v', hv, _, hff⟩
             injection hv with hv
             subst hv
             rw [hf] at hff; cases hff)
        | (constructor
           · intro _ v' hv
             injection hv with hv
             subst hv
             exact ⟨hno, hf⟩
           · intro _; rfl)
      | some f =>
        first
        | (intro n
           constructor
           · intro h; cases h
           · rintro ⟨v', h, m, s, hv, hs, _⟩
             injection hv with hv
             subst hv
             exact absurd ⟨h, m, s, hs⟩ hno)
        | (intro f'
           constructor
           · intro h
             injection h with h
             exact ⟨v, rfl, hno, by rw [hf, h]⟩
           · rintro ⟨v', hv, _, hff⟩
             injection hv with hv
             subst hv
             rw [hf] at hff
             injection hff with hff
             rw [hff])
        | (constructor
           · intro h; cases h
           · intro h
             have := (h v rfl).2
             rw [hf] at this; cases this)

/-- The ASCII digits. -/
def ascii : Digits where
  val c := if '0' ≤ c ∧ c ≤ '9' then some (c.toNat - 48) else none
  small c n h := by
    by_cases hc : '0' ≤ c ∧ c ≤ '9'
    · rw [if_pos hc] at h
      injection h with h
      have h2 : c.toNat ≤ 57 := hc.2
      omega
    · rw [if_neg hc] at h; cases h
  others c hc := by
    revert c; decide

example : estimatedDuration (F := Unit) ascii (fun _ => none) (some "1h 5m:30s".toList) = .secs 3930 := by
  decide +kernel

example : Says ascii "1h 5m:30s".toList 1 5 30 :=
  ⟨"1h".toList, " ".toList, "5m".toList, ":".toList, "30s".toList, [], by decide +kernel,
    .there (s := ['1']) (.one (by decide +kernel)), by unfold Sep; decide +kernel,
    .there (s := ['5']) (.one (by decide +kernel)), by unfold Sep; decide +kernel,
    .there (s := ['3', '0']) (.more (s := ['3']) (n := 3) (k := 0) (.one (by decide +kernel))
      (by decide +kernel)), .inl rfl⟩

/-- **C71**: any hours, minutes and seconds, each written with any digits and its letter or left out when zero,
with blanks and colons between, are read back as that many seconds. -/
theorem C71_written (float : Str → Option F) {h m s w w' : Str} {nh nm ns : Nat} (hh : Part d 'h' h nh)
    (hm : Part d 'm' m nm) (hs : Part d 's' s ns) (hw : Sep w) (hw' : Sep w') :
    estimatedDuration d float (some (h ++ w ++ m ++ w' ++ s)) = .secs (3600 * nh + 60 * nm + ns) :=
  ((C71_duration float _).1 _).mpr
    ⟨_, nh, nm, ns, rfl, ⟨h, w, m, w', s, [], by simp, hh, hw, hm, hw', hs, .inl rfl⟩, rfl⟩

example : Part ascii 'm' "90m".toList 90 :=
  .there (s := ['9', '0']) (.more (s := ['9']) (n := 9) (k := 0) (.one (by decide +kernel)) (by decide +kernel))

/-! ## Totals -/

/-- What a job that is not automated adds: the overhead, and its estimate. -/
def manualTime (overhead : Rat) (j : Job) : Rat := overhead + j.estimate.getD 0

theorem autoSum : ∀ (jobs : List Job) (t : Totals) (o : Rat),
    (jobs.foldl (step o) t).auto =
      t.auto.bind fun a =>
        if ∀ j ∈ jobs, j.automated = true → j.estimate.isSome = true then
          some (a + ((jobs.filter (·.automated)).map fun j => j.estimate.getD 0).sum)
        else none
  | [], t, o => by cases ht : t.auto <;> simp [ht]
  | j :: jobs, t, o => by
    rw [List.foldl_cons, autoSum jobs]
    unfold step
    by_cases hj : j.automated = true
    · rw [if_pos hj]
      dsimp only
      unfold autoStep
      cases ht : t.auto with
      | none => rfl
      | some a =>
        cases he : j.estimate with
        | none =>
          simp only [Option.bind_none, Option.bind_some]
          rw [if_neg]
          intro h
          have := h j (by simp) hj
          rw [he] at this; cases this
        | some e =>
          simp only [Option.bind_some]
          by_cases hall : ∀ k ∈ jobs, k.automated = true → k.estimate.isSome = true
          · rw [if_pos hall, if_pos (fun k hk hk' => by
              rcases List.mem_cons.mp hk with rfl | hk
              · rw [he]; rfl
              · exact hall k hk hk')]
            rw [List.filter_cons, if_pos hj, List.map_cons, List.sum_cons, he]
            simp only [Option.getD_some, add_assoc]
          · rw [if_neg hall, if_neg (fun h => hall fun k hk => h k (List.mem_cons_of_mem _ hk))]
    · rw [if_neg hj]
      dsimp only
      congr 1
      funext a
      have hiff : (∀ k ∈ j :: jobs, k.automated = true → k.estimate.isSome = true) ↔
          ∀ k ∈ jobs, k.automated = true → k.estimate.isSome = true := by
        constructor
        · exact fun h k hk => h k (List.mem_cons_of_mem _ hk)
        · intro h k hk hk'
          rcases List.mem_cons.mp hk with rfl | hk
          · exact absurd hk' hj
          · exact h k hk hk'
      rw [List.filter_cons, if_neg hj]
      simp only [hiff]

theorem manualSum : ∀ (jobs : List Job) (t : Totals) (o : Rat),
    (jobs.foldl (step o) t).manual =
      t.manual.bind fun a =>
        if ∀ j ∈ jobs, j.automated = false → j.hasCommand = true → j.estimate.isSome = true then
          some (a + ((jobs.filter fun j => !j.automated).map (manualTime o)).sum)
        else none
  | [], t, o => by cases ht : t.manual <;> simp [ht]
  | j :: jobs, t, o => by
    rw [List.foldl_cons, manualSum jobs]
    unfold step
    by_cases hj : j.automated = true
    · rw [if_pos hj]
      dsimp only
      congr 1
      funext a
      have hiff : (∀ k ∈ j :: jobs, k.automated = false → k.hasCommand = true → k.estimate.isSome = true) ↔
          ∀ k ∈ jobs, k.automated = false → k.hasCommand = true → k.estimate.isSome = true := by
        constructor
        · exact fun h k hk => h k (List.mem_cons_of_mem _ hk)
        · intro h k hk hk'
          rcases List.mem_cons.mp hk with rfl | hk
          · rw [hj] at hk'; cases hk'
          · exact h k hk hk'
      have hf : ((j :: jobs).filter fun j => !j.automated) = jobs.filter fun j => !j.automated := by
        rw [List.filter_cons, if_neg (by simp [hj])]
      rw [hf]
      simp only [hiff]
    · have hj' : j.automated = false := by simpa using hj
      rw [if_neg hj]
      dsimp only
      unfold manualStep
      cases ht : t.manual with
      | none => rfl
      | some a =>
        have hgood : (j.hasCommand = true → j.estimate.isSome = true) →
            (some (a + o + j.estimate.getD 0)).bind (fun a =>
              if ∀ k ∈ jobs, k.automated = false → k.hasCommand = true → k.estimate.isSome = true then
                some (a + ((jobs.filter fun j => !j.automated).map (manualTime o)).sum) else none) =
            if ∀ k ∈ j :: jobs, k.automated = false → k.hasCommand = true → k.estimate.isSome = true then
              some (a + (((j :: jobs).filter fun j => !j.automated).map (manualTime o)).sum) else none := by
          intro hgood
          rw [Option.bind_some]
          by_cases hall : ∀ k ∈ jobs, k.automated = false → k.hasCommand = true → k.estimate.isSome = true
          · rw [if_pos hall, if_pos (fun k hk hk' hk'' => by
              rcases List.mem_cons.mp hk with rfl | hk
              · exact hgood hk''
              · exact hall k hk hk' hk'')]
            rw [List.filter_cons, if_pos (by simp [hj']), List.map_cons, List.sum_cons]
            unfold manualTime
            simp only [add_assoc]
          · rw [if_neg hall, if_neg (fun h => hall fun k hk => h k (List.mem_cons_of_mem _ hk))]
        cases he : j.estimate with
        | some e =>
          rw [he] at hgood
          simpa using hgood (fun _ => rfl)
        | none =>
          rw [he] at hgood
          cases hc : j.hasCommand with
          | true =>
            dsimp only
            rw [if_pos rfl]
            simp only [Option.bind_none, Option.bind_some]
            rw [if_neg]
            intro h
            have := h j (by simp) hj' hc
            rw [he] at this; cases this
          | false =>
            dsimp only
            rw [if_neg (by decide)]
            have := hgood (by rw [hc]; intro h; cases h)
            simpa using this

/-- **C71**, totals of a session: the total of the automated jobs is the sum of their estimates, not known
exactly when one has no estimate; the total of the others has the overhead for each besides, and is not known
exactly when one with a command has no estimate. -/
theorem C71_totals (overhead : Rat) (jobs : List Job) :
    (∀ x, (totals overhead jobs).auto = some x ↔
      (∀ j ∈ jobs, j.automated = true → j.estimate.isSome = true) ∧
      x = ((jobs.filter (·.automated)).map fun j => j.estimate.getD 0).sum) ∧
    (∀ x, (totals overhead jobs).manual = some x ↔
      (∀ j ∈ jobs, j.automated = false → j.hasCommand = true → j.estimate.isSome = true) ∧
      x = overhead * (jobs.filter fun j => !j.automated).length +
        ((jobs.filter fun j => !j.automated).map fun j => j.estimate.getD 0).sum) := by
  unfold totals
  rw [autoSum, manualSum]
  dsimp only
  have hsum : ∀ (l : List Job), (l.map (manualTime overhead)).sum =
      overhead * l.length + (l.map fun j => j.estimate.getD 0).sum := by
    intro l
    induction l with
    | nil => simp
    | cons j l ih =>
      rw [List.map_cons, List.sum_cons, ih, List.map_cons, List.sum_cons, List.length_cons]
      unfold manualTime
      push_cast
      ring
  constructor
  · intro x
    rw [Option.bind_some]
    by_cases h : ∀ j ∈ jobs, j.automated = true → j.estimate.isSome = true
    · rw [if_pos h, zero_add]
      constructor
      · intro hx; injection hx with hx; exact ⟨h, hx.symm⟩
      · rintro ⟨_, rfl⟩; rfl
    · rw [if_neg h]
      constructor
      · intro hx; cases hx
      · exact fun hx => absurd hx.1 h
  · intro x
    rw [Option.bind_some, hsum]
    by_cases h : ∀ j ∈ jobs, j.automated = false → j.hasCommand = true → j.estimate.isSome = true
    · rw [if_pos h, zero_add]
      constructor
      · intro hx; injection hx with hx; exact ⟨h, hx.symm⟩
      · rintro ⟨_, rfl⟩; rfl
    · rw [if_neg h]
      constructor
      · intro hx; cases hx
      · exact fun hx => absurd hx.1 h

example : totals 30 [⟨true, true, some 2⟩, ⟨false, false, none⟩, ⟨false, true, some 5⟩, ⟨true, true, some 1⟩] =
    ⟨some 3, some 65⟩ := by decide +kernel

/-! ## Validation -/

/-- **C71**, validation: the field of a job passes exactly if it is absent, empty, says some positive number of
seconds, or is a positive number. -/
theorem C71_validated (float : Str → Option F) (positive : F → Bool) (value : Option Str) :
    jobError d float positive value = false ↔
      value = none ∨ value = some [] ∨
      ∃ v, value = some v ∧ ((∃ h m s, Says d v h m s ∧ (0 < h ∨ 0 < m ∨ 0 < s)) ∨
        (¬ ∃ h m s, Says d v h m s) ∧ ∃ f, float v = some f ∧ positive f = true) := by
  cases value with
  | none => simp [jobError, given]
  | some v =>
    by_cases hv : v = []
    · subst hv; simp [jobError, given]
    have hg : given (some v) = true := by simp [given, hv]
    have hC := C71_duration (d := d) float (some v)
    unfold jobError
    rw [hg, Bool.true_and, Bool.not_eq_false']
    constructor
    · intro h
      refine .inr (.inr ⟨v, rfl, ?_⟩)
      cases hd : estimatedDuration d float (some v) with
      | secs n =>
        rw [hd] at h
        obtain ⟨v', a, b, c, hv', hs, hn⟩ := (hC.1 n).mp hd
        injection hv' with hv'
        subst hv'
        have hpos : 0 < n := by simpa [Dur.positive] using h
        exact .inl ⟨a, b, c, hs, by omega⟩
      | num f =>
        rw [hd] at h
        obtain ⟨v', hv', hno, hf⟩ := (hC.2.1 f).mp hd
        injection hv' with hv'
        subst hv'
        exact .inr ⟨hno, f, hf, h⟩
      | unknown => rw [hd] at h; cases h
    · rintro (h | h | ⟨v', hv', h⟩)
      · cases h
      · injection h with h; exact absurd h hv
      · injection hv' with hv'
        subst hv'
        rcases h with ⟨a, b, c, hs, hpos⟩ | ⟨hno, f, hf, hpos⟩
        · rw [(hC.1 _).mpr ⟨v, a, b, c, rfl, hs, rfl⟩]
          simp only [Dur.positive, decide_eq_true_eq]
          omega
        · rw [(hC.2.1 f).mpr ⟨v, rfl, hno, hf⟩]
          exact hpos

example : jobError (F := Unit) ascii (fun _ => none) (fun _ => true) (some "0h 0s".toList) = true := by
  decide +kernel

example : jobError (F := Unit) ascii (fun _ => none) (fun _ => true) (some "2m".toList) = false := by
  decide +kernel

theorem plan_eq (float : Str → Option F) (value : Option Str) :
    (planDuration d float value = none ∧ ∃ v, value = some v ∧ estimatedDuration d float value = .unknown) ∨
    planDuration d float value = some (estimatedDuration d float value) := by
  cases value with
  | none => exact .inr rfl
  | some v =>
    unfold planDuration estimatedDuration
    dsimp only
    cases allMatches d v with
    | cons t r => exact .inr rfl
    | nil =>
      cases float v with
      | none => exact .inl ⟨rfl, v, rfl, rfl⟩
      | some f => exact .inr rfl

/-- **C71**, test plans: unless the text is neither form, a test plan has the duration a job would have with the
field, and validation says the same of it (nothing for virtual test plans). -/
theorem C71_plan (float : Str → Option F) (positive : F → Bool) (value : Option Str)
    (hok : ∀ v, value = some v → (∃ h m s, Says d v h m s) ∨ (float v).isSome = true) :
    planDuration d float value = some (estimatedDuration d float value) ∧
    planError d float positive false value = some (jobError d float positive value) ∧
    planError d float positive true value = some false := by
  have h1 : planDuration d float value = some (estimatedDuration d float value) := by
    rcases plan_eq (d := d) float value with ⟨_, v, rfl, hu⟩ | h
    · have := (C71_duration (d := d) float (some v)).2.2.1.mp hu v rfl
      rcases hok v rfl with h | h
      · exact absurd h this.1
      · rw [this.2] at h; cases h
    · exact h
  refine ⟨h1, ?_, rfl⟩
  unfold planError
  rw [if_neg (by decide), h1]
  rfl

/-! ## Time left -/

theorem gather_none : ∀ (es : List (Option Rat)), es.foldl gatherStep none = none
  | [] => rfl
  | none :: es => gather_none es
  | some _ :: es => gather_none es

theorem gather_from : ∀ (es : List (Option Rat)) (a : Rat), es.foldl gatherStep (some a) =
      if none ∈ es then none else some (a + (es.map (·.getD 0)).sum)
  | [], a => by simp
  | none :: es, a => by
    rw [List.foldl_cons, gatherStep, gather_none, if_pos (by simp)]
    intro _ _ _ h; cases h
  | some e :: es, a => by
    rw [List.foldl_cons, gatherStep, gather_from es]
    simp only [List.mem_cons, reduceCtorEq, false_or, List.map_cons, List.sum_cons, Option.getD_some, add_assoc]

theorem headers_none : ∀ es : List (Option Rat), headers none es = es.map fun _ => none
  | [] => rfl
  | e :: es => by
    rw [headers, show after e none = none by cases e <;> rfl, headers_none es]; rfl

theorem headers_known : ∀ (es : List Rat) (k : Nat), k < es.length →
    (headers (some es.sum) (es.map some))[k]? = some (some (max 0 (es.drop k).sum))
  | [], _, h => by cases h
  | e :: es, 0, _ => rfl
  | e :: es, k + 1, h => by
    rw [List.map_cons, headers, List.getElem?_cons_succ]
    have : after (some e) (some (e :: es).sum) = some es.sum := by
      show some ((e :: es).sum - e) = some es.sum
      rw [List.sum_cons]; congr 1; ring
    rw [this, headers_known es k (by simpa using h)]
    rfl

/-- **C71**, the time left: if all estimates are known, then before each job the sum of the estimates from this
job on is printed (or zero, if it is negative); otherwise "unknown" is printed before each job. -/
theorem C71_time_left (estimates : List (Option Rat)) :
    (∀ es : List Rat, estimates = es.map some → ∀ k, k < es.length →
      (headers (gather estimates) estimates)[k]? = some (some (max 0 (es.drop k).sum))) ∧
    (none ∈ estimates → headers (gather estimates) estimates = estimates.map fun _ => none) ∧
    (headers (gather estimates) estimates).length = estimates.length := by
  refine ⟨?_, ?_, ?_⟩
  · rintro es rfl k hk
    have : gather (es.map some) = some es.sum := by
      unfold gather
      rw [gather_from, if_neg (by simp), zero_add, List.map_map,
        show ((fun x : Option Rat => x.getD 0) ∘ some) = id from rfl, List.map_id]
    rw [this]
    exact headers_known es k hk
  · intro h
    unfold gather
    rw [gather_from, if_pos h, headers_none]
  · generalize gather estimates = t
    induction estimates generalizing t with
    | nil => rfl
    | cons e es ih => rw [headers, List.length_cons, List.length_cons, ih]

example : headers (gather [some 5, some 2, some 3]) [some 5, some 2, some 3] = [some 10, some 5, some 3] := by
  decide +kernel

example : headers (gather [some 5, none, some 3]) [some 5, none, some 3] = [none, none, none] := by
  decide +kernel

/-! ## Disagreements -/

/-- **C71** is violated for test plans: a text that is no duration is not reported; it ends the validation with
an exception. -/
theorem C71_plan_violated (float : Str → Option F) (positive : F → Bool) {v : Str}
    (hno : ¬ ∃ h m s, Says d v h m s) (hf : float v = none) :
    planError d float positive false (some v) = none ∧ (v ≠ [] → jobError d float positive (some v) = true) := by
  have hm : allMatches d v = [] := by
    cases hm : allMatches d v with
    | nil => rfl
    | cons t r => exact absurd ⟨_, _, _, allMatches_says.mpr ⟨t, by rw [hm]; simp, rfl, rfl, rfl⟩⟩ hno
  constructor
  · unfold planError planDuration
    rw [if_neg (by decide)]
    dsimp only
    rw [hm]
    dsimp only
    rw [hf]
  · intro hv
    unfold jobError
    rw [show given (some v) = true by simp [given, hv],
      (C71_duration (d := d) float (some v)).2.2.1.mpr (fun v' hv' => by
        injection hv' with hv'; subst hv'; exact ⟨hno, hf⟩)]
    rfl

example : planError (F := Unit) ascii (fun _ => none) (fun _ => true) false (some "2.5m".toList) = none := by
  decide +kernel

/-- **C71** is violated: a field with nothing but blanks and colons says no number, but the job is taken to
need no time instead of an unknown time. -/
theorem C71_blank_violated {w : Str} (hw : Sep w) (float : Str → Option F) (hf : float w = none) :
    estimatedDuration d float (some w) = .secs 0 ∧ float w = none :=
  ⟨((C71_duration float _).1 0).mpr
    ⟨w, 0, 0, 0, rfl, ⟨[], w, [], [], [], [], by simp, .absent, hw, .absent, by simp [Sep], .absent, .inl rfl⟩, rfl⟩,
   hf⟩

example : Sep ": ".toList := by unfold Sep; decide +kernel

/-- **C71** is violated by `plainbox run`: a session without automated jobs is said to have an unknown duration
for them, although it is known to be zero. -/
theorem C71_zero_violated :
    (totals 30 [⟨false, true, some 5⟩]).auto = some 0 ∧ shown (totals 30 [⟨false, true, some 5⟩]).auto = none := by
  decide +kernel

end Verif.Duration
