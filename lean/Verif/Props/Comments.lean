import Verif.Model.Comments
import Verif.Lemmas.Rx

/-! # C103: comments without escape sequences -/

namespace Verif.Comments

open Verif.Rx (Rx Str Lang NoEol)

/-! ## Specification -/

/-- The character is between the two. -/
def Between (a b : Char) (c : Char) : Prop := a.toNat ≤ c.toNat ∧ c.toNat ≤ b.toNat

/-- A control sequence as in ECMA-48: an introducer, parameters, intermediate characters and a final one. -/
def Sequence (x : Str) : Prop :=
  ∃ i p q f, x = i ++ p ++ q ++ [f] ∧ (i = ['\x9b'] ∨ i = ['\x1b', '[']) ∧ (∀ c ∈ p, Between '0' '?' c) ∧
    (∀ c ∈ q, Between ' ' '/' c) ∧ Between '@' '~' f

/-- The text without the sequences in it, which are looked for from the start. -/
inductive Cleaned : Str → Str → Prop
  | nil : Cleaned [] []
  | drop {x t r : Str} : Sequence x → Cleaned t r → Cleaned (x ++ t) r
  | keep {c : Char} {t r : Str} : (¬ ∃ x, Sequence x ∧ x <+: c :: t) → Cleaned t r → Cleaned (c :: t) (c :: r)

/-- No introducer of sequences. -/
def Bare (t : Str) : Prop := ∀ c ∈ t, c ≠ '\x9b' ∧ c ≠ '\x1b'

/-! ## Lemmas -/

theorem lang_ansi (x : Str) : Lang ansi x ↔ Sequence x := by
  have hr : ∀ a b : Char, ∀ y : Str, Lang (range a b) y ↔ ∃ c, Between a b c ∧ y = [c] := by
    intro a b y
    unfold range
    rw [Rx.lang_cls]
    simp [Between]
  have hs : ∀ a b : Char, ∀ y : Str, Lang (.star (range a b)) y ↔ ∀ c ∈ y, Between a b c := by
    intro a b y
    unfold range
    rw [Rx.lang_star_cls]
    simp [Between]
  unfold ansi
  simp only [Rx.cat, Rx.lang_seq, Rx.lang_alt, Rx.lang_chr, Rx.word, Rx.lang_eps, hr, hs]
  constructor
  · rintro ⟨i, z, rfl, hi, p, z', rfl, hp, q, z'', rfl, hq, f, hf, rfl⟩
    refine ⟨i, p, q, f, by simp, ?_, hp, hq, hf⟩
    rcases hi with rfl | ⟨_, _, rfl, rfl, _, _, rfl, rfl, rfl⟩
    · exact Or.inl rfl
    · exact Or.inr rfl
  · rintro ⟨i, p, q, f, rfl, hi, hp, hq, hf⟩
    refine ⟨i, p ++ (q ++ [f]), by simp, ?_, p, q ++ [f], rfl, hp, q, [f], rfl, hq, f, hf, rfl⟩
    rcases hi with rfl | rfl
    · exact Or.inl rfl
    · exact Or.inr ⟨['\x1b'], ['['], rfl, rfl, ['['], [], rfl, rfl, rfl⟩

theorem noEol_ansi : NoEol ansi := ⟨⟨trivial, trivial, trivial, trivial⟩, trivial, trivial, trivial⟩

theorem mem_ansi {s t : Str} : t ∈ Rx.rests ansi s ↔ ∃ x, s = x ++ t ∧ Sequence x := by
  rw [Rx.mem_rests noEol_ansi]
  simp only [lang_ansi]

theorem split_unique {P : Char → Prop} : ∀ {p p' r r' : Str}, p ++ r = p' ++ r' → (∀ c ∈ p, P c) → (∀ c ∈ p', P c) →
    (∀ c, r.head? = some c → ¬ P c) → (∀ c, r'.head? = some c → ¬ P c) → p = p' ∧ r = r' := by
  intro p
  induction p with
  | nil =>
    intro p' r r' h _ hp' hr _
    cases p' with
    | nil => exact ⟨rfl, h⟩
    | cons c p' =>
      rw [List.nil_append] at h
      subst h
      exact absurd (hp' c List.mem_cons_self) (hr c rfl)
  | cons c p ih =>
    intro p' r r' h hp hp' hr hr'
    cases p' with
    | nil =>
      rw [List.nil_append] at h
      subst h
      exact absurd (hp c List.mem_cons_self) (hr' c rfl)
    | cons d p' =>
      simp only [List.cons_append, List.cons.injEq] at h
      obtain ⟨rfl, h⟩ := h
      have := ih h (fun x hx => hp x (List.mem_cons_of_mem _ hx)) (fun x hx => hp' x (List.mem_cons_of_mem _ hx)) hr hr'
      exact ⟨by rw [this.1], this.2⟩

theorem head_append_one {q : Str} {f : Char} {t : Str} {c : Char} (h : (q ++ f :: t).head? = some c) : c ∈ q ∨ c = f := by
  cases q with
  | nil => simp at h; exact Or.inr h.symm
  | cons d q => simp at h; exact Or.inl (by rw [h]; exact List.mem_cons_self)

/-- No sequence is the beginning of another one. -/
theorem sequence_unique {x y t u : Str} (hx : Sequence x) (hy : Sequence y) (h : x ++ t = y ++ u) : x = y ∧ t = u := by
  obtain ⟨i, p, q, f, rfl, hi, hp, hq, hf⟩ := hx
  obtain ⟨j, p', q', g, rfl, hj, hp', hq', hg⟩ := hy
  simp only [List.append_assoc, List.cons_append, List.nil_append] at h
  have hij : i = j := by
    rcases hi with rfl | rfl <;> rcases hj with rfl | rfl
    · rfl
    · simp at h
    · simp at h
    · rfl
  subst hij
  have h1 := List.append_cancel_left h
  clear h
  have b1 : ∀ {q : Str} {f : Char} {t : Str}, (∀ c ∈ q, Between ' ' '/' c) → Between '@' '~' f →
      ∀ c, (q ++ f :: t).head? = some c → ¬ Between '0' '?' c := by
    intro q f t hq hf c hc hb
    rcases head_append_one hc with hm | rfl
    · have := (hq c hm).2
      have := hb.1
      revert this
      have e1 : ('0' : Char).toNat = 48 := rfl
      have e2 : ('/' : Char).toNat = 47 := rfl
      omega
    · have := hf.1
      have := hb.2
      have e1 : ('@' : Char).toNat = 64 := rfl
      have e2 : ('?' : Char).toNat = 63 := rfl
      omega
  obtain ⟨rfl, h2⟩ := split_unique (P := Between '0' '?') h1 hp hp' (b1 hq hf) (b1 hq' hg)
  have b2 : ∀ {f : Char} {t : Str}, Between '@' '~' f → ∀ c, (f :: t).head? = some c → ¬ Between ' ' '/' c := by
    intro f t hf c hc hb
    simp only [List.head?_cons, Option.some.injEq] at hc
    subst hc
    have := hf.1
    have := hb.2
    have e1 : ('@' : Char).toNat = 64 := rfl
    have e2 : ('/' : Char).toNat = 47 := rfl
    omega
  obtain ⟨rfl, h3⟩ := split_unique (P := Between ' ' '/') h2 hq hq' (b2 hf) (b2 hg)
  cases h3
  exact ⟨rfl, rfl⟩

theorem sequence_ne {x : Str} (h : Sequence x) : x ≠ [] := by
  obtain ⟨i, p, q, f, rfl, _⟩ := h
  simp

theorem subF_cleaned : ∀ (n : Nat) (s : Str), s.length ≤ n → Cleaned s (subF n ansi s) := by
  intro n
  induction n with
  | zero =>
    intro s h
    cases s with
    | nil => exact .nil
    | cons c s => simp at h
  | succ n ih =>
    intro s h
    cases s with
    | nil => exact .nil
    | cons c s =>
      rw [subF]
      cases hr : Rx.rests ansi (c :: s) with
      | cons t ts =>
        obtain ⟨x, hx, hseq⟩ := mem_ansi.1 (show t ∈ Rx.rests ansi (c :: s) by rw [hr]; exact List.mem_cons_self)
        rw [hx]
        refine .drop hseq (ih t ?_)
        have := congrArg List.length hx
        have hp := List.length_pos_iff.2 (sequence_ne hseq)
        simp only [List.length_cons, List.length_append] at this h
        omega
      | nil =>
        refine .keep ?_ (ih s (by simp only [List.length_cons] at h; omega))
        rintro ⟨x, hseq, t, ht⟩
        have : t ∈ Rx.rests ansi (c :: s) := mem_ansi.2 ⟨x, ht.symm, hseq⟩
        rw [hr] at this
        cases this

theorem cleaned_unique {s r : Str} (h : Cleaned s r) : ∀ {r' : Str}, Cleaned s r' → r = r' := by
  induction h with
  | nil =>
    intro r' h'
    generalize hs : ([] : Str) = s at h'
    cases h' with
    | nil => rfl
    | drop hx _ =>
      have := congrArg List.length hs
      have hp := List.length_pos_iff.2 (sequence_ne hx)
      simp only [List.length_nil, List.length_append] at this
      omega
    | keep => cases hs
  | @drop x t r hx _ ih =>
    intro r' h'
    generalize hs : x ++ t = s at h'
    cases h' with
    | nil =>
      have := congrArg List.length hs
      have hp := List.length_pos_iff.2 (sequence_ne hx)
      simp only [List.length_nil, List.length_append] at this
      omega
    | drop hy h' =>
      obtain ⟨_, rfl⟩ := sequence_unique hx hy hs
      exact ih h'
    | keep hn _ => exact absurd ⟨x, hx, t, hs⟩ hn
  | @keep c t r hn _ ih =>
    intro r' h'
    generalize hs : c :: t = s at h'
    cases h' with
    | nil => cases hs
    | drop hy _ => exact absurd ⟨_, hy, _, hs.symm⟩ hn
    | keep _ h' =>
      cases hs
      rw [ih h']

theorem cleaned_iff {s r : Str} : Cleaned s r ↔ sub ansi s = r :=
  ⟨fun h => (cleaned_unique h (subF_cleaned _ _ (Nat.le_refl _))).symm, fun h => h ▸ subF_cleaned _ _ (Nat.le_refl _)⟩

theorem sequence_head {x : Str} (h : Sequence x) : ∃ c y, x = c :: y ∧ (c = '\x9b' ∨ c = '\x1b') := by
  obtain ⟨i, p, q, f, rfl, rfl | rfl, _⟩ := h
  · exact ⟨_, _, rfl, Or.inl rfl⟩
  · exact ⟨_, _, rfl, Or.inr rfl⟩

theorem cleaned_bare {t : Str} (ht : Bare t) : ∀ {u r : Str}, Cleaned u r → Cleaned (t ++ u) (t ++ r) := by
  induction t with
  | nil => intro u r h; exact h
  | cons c t ih =>
    intro u r h
    refine .keep ?_ (ih (fun d hd => ht d (List.mem_cons_of_mem _ hd)) h)
    rintro ⟨x, hx, v, hv⟩
    obtain ⟨d, y, rfl, hd⟩ := sequence_head hx
    have := ht c List.mem_cons_self
    simp only [List.cons_append, List.cons.injEq] at hv
    rw [hv.1] at hd
    rcases hd with rfl | rfl
    · exact this.1 rfl
    · exact this.2 rfl

theorem newline_not {x : Str} (h : Sequence x) : '\n' ∉ x := by
  obtain ⟨i, p, q, f, rfl, hi, hp, hq, hf⟩ := h
  have e : ('\n' : Char).toNat = 10 := rfl
  simp only [List.mem_append, List.mem_singleton, not_or]
  refine ⟨⟨⟨?_, fun h => ?_⟩, fun h => ?_⟩, fun h => ?_⟩
  · rcases hi with rfl | rfl <;> decide
  · have := (hp _ h).1
    revert this
    decide
  · have := (hq _ h).1
    revert this
    decide
  · subst h
    have := hf.1
    revert this
    decide

theorem prefix_newline {x t u : Str} (hx : '\n' ∉ x) : x <+: t ++ '\n' :: u ↔ x <+: t := by
  constructor
  · rintro ⟨v, hv⟩
    rw [List.append_eq_append_iff] at hv
    rcases hv with ⟨a, rfl, _⟩ | ⟨a, rfl, ha⟩
    · exact ⟨a, rfl⟩
    · cases a with
      | nil => exact ⟨[], by simp⟩
      | cons c a =>
        simp only [List.cons_append, List.cons.injEq] at ha
        rw [← ha.1] at hx
        exact absurd (by simp) hx
  · rintro ⟨v, rfl⟩
    exact ⟨v ++ '\n' :: u, by simp⟩

theorem cleaned_line {t r : Str} (h : Cleaned t r) {u r' : Str} (h' : Cleaned u r') :
    Cleaned (t ++ '\n' :: u) (r ++ '\n' :: r') := by
  induction h with
  | nil => exact cleaned_bare (t := ['\n']) (by intro c hc; rw [List.mem_singleton] at hc; subst hc; decide) h'
  | drop hx _ ih =>
    rw [List.append_assoc]
    exact .drop hx ih
  | @keep c t r hn _ ih =>
    refine .keep ?_ ih
    rintro ⟨x, hx, hp⟩
    exact hn ⟨x, hx, (prefix_newline (t := c :: t) (newline_not hx)).1 hp⟩

theorem cleaned_length {t r : Str} (h : Cleaned t r) : r.length ≤ t.length ∧ (r.length = t.length → r = t) := by
  induction h with
  | nil => exact ⟨Nat.le_refl _, fun _ => rfl⟩
  | @drop x t r hx _ ih =>
    have hp := List.length_pos_iff.2 (sequence_ne hx)
    have := ih.1
    rw [List.length_append]
    exact ⟨by omega, fun h => by omega⟩
  | keep _ _ ih =>
    simp only [List.length_cons]
    exact ⟨by have := ih.1; omega, fun h => by rw [ih.2 (by omega)]⟩

theorem comments_some (t : Str) : comments (some t) = some (sub ansi t) := by
  cases t <;> rfl

/-! ## Theorems -/

/-- **C103** The comments of a result are those it was made with, without the control sequences in them; there is one text that is
that. -/
theorem C103_cleaned (t r : Str) : comments (some t) = some r ↔ Cleaned t r := by
  rw [comments_some, cleaned_iff, Option.some.injEq]

example : comments (some "a\x1b[1;31mb\x9b?25 qc".toList) = some "abc".toList := by decide +kernel

/-- **C103** No comments remain no comments. -/
theorem C103_none (d : Option Str) : comments d = none ↔ d = none := by
  cases d with
  | none => exact ⟨fun _ => rfl, fun _ => rfl⟩
  | some t => rw [comments_some]; exact ⟨nofun, nofun⟩

/-- **C103** Nothing but control sequences is removed: what remains is there in the same order, and text between the sequences is
there whole. If every introducer begins a sequence, then no introducer remains. -/
theorem C103_pieces_partial (first : Str) (rest : List (Str × Str)) (h0 : Bare first)
    (hr : ∀ p ∈ rest, Sequence p.1 ∧ Bare p.2) :
    comments (some (first ++ rest.flatMap fun p => p.1 ++ p.2)) = some (first ++ rest.flatMap (·.2)) ∧
      Bare (first ++ rest.flatMap (·.2)) := by
  constructor
  · rw [C103_cleaned]
    refine cleaned_bare h0 ?_
    induction rest with
    | nil => exact .nil
    | cons p rest ih =>
      rw [List.flatMap_cons, List.flatMap_cons, List.append_assoc]
      have := hr p List.mem_cons_self
      exact .drop this.1 (cleaned_bare this.2 (ih fun q hq => hr q (List.mem_cons_of_mem _ hq)))
  · intro c hc
    rcases List.mem_append.1 hc with hc | hc
    · exact h0 c hc
    · obtain ⟨p, hp, hc⟩ := List.mem_flatMap.1 hc
      exact (hr p hp).2 c hc

example : Bare "a".toList ∧ (Sequence "\x1b[1;31m".toList ∧ Bare "b\n".toList) := by
  refine ⟨by unfold Bare; decide, ⟨['\x1b', '['], "1;31".toList, [], 'm', by decide, Or.inr rfl, ?_, by simp, ?_⟩,
    by unfold Bare; decide⟩
  · unfold Between; decide
  · unfold Between; decide

/-- **C103** Comments without introducers are unchanged. -/
theorem C103_plain {t : Str} (h : Bare t) : comments (some t) = some t := by
  have := (C103_pieces_partial t [] h nofun).1
  simpa using this

/-- **C103** Every comment that is added is cleaned on its own. -/
theorem C103_added (old : Option Str) (c r : Str) (h : Cleaned c r) :
    comments (addComment old c) = some (match comments old with
      | none => r
      | some t => t ++ '\n' :: r) := by
  cases old with
  | none => exact (C103_cleaned c r).2 h
  | some t =>
    rw [comments_some, addComment, C103_cleaned]
    exact cleaned_line (subF_cleaned _ _ (Nat.le_refl _)) h

example : comments (addComment (some "a\x1b[".toList) "mb".toList) = some "a\x1b[\nmb".toList := by decide +kernel

example : Cleaned "mb\x1b[2J".toList "mb".toList := (C103_cleaned _ _).1 (by decide +kernel)

/-- The session is suspended and resumed that many times. -/
def rounds : Nat → Option Str → Option Str
  | 0, d => d
  | n + 1, d => resumed (rounds n d)

/-- **C103** Comments that have no introducers, once they were cleaned, do not change when the session is suspended and resumed. -/
theorem C103_resumed_partial {d : Option Str} (h : ∀ t, comments d = some t → Bare t) (n : Nat) :
    comments (rounds n d) = comments d := by
  have hfix : comments (comments d) = comments d := by
    cases hc : comments d with
    | none => rfl
    | some t => exact C103_plain (h t hc)
  induction n with
  | zero => rfl
  | succ n ih => rw [rounds, resumed, ih, hfix]

example : ∀ t, comments (some "a\x1b[1mb".toList) = some t → Bare t := by
  intro t h
  rw [show comments (some "a\x1b[1mb".toList) = some "ab".toList from by decide +kernel] at h
  cases h
  unfold Bare
  decide

/-- **C103** Any comments do not change any more after the session was suspended and resumed as many times as they have
characters. -/
theorem C103_settled (t : Str) : ∀ n, t.length ≤ n → comments (rounds n (some t)) = rounds n (some t) := by
  have key : ∀ n, (∃ u, rounds n (some t) = some u ∧ u.length + n ≤ t.length) ∨
      comments (rounds n (some t)) = rounds n (some t) := by
    intro n
    induction n with
    | zero => exact Or.inl ⟨t, rfl, by omega⟩
    | succ n ih =>
      rcases ih with ⟨u, hu, hl⟩ | h
      · have hc := (C103_cleaned u (sub ansi u)).1 (comments_some u)
        have := cleaned_length hc
        have hs : rounds (n + 1) (some t) = some (sub ansi u) := by rw [rounds, resumed, hu, comments_some]
        by_cases he : (sub ansi u).length = u.length
        · right
          rw [hs, this.2 he, comments_some, this.2 he]
        · left
          exact ⟨_, hs, by have := this.1; omega⟩
      · right
        rw [rounds, resumed, h, h]
  intro n hn
  rcases key n with ⟨u, hu, hl⟩ | h
  · have : u = [] := List.length_eq_zero_iff.1 (by omega)
    rw [hu, this]
    rfl
  · exact h

/-! ## Violations -/

/-- **C103 (violated)** The comments may have a sequence that is made by removing another one; they change when the session is
suspended and resumed. -/
theorem C103_again_violated :
    comments (some "a\x1b\x1b[m[mb".toList) = some "a\x1b[mb".toList ∧
      comments (rounds 1 (some "a\x1b\x1b[m[mb".toList)) = some "ab".toList := by
  constructor <;> decide +kernel

/-- **C103 (violated)** Control characters that are not part of such a sequence remain, though the documentation says that they are
removed: the keys of a terminal in application mode, a bell, an introducer alone. -/
theorem C103_control_violated :
    comments (some "\x1bOA \x07 \x1b[1".toList) = some "\x1bOA \x07 \x1b[1".toList := by decide +kernel

end Verif.Comments
