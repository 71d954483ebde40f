import Verif.Lemmas.WordsParse

/-! # C28, C29: word lists, override statements and include statements

The specification of the word language (`Step`, `Gap`, `Item`, `render`, `openAt`) is in the first
part of `Verif/Lemmas/Words.lean` and in `Verif/Lemmas/WordsParse.lean`; it knows nothing about
positions, state stacks and rollback. -/

set_option linter.unusedSimpArgs false

namespace Verif.Words

/-- The word that an item stands for, if it is a word. -/
def Item.word? : Item → Option Str
  | .bare c w => some (c :: w)
  | .quoted w => some w
  | _ => none

instance (g : Gap) : Decidable g.Ok := by
  cases g <;> (unfold Gap.Ok; infer_instance)

instance (c : Char) : Decidable (BareStart c) := by unfold BareStart; infer_instance

instance (i : Item) : Decidable i.Ok := by
  cases i <;> (unfold Item.Ok; infer_instance)

/-! ## C28 -/

/-- C28, round trip: words, bare or quoted, with white space, comments and commas between them in any
arrangement, are read back in order and nothing else is. -/
theorem C28_round_trip (l : List (List Gap × Item)) (tail : List Gap) (h : WellWritten l tail)
    (hne : ∀ p ∈ l, p.2 ≠ .equals) (n : Nat) (hn : l.length < n) :
    wordList n (render l tail) = .ok ((l.filterMap fun p => p.2.word?).map .text) := by
  have ht := toks_render l tail h
  unfold wordList
  rw [wordLoop_toks ht (At.self _) (by simpa using hn), List.nil_append]
  congr 1
  clear h hn ht
  induction l with
  | nil => rfl
  | cons p l ih =>
    have ih := ih (fun q hq => hne q (List.mem_cons_of_mem _ hq))
    have hp := hne p List.mem_cons_self
    obtain ⟨g, i⟩ := p
    cases i with
    | bare c w => simpa [entriesOf, Item.tok, Item.word?] using ih
    | quoted w => simpa [entriesOf, Item.tok, Item.word?] using ih
    | comma => simpa [entriesOf, Item.tok, Item.word?] using ih
    | equals => exact absurd rfl hp

/-- `foo, "b r"` followed by a comment line and `x`. -/
example :
    let l : List (List Gap × Item) :=
      [([], .bare 'f' "oo".toList), ([], .comma), ([.ws ' '], .quoted "b r".toList),
       ([.ws ' ', .comment " c, \"d".toList], .bare 'x' [])]
    WellWritten l [.ws '\n'] ∧ (∀ p ∈ l, p.2 ≠ .equals) ∧
      render l [.ws '\n'] = "foo, \"b r\" # c, \"d\nx\n".toList ∧
      wordList 5 (render l [.ws '\n']) =
        .ok [.text "foo".toList, .text "b r".toList, .text "x".toList] := by
  refine ⟨⟨?_, ?_, ?_⟩, ?_, by decide, by decide +kernel⟩
  · decide +kernel
  · decide +kernel
  · simp [Spaced, Item.isBare, Item.isWord]
  · simp

theorem wordLoop_next {text : Str} {pos p : Nat} {t : Tok} {l : Option Str} {acc : List Entry}
    (hg : getToken text pos = .ok (t, l, p)) (ht : t ≠ .eof) :
    ∃ acc', ∀ n, wordLoop text (n + 1) pos acc = wordLoop text n p acc' := by
  by_cases hc : t = .comma
  · exact ⟨acc, fun n => by rw [wordLoop, hg]; simp [Except.bind, hc]⟩
  · by_cases hw : t = .word
    · exact ⟨acc ++ [.text (l.getD [])], fun n => by
        rw [wordLoop, hg]; simp only [Except.bind, if_neg ht, if_neg hc, if_pos hw]⟩
    · exact ⟨acc ++ [.error l], fun n => by
        rw [wordLoop, hg]; simp only [Except.bind, if_neg ht, if_neg hc, if_neg hw]⟩

/-- C28, termination when every quote is closed: parsing returns, and every entry that is not a word
is an error about an equals sign. -/
theorem C28_closed_returns (text : Str) (h : openAt .start none text = none) :
    ∃ es, (∀ n, text.length < n → wordList n text = .ok es) ∧
      ∀ e ∈ es, (∃ w, e = .text w) ∨ e = .error (some ['=']) := by
  obtain ⟨ts, hts⟩ := toks_of_closed _ text none (Nat.le_refl _) h
  have hl := toks_length hts
  refine ⟨entriesOf ts, fun n hn => ?_, ?_⟩
  · unfold wordList
    rw [wordLoop_toks hts (At.self _) (by omega), List.nil_append]
  · clear hl h
    induction hts with
    | done _ _ => simp [entriesOf]
    | @cons rest r t l r' ts hs hst ht hts ih =>
      intro e he
      unfold entriesOf at he
      split at he
      · exact ih e he
      · rename_i hc
        split at he
        · rcases List.mem_cons.1 he with rfl | he
          · exact .inl ⟨_, rfl⟩
          · exact ih e he
        · rename_i hw
          rcases List.mem_cons.1 he with rfl | he
          · right
            cases hst <;> first | rfl | (exfalso; simp_all [Tok.irrelevant])
          · exact ih e he

example : openAt .start none "a=\"b c\", d # \"".toList = none := by decide +kernel

/-- C28 is violated: a quote opened at the very beginning and never closed raises AssertionError. -/
theorem C28_open_at_start_raises (text : Str) (h : openAt .start none text = some none) (n : Nat) :
    wordList (n + 1) text = .error .assertion := by
  have hq : OpenQuote text := by
    rcases step_total text with h1 | h1 | ⟨t, l, r, h1⟩
    · rw [openAt_end h1] at h; cases h
    · exact h1
    · exfalso
      obtain ⟨w, c, _, hp, h3⟩ := openAt_step h1 none
      rw [h3] at h
      -- after one token the character before is known for good
      have key : ∀ (m : Nat) (rest : Str) (c : Char), rest.length ≤ m →
          openAt .start (some c) rest ≠ some none := by
        intro m
        induction m with
        | zero =>
          intro rest c hm
          have : rest = [] := List.length_eq_zero_iff.1 (by omega)
          subst this
          simp [openAt]
        | succ m ih =>
          intro rest c hm
          rcases step_total rest with h1 | h1 | ⟨t, l, r, h1⟩
          · rw [openAt_end h1]; simp
          · rw [openAt_open h1]; simp
          · obtain ⟨w, d, _, _, h3⟩ := openAt_step h1 (some c)
            rw [h3]
            exact ih r d (by have := h1.shorter; omega)
      exact key _ r c (Nat.le_refl _) h
  obtain ⟨p', hat, _, _, hg⟩ := get_open (At.self text) (.refl _) hq
  have h0 : p' = 0 := by have := hat.le; omega
  rw [if_pos h0] at hg
  unfold wordList
  rw [wordLoop, hg]
  rfl

/-- C28 is violated: when the quote that is never closed comes later, after white space, a comma or
an equals sign, the parser never returns. -/
theorem C28_open_later_diverges (text : Str) (c : Char) (hc : c ≠ '"') (hn : c ≠ nul)
    (h : openAt .start none text = some (some c)) (n : Nat) :
    wordList n text = .error .diverge := by
  have key : ∀ (n pos : Nat) (rest : Str) (p) (acc), AtP text rest pos p → PrevOk p rest →
      openAt .start p rest = some (some c) → wordLoop text n pos acc = .error .diverge := by
    intro n
    induction n with
    | zero => intros; rfl
    | succ n ih =>
      intro pos rest p acc hat hp ho
      obtain ⟨r, hs, hr⟩ := skip_total _ rest (Nat.le_refl _)
      obtain ⟨p', ho', hp', hat'⟩ := openAt_skips hs p hat hp
      rw [ho'] at ho
      rcases hr with hr | hr | ⟨t, l, r', hr, ht⟩
      · rw [openAt_end hr] at ho; cases ho
      · rw [openAt_open hr] at ho
        cases ho
        obtain ⟨q, hq, _, _, hg⟩ := get_open hat.at hs hr
        obtain ⟨pre, hpre, hpos, hlast⟩ := hat' q hq
        obtain ⟨pre', rfl⟩ : ∃ pre', pre = pre' ++ [c] := by
          rcases List.eq_nil_or_concat pre with rfl | ⟨pre', d, rfl⟩
          · cases hlast
          · rw [List.concat_eq_append] at hlast ⊢
            simp at hlast
            exact ⟨pre', by rw [hlast]⟩
        have hq0 : q ≠ 0 := by rw [hpos]; simp
        rw [if_neg hq0] at hg
        obtain ⟨acc', ha⟩ := wordLoop_next (acc := acc) hg (by simp)
        rw [ha]
        have hcd : Text.isSpace c = true ∨ c = ',' ∨ c = '=' := by
          rcases hp' c rfl with h | h | h | h | h | h | h
          · obtain ⟨w, _, hw | ⟨_, hw⟩⟩ := hr <;> simp [h] at hw
          · exact .inl h
          · exact .inr (.inl h)
          · exact .inr (.inr h)
          · exact absurd h hc
          · exact absurd h hn
          · exfalso
            refine h '"' ?_ ⟨by decide, by decide, by decide, by decide, by decide⟩
            obtain ⟨w, _, rfl | ⟨_, rfl⟩⟩ := hr <;> rfl
        refine ih (q - 1) (c :: r) pre'.getLast? acc' ⟨pre', by simpa using hpre, ?_, rfl⟩ ?_ ?_
        · rw [hpos]; simp
        · intro d _
          refine .inr (.inr (.inr (.inr (.inr (.inr ?_)))))
          intro e he
          simp at he
          subst he
          intro hb
          rcases hcd with h | h | h
          · rw [hb.1] at h; cases h
          · exact hb.2.2.2.1 h
          · exact hb.2.2.2.2 h
        · have : openAt .start pre'.getLast? (c :: r) = openAt .start (some c) r := by
            have h2 : c ≠ '#' := by
              rintro rfl; revert hcd; decide
            rw [openAt, if_neg hn, if_neg h2, if_neg hc, if_pos hcd]
          rw [this, openAt_open hr]
      · obtain ⟨q, hg, hq⟩ := get_step hat.at hs hr ht
        obtain ⟨acc', ha⟩ := wordLoop_next (acc := acc) hg hr.not_eof.1
        rw [ha]
        obtain ⟨w, d, h1, h2, h3⟩ := openAt_step hr p'
        have hat1 : At text r (text.length - r.length) := by
          obtain ⟨m, pp, hpp, _⟩ := skip_aux hs (rest.length + 1) pos hat.at (by omega)
          have := hpp.le
          have : text.length - r.length = pp := by omega
          rw [this]; exact hpp
        refine ih q r' (some d) acc' (hat1.atP h1 hq) h2 ?_
        rw [← h3, ho]
  exact key n 0 text none [] ⟨[], rfl, rfl, rfl⟩ (fun _ h => by cases h) h

/-- The word list `a "b` makes the parser run for ever, and `"b` makes it raise. -/
theorem C28_violated :
    (∀ n, wordList n "a \"b".toList = .error .diverge) ∧
    (∀ n, wordList (n + 1) "\"b".toList = .error .assertion) :=
  ⟨C28_open_later_diverges _ ' ' (by decide) (by decide) (by decide +kernel),
   C28_open_at_start_raises _ (by decide +kernel)⟩

theorem openAt_no_quote : ∀ (w : Str), (∀ c ∈ w, c ≠ '"' ∧ c ≠ nul) → ∀ (m : Mode) (p),
    (∀ q, m ≠ .quoted q) → openAt m p w = none := by
  intro w
  induction w with
  | nil => intro _ m p hm; cases m <;> first | rfl | exact absurd rfl (hm _)
  | cons c w ih =>
    intro hw m p hm
    have hc := hw c (by simp)
    have ih := ih (fun d hd => hw d (List.mem_cons_of_mem _ hd))
    cases m with
    | start =>
      simp only [openAt, if_neg hc.1, if_neg hc.2]
      split
      · exact ih _ _ (by simp)
      · split <;> exact ih _ _ (by simp)
    | bare =>
      simp only [openAt, if_neg hc.2]
      split
      · exact ih _ _ (by simp)
      · split <;> exact ih _ _ (by simp)
    | comment =>
      simp only [openAt]
      split <;> exact ih _ _ (by simp)
    | quoted q => exact absurd rfl (hm q)

/-- An open quote right after a closing quote is read again from that closing quote, and the parser
returns. -/
theorem C28_open_after_quote_returns (text : Str) (hnul : nul ∉ text)
    (h : openAt .start none text = some (some '"')) :
    ∃ N es, ∀ n, N ≤ n → wordList n text = .ok es := by
  have key : ∀ (m pos : Nat) (rest : Str) (p) (acc), rest.length ≤ m → AtP text rest pos p →
      PrevOk p rest → openAt .start p rest = some (some '"') →
      ∃ N es, ∀ n, N ≤ n → wordLoop text n pos acc = .ok es := by
    intro m
    induction m with
    | zero =>
      intro pos rest p acc hm _ _ ho
      have : rest = [] := List.length_eq_zero_iff.1 (by omega)
      subst this
      simp [openAt] at ho
    | succ m ih =>
      intro pos rest p acc hm hat hp ho
      obtain ⟨r, hs, hr⟩ := skip_total _ rest (Nat.le_refl _)
      obtain ⟨p', ho', hp', hat'⟩ := openAt_skips hs p hat hp
      rw [ho'] at ho
      rcases hr with hr | hr | ⟨t, l, r', hr, ht⟩
      · rw [openAt_end hr] at ho; cases ho
      · rw [openAt_open hr] at ho
        cases ho
        obtain ⟨q, hq, _, _, hg⟩ := get_open hat.at hs hr
        obtain ⟨pre, hpre, hpos, hlast⟩ := hat' q hq
        obtain ⟨pre', rfl⟩ : ∃ pre', pre = pre' ++ ['"'] := by
          rcases List.eq_nil_or_concat pre with rfl | ⟨pre', d, rfl⟩
          · cases hlast
          · rw [List.concat_eq_append] at hlast ⊢
            simp at hlast
            exact ⟨pre', by rw [hlast]⟩
        have hq0 : q ≠ 0 := by rw [hpos]; simp
        rw [if_neg hq0] at hg
        obtain ⟨acc', ha⟩ := wordLoop_next (acc := acc) hg (by simp)
        obtain ⟨w, hw, hr'⟩ := hr
        have hrw : r = '"' :: w := by
          rcases hr' with h | ⟨r1, h⟩
          · exact h
          · exfalso
            apply hnul
            rw [hpre, h]
            simp
        subst hrw
        have hcl : openAt .start pre'.getLast? ('"' :: '"' :: w) = none := by
          rw [openAt, if_neg (by decide), if_neg (by decide), if_pos rfl, openAt, if_pos rfl]
          exact openAt_no_quote w hw .start _ (by simp)
        obtain ⟨ts, hts⟩ := toks_of_closed _ _ _ (Nat.le_refl _) hcl
        have hat2 : At text ('"' :: '"' :: w) (q - 1) :=
          ⟨pre', by simpa using hpre, by rw [hpos]; simp⟩
        refine ⟨ts.length + 2, acc' ++ entriesOf ts, ?_⟩
        intro n hn
        obtain ⟨n', rfl⟩ : ∃ n', n = n' + 1 := ⟨n - 1, by omega⟩
        rw [ha, wordLoop_toks hts hat2 (by omega)]
      · obtain ⟨q, hg, hq⟩ := get_step hat.at hs hr ht
        obtain ⟨acc', ha⟩ := wordLoop_next (acc := acc) hg hr.not_eof.1
        obtain ⟨w, d, h1, h2, h3⟩ := openAt_step hr p'
        have hat1 : At text r (text.length - r.length) := by
          obtain ⟨m, pp, hpp, _⟩ := skip_aux hs (rest.length + 1) pos hat.at (by omega)
          have := hpp.le
          have : text.length - r.length = pp := by omega
          rw [this]; exact hpp
        have hl1 := hs.shorter
        have hl2 := hr.shorter
        obtain ⟨N, es, hN⟩ := ih q r' (some d) acc' (by omega) (hat1.atP h1 hq) h2 (by rw [← h3, ho])
        refine ⟨N + 1, es, ?_⟩
        intro n hn
        obtain ⟨n', rfl⟩ : ∃ n', n = n' + 1 := ⟨n - 1, by omega⟩
        rw [ha, hN n' (by omega)]
  exact key _ 0 text none [] (Nat.le_refl _) ⟨[], rfl, rfl, rfl⟩ (fun _ h => by cases h) h

/-- Such a text: the two words `a` and `b` become three and an error. -/
example : openAt .start none "\"a\"\"b".toList = some (some '"') ∧
    wordList 10 "\"a\"\"b".toList =
      .ok [.text ['a'], .error none, .text [], .text ['b']] := by decide +kernel

/-- C28, partial: parsing a text (without NUL characters) returns exactly when no quote is left open,
or the open quote directly follows a closing quote. The property says it always returns. -/
theorem C28_terminates_partial (text : Str) (hnul : nul ∉ text) :
    (∃ n es, wordList n text = .ok es) ↔
      openAt .start none text = none ∨ openAt .start none text = some (some '"') := by
  constructor
  · rintro ⟨n, es, h⟩
    rcases ho : openAt .start none text with _ | _ | c
    · exact .inl rfl
    · exfalso
      cases n with
      | zero => cases h
      | succ n => rw [C28_open_at_start_raises text ho] at h; cases h
    · by_cases hc : c = '"'
      · exact .inr (by rw [hc])
      · exfalso
        by_cases hn : c = nul
        · have key : ∀ (m : Nat) (rest : Str) (p), rest.length ≤ m → nul ∉ rest → p ≠ some nul →
              openAt .start p rest ≠ some (some nul) := by
            intro m
            induction m with
            | zero =>
              intro rest p hm _ _
              have : rest = [] := List.length_eq_zero_iff.1 (by omega)
              subst this
              simp [openAt]
            | succ m ih =>
              intro rest p hm hnr hp
              rcases step_total rest with h1 | h1 | ⟨t, l, r, h1⟩
              · rw [openAt_end h1]; simp
              · rw [openAt_open h1]; simpa using hp
              · obtain ⟨w, d, he, _, h3⟩ := openAt_step h1 p
                rw [h3]
                refine ih r (some d) (by have := h1.shorter; omega) ?_ ?_
                · intro hr; apply hnr; rw [he]; simp [hr]
                · intro hd; apply hnr; rw [he]; simp at hd; simp [hd]
          rw [hn] at ho
          exact key _ text none (Nat.le_refl _) hnul (by simp) ho
        · rw [C28_open_later_diverges text c hc hn ho] at h
          cases h
  · rintro (h | h)
    · obtain ⟨es, hes, _⟩ := C28_closed_returns text h
      exact ⟨_, es, hes _ (Nat.lt_succ_self _)⟩
    · obtain ⟨N, es, hes⟩ := C28_open_after_quote_returns text hnul h
      exact ⟨N, es, hes N (Nat.le_refl _)⟩

/-! ## C29, override statements -/

def apply' : Str := "apply".toList
def to' : Str := "to".toList

theorem reParse_ok {kind : Str → ReKind} {s : Str} (h : kind s ≠ .overflow) :
    reParse kind s = .ok ⟨kind s, s⟩ := by
  unfold reParse
  cases hk : kind s <;> first | rfl | exact absurd hk h

theorem reParse_cases (kind : Str → ReKind) (s : Str) :
    (kind s ≠ .overflow ∧ reParse kind s = .ok ⟨kind s, s⟩) ∨
    (kind s = .overflow ∧ reParse kind s = .error .overflow) := by
  by_cases h : kind s = .overflow
  · exact .inr ⟨h, by simp [reParse, h]⟩
  · exact .inl ⟨h, reParse_ok h⟩

/-- C29: `apply V to P`, with every word bare or quoted and any white space and comments, yields the
value V and the pattern P. -/
theorem C29_override (kind : Str → ReKind) (l : List (List Gap × Item)) (tail : List Gap)
    (V P : Str) (h : WellWritten l tail)
    (hl : l.map (fun p => p.2.word?) = [some apply', some V, some to', some P])
    (hk : kind P ≠ .overflow) :
    fieldOverride kind (render l tail) = .ok (.node ⟨V, ⟨kind P, P⟩⟩) := by
  have ht := toks_render l tail h
  have htoks : l.map (fun p => p.2.tok) =
      [(.word, apply'), (.word, V), (.word, to'), (.word, P)] := by
    have hi : ∀ i : Item, ∀ w, i.word? = some w → i.tok = (.word, w) := by
      intro i w hw
      cases i <;> simp [Item.word?] at hw <;> simp [Item.tok, hw]
    have hm : l.map (fun p => p.2.tok) =
        (l.map fun p => p.2.word?).map fun o => (Tok.word, o.getD []) := by
      rw [List.map_map]
      apply List.map_congr_left
      intro p hp
      have : p.2.word? ∈ l.map fun p => p.2.word? := List.mem_map_of_mem hp
      rw [hl] at this
      obtain ⟨w, hw⟩ : ∃ w, p.2.word? = some w := by
        simp only [List.mem_cons, List.not_mem_nil, or_false] at this
        rcases this with h | h | h | h <;> exact ⟨_, h⟩
      simp [hi _ _ hw, hw]
    rw [hm, hl]
    rfl
  rw [htoks] at ht
  generalize render l tail = text at ht
  obtain ⟨p1, r1, g1, a1, t1, _⟩ := get_toks_cons (At.self text) ht
  obtain ⟨p2, r2, g2, a2, t2, _⟩ := get_toks_cons a1 t1
  obtain ⟨p3, r3, g3, a3, t3, _⟩ := get_toks_cons a2 t2
  obtain ⟨p4, r4, g4, a4, t4, _⟩ := get_toks_cons a3 t3
  obtain ⟨p5, g5⟩ := get_toks_nil a4 t4
  simp only [fieldOverride, g1, g2, g3, g4, g5, Except.bind, apply', to', reParse_ok hk, ne_eq,
    not_true_eq_false, or_self, ↓reduceIte, Option.getD_some]

/-- `apply "a b" to usb.*` -/
example :
    let l : List (List Gap × Item) :=
      [([], .bare 'a' "pply".toList), ([.ws ' '], .quoted "a b".toList), ([.ws ' '], .bare 't' ['o']),
       ([.ws ' '], .bare 'u' "sb.*".toList)]
    WellWritten l [] ∧ render l [] = "apply \"a b\" to usb.*".toList ∧
    l.map (fun p => p.2.word?) =
      [some apply', some "a b".toList, some to', some "usb.*".toList] := by
  refine ⟨⟨?_, by simp, ?_⟩, by decide, by decide⟩
  · decide +kernel
  · simp [Spaced, Item.isBare, Item.isWord]

/-- C29, the converse: a node is only made from the four words `apply V to P` and nothing more. So
any other text yields an error node or an exception. -/
theorem C29_override_only (kind : Str → ReKind) (text : Str) (o : Override)
    (h : fieldOverride kind text = .ok (.node o)) :
    Toks text [(.word, apply'), (.word, o.value), (.word, to'), (.word, o.pattern.text)] ∧
      o.pattern.kind = kind o.pattern.text := by
  unfold fieldOverride at h
  rcases get_cases (At.self text) with ⟨p, g, _⟩ | ⟨t, l, r1, p1, g1, _, _, _, a1, _, _, k1⟩ |
    ⟨p, g, _⟩ | ⟨g, _⟩
  · simp [g, Except.bind] at h
  · rw [g1] at h
    simp only [Except.bind] at h
    split at h
    · cases h
    rename_i h1
    simp only [not_or, ne_eq, Classical.not_not] at h1
    rcases get_cases a1 with ⟨p, g, _⟩ | ⟨t2, l2, r2, p2, g2, _, _, _, a2, _, _, k2⟩ |
      ⟨p, g, _⟩ | ⟨g, _⟩
    · simp [g, Except.bind] at h
    · rw [g2] at h
      simp only at h
      split at h
      · cases h
      rename_i h2
      simp only [ne_eq, Classical.not_not] at h2
      rcases get_cases a2 with ⟨p, g, _⟩ | ⟨t3, l3, r3, p3, g3, _, _, _, a3, _, _, k3⟩ |
        ⟨p, g, _⟩ | ⟨g, _⟩
      · simp [g, Except.bind] at h
      · rw [g3] at h
        simp only at h
        split at h
        · cases h
        rename_i h3
        simp only [not_or, ne_eq, Classical.not_not] at h3
        rcases get_cases a3 with ⟨p, g, _⟩ | ⟨t4, l4, r4, p4, g4, _, _, _, a4, _, _, k4⟩ |
          ⟨p, g, _⟩ | ⟨g, _⟩
        · simp [g, Except.bind] at h
        · rw [g4] at h
          simp only at h
          split at h
          · cases h
          rename_i h4
          simp only [ne_eq, Classical.not_not] at h4
          rcases reParse_cases kind l4 with ⟨hk, hre⟩ | ⟨hk, hre⟩
          · simp only [Option.getD_some, hre] at h
            rcases get_cases a4 with ⟨p, g, k5⟩ | ⟨t5, l5, r5, p5, g5, ht5, _⟩ |
              ⟨p, g, _⟩ | ⟨g, _⟩
            · simp only [g, ne_eq, not_true_eq_false, ↓reduceIte, Except.ok.injEq,
                Node.node.injEq] at h
              subst h
              refine ⟨?_, rfl⟩
              have e1 := k1 _ (k2 _ (k3 _ (k4 _ k5)))
              rw [h1.1, h2, h3.1, h4] at e1
              have l1 : l = apply' := Option.some.inj h1.2
              have l3 : l3 = to' := Option.some.inj h3.2
              rw [l1, l3] at e1
              exact e1
            · simp [g5, ht5] at h
            · simp [g] at h
            · simp [g] at h
          · simp [hre] at h
        · simp [g] at h
        · simp [g] at h
      · simp [g] at h
      · simp [g] at h
    · simp [g] at h
    · simp [g] at h
  · simp [g, Except.bind] at h
  · simp [g, Except.bind] at h

/-- C29, partial: the only exceptions are the AssertionError for a text that begins with an open
quote and the OverflowError of a pattern with an enormous repetition count. The property says that
there are none. -/
theorem C29_override_raises_partial (kind : Str → ReKind) (text : Str) (e : Exc)
    (h : fieldOverride kind text = .error e) :
    (e = .assertion ∧ OpenQuote text) ∨ (e = .overflow ∧ ∃ P, kind P = .overflow) := by
  have pos_case : ∀ {p r}, At text r p → 0 < p → (∃ x, getToken text p = .ok x) ∧
      ∀ t l q, getToken text p = .ok (t, l, q) → t = .word → 0 < q ∧ ∃ r, At text r q := by
    intro p r ha hp
    rcases get_cases ha with ⟨q, g, _⟩ | ⟨t2, l2, r2, p2, g2, _, _, _, a2, hp2, _, _⟩ |
      ⟨q, g, _⟩ | ⟨g, h0, _⟩
    · refine ⟨⟨_, g⟩, fun t l q' hq ht => ?_⟩
      rw [g] at hq; cases hq; cases ht
    · refine ⟨⟨_, g2⟩, fun t l q' hq ht => ?_⟩
      rw [g2] at hq; cases hq; exact ⟨hp2, _, a2⟩
    · refine ⟨⟨_, g⟩, fun t l q' hq ht => ?_⟩
      rw [g] at hq; cases hq; cases ht
    · omega
  unfold fieldOverride at h
  rcases get_cases (At.self text) with ⟨p, g, _⟩ | ⟨t, l, r1, p1, g1, _, _, _, a1, hp1, _, k1⟩ |
    ⟨p, g, _⟩ | ⟨g, _, hq⟩
  · simp [g, Except.bind] at h
  · rw [g1] at h
    simp only [Except.bind] at h
    split at h
    · cases h
    obtain ⟨⟨⟨t2, l2, p2⟩, g2⟩, n2⟩ := pos_case a1 hp1
    rw [g2] at h
    simp only at h
    split at h
    · cases h
    rename_i h2
    obtain ⟨hp2, r2, a2⟩ := n2 _ _ _ g2 (by simpa using h2)
    obtain ⟨⟨⟨t3, l3, p3⟩, g3⟩, n3⟩ := pos_case a2 hp2
    rw [g3] at h
    simp only at h
    split at h
    · cases h
    rename_i h3
    simp only [not_or, ne_eq, Classical.not_not] at h3
    obtain ⟨hp3, r3, a3⟩ := n3 _ _ _ g3 h3.1
    obtain ⟨⟨⟨t4, l4, p4⟩, g4⟩, n4⟩ := pos_case a3 hp3
    rw [g4] at h
    simp only at h
    split at h
    · cases h
    rename_i h4
    obtain ⟨hp4, r4, a4⟩ := n4 _ _ _ g4 (by simpa using h4)
    rcases reParse_cases kind (l4.getD []) with ⟨hk, hre⟩ | ⟨hk, hre⟩
    · rw [hre] at h
      obtain ⟨⟨⟨t5, l5, p5⟩, g5⟩, _⟩ := pos_case a4 hp4
      rw [g5] at h
      simp only at h
      split at h <;> cases h
    · rw [hre] at h
      cases h
      exact .inr ⟨rfl, _, hk⟩
  · simp [g, Except.bind] at h
  · rw [g] at h
    cases h
    exact .inl ⟨rfl, hq⟩

/-- C29 is violated: a text that begins with an open quote raises in both parsers. -/
theorem C29_open_quote_raises (kind : Str → ReKind) (text : Str) (h : OpenQuote text) :
    fieldOverride kind text = .error .assertion ∧ includeStmt kind text = .error .assertion := by
  obtain ⟨p', hat, _, _, hg⟩ := get_open (At.self text) (.refl _) h
  have h0 : p' = 0 := by have := hat.le; omega
  rw [if_pos h0] at hg
  constructor
  · simp [fieldOverride, hg, Except.bind]
  · simp [includeStmt, hg, Except.bind]

theorem C29_violated (kind : Str → ReKind) :
    fieldOverride kind "\"apply x to y".toList = .error .assertion ∧
    includeStmt kind "\"usb f=v".toList = .error .assertion :=
  ⟨(C29_open_quote_raises kind _ ⟨"apply x to y".toList, by decide +kernel, .inl rfl⟩).1,
   (C29_open_quote_raises kind _ ⟨"usb f=v".toList, by decide +kernel, .inl rfl⟩).2⟩

/-! ## C29, include statements -/

/-- The tokens of `F1=V1, F2=V2, …`. -/
def pairToks : List (Str × Str) → List (Tok × Str)
  | [] => []
  | [(f, v)] => [(.word, f), (.equals, ['=']), (.word, v)]
  | (f, v) :: q :: l =>
    (.word, f) :: (.equals, ['=']) :: (.word, v) :: (.comma, [',']) :: pairToks (q :: l)

theorem include_toks {text : Str} {re : Re} : ∀ (l : List (Str × Str)) {n : Nat} {i0 : Bool}
    {pos : Nat} {rest : Str} {acc : List (Str × Str)}, l.length < n → (l = [] → i0 = true) →
    At text rest pos → Toks rest (pairToks l) →
    includeLoop text re n i0 pos acc = .ok (.node ⟨re, acc ++ l⟩) := by
  intro l
  induction l with
  | nil =>
    intro n i0 pos rest acc hn hi hat ht
    cases n with
    | zero => simp at hn
    | succ n =>
      obtain ⟨p, g⟩ := get_toks_nil hat ht
      rw [includeLoop, g]
      simp [Except.bind, hi rfl]
  | cons q l ih =>
    intro n i0 pos rest acc hn _ hat ht
    obtain ⟨f, v⟩ := q
    cases n with
    | zero => simp at hn
    | succ n =>
      cases l with
      | nil =>
        obtain ⟨p1, r1, g1, a1, t1, _⟩ := get_toks_cons hat ht
        obtain ⟨p2, r2, g2, a2, t2, _⟩ := get_toks_cons a1 t1
        obtain ⟨p3, r3, g3, a3, t3, _⟩ := get_toks_cons a2 t2
        obtain ⟨p4, g4⟩ := get_toks_nil a3 t3
        rw [includeLoop, g1]
        simp [Except.bind, g2, g3, g4]
      | cons q' l =>
        obtain ⟨p1, r1, g1, a1, t1, _⟩ := get_toks_cons hat ht
        obtain ⟨p2, r2, g2, a2, t2, _⟩ := get_toks_cons a1 t1
        obtain ⟨p3, r3, g3, a3, t3, _⟩ := get_toks_cons a2 t2
        obtain ⟨p4, r4, g4, a4, t4, _⟩ := get_toks_cons a3 t3
        rw [includeLoop, g1]
        simp only [Except.bind, g2, g3, g4, reduceCtorEq, false_and, ↓reduceIte, ne_eq,
          not_true_eq_false, Option.getD_some]
        rw [ih (by simp at hn ⊢; omega) (by simp) a4 t4]
        simp

theorem pairToks_length (l : List (Str × Str)) : l.length ≤ (pairToks l).length := by
  induction l with
  | nil => simp
  | cons q l ih =>
    obtain ⟨f, v⟩ := q
    cases l with
    | nil => simp [pairToks]
    | cons q' l => simp [pairToks] at ih ⊢; omega

/-- C29: `P F1=V1, F2=V2, …`, with every word bare or quoted and any white space and comments, yields
the pattern and the overrides in order. -/
theorem C29_include (kind : Str → ReKind) (l : List (List Gap × Item)) (tail : List Gap) (P : Str)
    (fs : List (Str × Str)) (h : WellWritten l tail)
    (hl : l.map (fun p => p.2.tok) = (.word, P) :: pairToks fs) (hk : kind P ≠ .overflow) :
    includeStmt kind (render l tail) = .ok (.node ⟨⟨kind P, P⟩, fs⟩) := by
  have ht := toks_render l tail h
  rw [hl] at ht
  generalize render l tail = text at ht
  have hlen := toks_length ht
  obtain ⟨p1, r1, g1, a1, t1, _⟩ := get_toks_cons (At.self text) ht
  unfold includeStmt
  simp only [g1, Except.bind, ne_eq, not_true_eq_false, ↓reduceIte, Option.getD_some,
    reParse_ok hk]
  have := pairToks_length fs
  rw [include_toks fs (by simp at hlen; omega) (by simp) a1 t1]
  rfl

/-- `usb.* f1="o 1", f2=o2` -/
example :
    let l : List (List Gap × Item) :=
      [([], .bare 'u' "sb.*".toList), ([.ws ' '], .bare 'f' ['1']), ([], .equals),
       ([], .quoted "o 1".toList), ([], .comma), ([.ws ' '], .bare 'f' ['2']), ([], .equals),
       ([], .bare 'o' ['2'])]
    WellWritten l [] ∧ render l [] = "usb.* f1=\"o 1\", f2=o2".toList ∧
    l.map (fun p => p.2.tok) = (.word, "usb.*".toList) ::
      pairToks [("f1".toList, "o 1".toList), ("f2".toList, "o2".toList)] := by
  refine ⟨⟨?_, by simp, ?_⟩, by decide, by decide⟩
  · decide +kernel
  · simp [Spaced, Item.isBare, Item.isWord]

/-- Which lexeme the punctuation tokens carry. -/
theorem punct_lexeme {rest t l ts} (h : Toks rest ((t, l) :: ts)) :
    (t = .equals → l = ['=']) ∧ (t = .comma → l = [',']) := by
  cases h with
  | cons _ hst _ _ => cases hst <;> simp

theorem include_only {text : Str} {re : Re} : ∀ (n : Nat) {i0 : Bool}
    {pos : Nat} {rest : Str} {acc : List (Str × Str)} {o : Include}, At text rest pos → 0 < pos →
    includeLoop text re n i0 pos acc = .ok (.node o) →
    ∃ fs, o = ⟨re, acc ++ fs⟩ ∧ Toks rest (pairToks fs) ∧ (i0 = false → fs ≠ []) := by
  intro n
  induction n with
  | zero => intro i0 pos rest acc o _ _ h; cases h
  | succ n ih =>
    intro i0 pos rest acc o hat hpos h
    rw [includeLoop] at h
    rcases get_cases hat with ⟨p, g, k⟩ | ⟨t1, l1, r1, p1, g1, ht1, _, _, a1, hp1, _, k1⟩ |
      ⟨p, g, _⟩ | ⟨g, h0, _⟩
    · rw [g] at h
      cases i0
      · simp [Except.bind] at h
      · simp only [Except.bind, and_self, ↓reduceIte, Except.ok.injEq, Node.node.injEq] at h
        exact ⟨[], by rw [← h]; simp, k, by simp⟩
    · rw [g1] at h
      simp only [Except.bind, ht1, false_and, ↓reduceIte] at h
      split at h
      · cases h
      rename_i h1
      simp only [ne_eq, Classical.not_not] at h1
      rcases get_cases a1 with ⟨p, g, k⟩ | ⟨t2, l2, r2, p2, g2, _, _, _, a2, hp2, _, k2⟩ |
        ⟨p, g, _⟩ | ⟨g, h0, _⟩
      · simp [g] at h
      · rw [g2] at h
        simp only at h
        split at h
        · cases h
        rename_i h2
        simp only [ne_eq, Classical.not_not] at h2
        rcases get_cases a2 with ⟨p, g, k⟩ | ⟨t3, l3, r3, p3, g3, _, _, _, a3, hp3, _, k3⟩ |
          ⟨p, g, _⟩ | ⟨g, h0, _⟩
        · simp [g] at h
        · rw [g3] at h
          simp only at h
          split at h
          · cases h
          rename_i h3
          simp only [ne_eq, Classical.not_not] at h3
          subst h1 h2 h3
          rcases get_cases a3 with ⟨p, g, k⟩ | ⟨t4, l4, r4, p4, g4, ht4, _, _, a4, hp4, _, k4⟩ |
            ⟨p, g, _⟩ | ⟨g, h0, _⟩
          · rw [g] at h
            simp at h
            refine ⟨[(l1, l3)], by rw [← h], ?_, by simp⟩
            have := k1 _ (k2 _ (k3 _ k))
            have e2 := (punct_lexeme (k2 _ (k3 _ k))).1 rfl
            rw [e2] at this
            exact this
          · rw [g4] at h
            simp only [Option.getD_some] at h
            split at h
            · rename_i h4
              obtain ⟨fs, ho, hts, hne⟩ := ih a4 hp4 h
              cases fs with
              | nil => exact absurd rfl (hne rfl)
              | cons q fs =>
                refine ⟨(l1, l3) :: q :: fs, by rw [ho]; simp, ?_, by simp⟩
                have := k1 _ (k2 _ (k3 _ (k4 _ hts)))
                have e2 := (punct_lexeme (k2 _ (k3 _ (k4 _ hts)))).1 rfl
                have e4 := (punct_lexeme (k4 _ hts)).2 h4
                rw [e2, e4, h4] at this
                exact this
            · try rw [if_neg ht4] at h
              cases h
          · simp [g] at h
          · simp [g] at h
        · simp [g] at h
        · simp [g] at h
      · simp [g] at h
      · simp [g] at h
    · simp [g, Except.bind] at h
    · omega

/-- C29, the converse: an include node is only made from a pattern word and `F=V` pairs with commas
between them, and carries exactly those. -/
theorem C29_include_only (kind : Str → ReKind) (text : Str) (o : Include)
    (h : includeStmt kind text = .ok (.node o)) :
    Toks text ((.word, o.pattern.text) :: pairToks o.overrides) ∧
      o.pattern.kind = kind o.pattern.text := by
  unfold includeStmt at h
  rcases get_cases (At.self text) with ⟨p, g, _⟩ | ⟨t, l, r1, p1, g1, _, _, _, a1, hp1, _, k1⟩ |
    ⟨p, g, _⟩ | ⟨g, _⟩
  · simp [g, Except.bind] at h
  · rw [g1] at h
    simp only [Except.bind] at h
    split at h
    · cases h
    rename_i h1
    simp only [ne_eq, Classical.not_not] at h1
    subst h1
    rcases reParse_cases kind l with ⟨hk, hre⟩ | ⟨hk, hre⟩
    · simp only [Option.getD_some, hre] at h
      obtain ⟨fs, ho, hts, _⟩ := include_only _ a1 hp1 h
      subst ho
      exact ⟨by simpa using k1 _ hts, rfl⟩
    · simp [hre] at h
  · simp [g, Except.bind] at h
  · simp [g, Except.bind] at h

/-- C29, partial: as for override statements, these are the only exceptions; the loop over the pairs
always ends. -/
theorem C29_include_raises_partial (kind : Str → ReKind) (text : Str) (e : Exc)
    (h : includeStmt kind text = .error e) :
    (e = .assertion ∧ OpenQuote text) ∨ (e = .overflow ∧ ∃ P, kind P = .overflow) := by
  have loop : ∀ (re : Re) (n : Nat) (i0 : Bool) (pos : Nat) (rest : Str) (acc : List (Str × Str)),
      At text rest pos → 0 < pos → rest.length < n →
      ∃ o, includeLoop text re n i0 pos acc = .ok o := by
    intro re n
    induction n with
    | zero => intro _ _ rest _ _ _ hn; omega
    | succ n ih =>
      intro i0 pos rest acc hat hpos hn
      rw [includeLoop]
      rcases get_cases hat with ⟨p, g, k⟩ | ⟨t1, l1, r1, p1, g1, ht1, _, _, a1, hp1, hs1, k1⟩ |
        ⟨p, g, _⟩ | ⟨g, h0, _⟩
      · rw [g]
        cases i0 <;> simp [Except.bind]
      · rw [g1]
        simp only [Except.bind, ht1, false_and, ↓reduceIte]
        split
        · exact ⟨_, rfl⟩
        rcases get_cases a1 with ⟨p, g, k⟩ | ⟨t2, l2, r2, p2, g2, _, _, _, a2, hp2, hs2, k2⟩ |
          ⟨p, g, _⟩ | ⟨g, h0, _⟩
        · simp [g]
        · rw [g2]
          simp only
          split
          · exact ⟨_, rfl⟩
          rcases get_cases a2 with ⟨p, g, k⟩ | ⟨t3, l3, r3, p3, g3, _, _, _, a3, hp3, hs3, k3⟩ |
            ⟨p, g, _⟩ | ⟨g, h0, _⟩
          · simp [g]
          · rw [g3]
            simp only
            split
            · exact ⟨_, rfl⟩
            rcases get_cases a3 with ⟨p, g, k⟩ | ⟨t4, l4, r4, p4, g4, ht4, _, _, a4, hp4, hs4, k4⟩ |
              ⟨p, g, _⟩ | ⟨g, h0, _⟩
            · rw [g]; simp
            · rw [g4]
              simp only [Option.getD_some]
              split
              · exact ih _ _ _ _ a4 hp4 (by omega)
              · exact ⟨_, rfl⟩
            · simp [g]
            · omega
          · simp [g]
          · omega
        · simp [g]
        · omega
      · simp [g, Except.bind]
      · omega
  unfold includeStmt at h
  rcases get_cases (At.self text) with ⟨p, g, _⟩ | ⟨t, l, r1, p1, g1, _, _, _, a1, hp1, _, k1⟩ |
    ⟨p, g, _⟩ | ⟨g, _, hq⟩
  · simp [g, Except.bind] at h
  · rw [g1] at h
    simp only [Except.bind] at h
    split at h
    · cases h
    rcases reParse_cases kind l with ⟨hk, hre⟩ | ⟨hk, hre⟩
    · simp only [Option.getD_some, hre] at h
      obtain ⟨o, ho⟩ := loop ⟨kind l, l⟩ (text.length + 2) true p1 r1 [] a1 hp1
        (by have := a1.le; omega)
      rw [ho] at h
      cases h
    · simp only [Option.getD_some, hre] at h
      cases h
      exact .inr ⟨rfl, _, hk⟩
  · simp [g, Except.bind] at h
  · rw [g] at h
    cases h
    exact .inl ⟨rfl, hq⟩

end Verif.Words
