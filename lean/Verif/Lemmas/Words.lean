import Verif.Model.Words

/-! # Specification of the word language and lemmas about the scanner

The first part is the specification: which token a text begins with, written without positions,
stacks or rollback. The rest shows that the scanner agrees with it. -/

set_option linter.unusedSimpArgs false

namespace Verif.Words

/-! ## Specification -/

/-- A character that may stand inside a bare word. -/
def BareChar (c : Char) : Prop :=
  Text.isSpace c = false ∧ c ≠ nul ∧ c ≠ '#' ∧ c ≠ ',' ∧ c ≠ '='

/-- A character that may begin a bare word. -/
def BareStart (c : Char) : Prop := BareChar c ∧ c ≠ '"'

/-- `Step rest tok lexeme rest'`: the text `rest` begins with the token `tok`, and `rest'` is what
follows it. -/
inductive Step : Str → Tok → Str → Str → Prop
  | space (w r : Str) : w ≠ [] → (∀ c ∈ w, Text.isSpace c = true) →
      (∀ c, r.head? = some c → Text.isSpace c = false) → Step (w ++ r) .space w r
  | bare (c : Char) (w r : Str) : BareStart c → (∀ d ∈ w, BareChar d) →
      (∀ d, r.head? = some d → ¬ BareChar d) → Step (c :: w ++ r) .word (c :: w) r
  | quoted (w r : Str) : (∀ c ∈ w, c ≠ '"' ∧ c ≠ nul) → Step ('"' :: w ++ '"' :: r) .word w r
  | commentNl (w r : Str) : (∀ c ∈ w, c ≠ '\n' ∧ c ≠ nul) →
      Step ('#' :: w ++ '\n' :: r) .comment ('#' :: w ++ ['\n']) r
  | commentNul (w r : Str) : (∀ c ∈ w, c ≠ '\n' ∧ c ≠ nul) →
      Step ('#' :: w ++ nul :: r) .comment ('#' :: w) r
  | commentEnd (w : Str) : (∀ c ∈ w, c ≠ '\n' ∧ c ≠ nul) → Step ('#' :: w) .comment ('#' :: w) []
  | comma (r : Str) : Step (',' :: r) .comma [','] r
  | equals (r : Str) : Step ('=' :: r) .equals ['='] r

/-- The text begins with a quote that is never closed (a NUL counts as the end of the text). -/
def OpenQuote (rest : Str) : Prop :=
  ∃ w : Str, (∀ c ∈ w, c ≠ '"' ∧ c ≠ nul) ∧ (rest = '"' :: w ∨ ∃ r, rest = '"' :: w ++ nul :: r)

/-- The text is over. -/
def AtEnd (rest : Str) : Prop := rest = [] ∨ ∃ r, rest = nul :: r

/-- The text from position `pos` on is `rest`. -/
def At (text rest : Str) (pos : Nat) : Prop := ∃ pre, text = pre ++ rest ∧ pos = pre.length

/-! ## Every text begins with something -/

theorem span_spec (p : Char → Bool) (l : Str) :
    ∃ w r, l = w ++ r ∧ (∀ c ∈ w, p c = true) ∧ (∀ c, r.head? = some c → p c = false) := by
  induction l with
  | nil => exact ⟨[], [], rfl, by simp, by simp⟩
  | cons a l ih =>
    obtain ⟨w, r, h, hw, hr⟩ := ih
    by_cases ha : p a = true
    · refine ⟨a :: w, r, by simp [h], ?_, hr⟩
      intro c hc
      rcases List.mem_cons.1 hc with rfl | hc
      · exact ha
      · exact hw c hc
    · exact ⟨[], a :: l, rfl, by simp, by simpa using ha⟩

instance (c : Char) : Decidable (BareChar c) := by unfold BareChar; infer_instance

theorem step_total (rest : Str) :
    AtEnd rest ∨ OpenQuote rest ∨ ∃ t l r, Step rest t l r := by
  cases rest with
  | nil => exact .inl (.inl rfl)
  | cons c rest =>
    by_cases hs : Text.isSpace c = true
    · obtain ⟨w, r, h, hw, hr⟩ := span_spec Text.isSpace (c :: rest)
      refine .inr (.inr ⟨.space, w, r, h ▸ .space w r ?_ hw hr⟩)
      rintro rfl
      simp only [List.nil_append] at h
      subst h
      have := hr c rfl
      simp [hs] at this
    by_cases hn : c = nul
    · exact .inl (.inr ⟨rest, by rw [hn]⟩)
    by_cases hc : c = '#'
    · obtain ⟨w, r, h, hw, hr⟩ := span_spec (fun d => decide (d ≠ '\n' ∧ d ≠ nul)) rest
      have hw' : ∀ d ∈ w, d ≠ '\n' ∧ d ≠ nul := fun d hd => by simpa using hw d hd
      subst hc h
      cases r with
      | nil => exact .inr (.inr ⟨_, _, _, by simpa using Step.commentEnd w hw'⟩)
      | cons d r =>
        by_cases hd : d = '\n'
        · subst hd
          exact .inr (.inr ⟨_, _, _, Step.commentNl w r hw'⟩)
        by_cases hd2 : d = nul
        · subst hd2
          exact .inr (.inr ⟨_, _, _, Step.commentNul w r hw'⟩)
        · have := hr d rfl
          simp [hd, hd2] at this
    by_cases hq : c = '"'
    · obtain ⟨w, r, h, hw, hr⟩ := span_spec (fun d => decide (d ≠ '"' ∧ d ≠ nul)) rest
      have hw' : ∀ d ∈ w, d ≠ '"' ∧ d ≠ nul := fun d hd => by simpa using hw d hd
      subst hq h
      cases r with
      | nil => exact .inr (.inl ⟨w, hw', .inl (by simp)⟩)
      | cons d r =>
        by_cases hd : d = '"'
        · subst hd
          exact .inr (.inr ⟨_, _, _, Step.quoted w r hw'⟩)
        by_cases hd2 : d = nul
        · subst hd2
          exact .inr (.inl ⟨w, hw', .inr ⟨r, rfl⟩⟩)
        · have := hr d rfl
          simp [hd, hd2] at this
    by_cases hm : c = ','
    · exact .inr (.inr ⟨_, _, _, hm ▸ Step.comma rest⟩)
    by_cases he : c = '='
    · exact .inr (.inr ⟨_, _, _, he ▸ Step.equals rest⟩)
    obtain ⟨w, r, h, hw, hr⟩ := span_spec (fun d => decide (BareChar d)) rest
    refine .inr (.inr ⟨.word, c :: w, r, ?_⟩)
    rw [h]
    exact Step.bare c w r ⟨⟨by simpa using hs, hn, hc, hm, he⟩, hq⟩
      (fun d hd => by simpa using hw d hd) (fun d hd => by simpa using hr d hd)

theorem Step.shorter {rest t l r} (h : Step rest t l r) : r.length < rest.length := by
  cases h with
  | space w r hw _ _ =>
    have : 0 < l.length := List.length_pos_iff.2 hw
    simp; omega
  | _ => all_goals (simp; try omega)

theorem Step.not_eof {rest t l r} (h : Step rest t l r) : t ≠ .eof ∧ t ≠ .invalid := by
  cases h <;> simp

/-! ## The two loops -/

theorem At.cons {text c r pos} (h : At text (c :: r) pos) :
    nextChar text pos = (c, pos + 1) ∧ At text r (pos + 1) := by
  obtain ⟨pre, rfl, rfl⟩ := h
  refine ⟨by simp [nextChar], pre ++ [c], by simp, by simp⟩

theorem At.nil {text pos} (h : At text [] pos) :
    nextChar text pos = (nul, pos + 1) ∧ pos = text.length := by
  obtain ⟨pre, rfl, rfl⟩ := h
  simp [nextChar]

theorem At.app {text : Str} {w r : Str} {pos : Nat} (h : At text (w ++ r) pos) :
    At text r (pos + w.length) := by
  obtain ⟨pre, rfl, rfl⟩ := h
  exact ⟨pre ++ w, by simp, by simp⟩

theorem At.le {text rest : Str} {pos : Nat} (h : At text rest pos) :
    pos + rest.length = text.length := by
  obtain ⟨pre, rfl, rfl⟩ := h
  simp

theorem forward_error (text n l k p) : forward text (n + 1) .error l k p = .ok (l, k, p) := by
  simp [forward]

theorem forward_step {text : Str} {n : Nat} {s s' : St} {l : Str} {k : List St} {p p' : Nat}
    {c : Char} (hs : s ≠ .error) (hc : nextChar text p = (c, p')) (hn : next s c = s') :
    forward text (n + 1) s l k p =
      forward text n s' (l ++ [c]) (s :: (if s.accepting then [] else k)) p' := by
  subst hn
  rw [forward, if_neg hs, hc]

/-- Running a state that loops on itself. -/
theorem forward_run {text : Str} {s : St} (hs : s ≠ .error) (w : Str) :
    ∀ (n : Nat) (l : Str) (k : List St) (p : Nat) (r : Str), (∀ c ∈ w, next s c = s) →
      At text (w ++ r) p →
      forward text (n + w.length) s l k p =
        forward text n s (l ++ w)
          (if w = [] then k else List.replicate (if s.accepting then 1 else w.length) s ++
            (if s.accepting then [] else k)) (p + w.length) := by
  induction w with
  | nil => intro n l k p r _ _; simp
  | cons c w ih =>
    intro n l k p r hw hat
    have h1 := (show At text (c :: (w ++ r)) p from hat).cons
    have : n + (c :: w).length = (n + w.length) + 1 := by simp; omega
    rw [this, forward_step hs h1.1 (hw c List.mem_cons_self),
      ih n _ _ _ r (fun d hd => hw d (List.mem_cons_of_mem _ hd)) h1.2]
    congr 1
    · simp
    · by_cases hwn : w = []
      · subst hwn
        cases hac : s.accepting <;> simp
      · rw [if_neg hwn, if_neg (List.cons_ne_nil c w)]
        cases hac : s.accepting
        · simp only [Bool.false_eq_true, ↓reduceIte, List.length_cons]
          rw [List.replicate_succ', List.append_assoc]
          rfl
        · simp
    · simp; omega

theorem backward_acc {s : St} (h : s.accepting = true) (k l p) :
    backward k s l p = .ok (s, l, p) := by
  unfold backward
  rw [if_pos (.inl h)]

theorem backward_pop {s s' : St} {k : List St} {l : Str} {p : Nat} (h : s.accepting = false)
    (h' : s ≠ .bad) : backward (s' :: k) s l (p + 1) = backward k s' l.dropLast p := by
  rw [backward]
  simp [h, h']

theorem dropLast_concat (l : Str) (c : Char) : (l ++ [c]).dropLast = l := by simp

/-- The scanner stops right after an accepting state. -/
theorem raw_of_accept {text : Str} {pos pos' : Nat} {s : St} {lex : Str} {c : Char} {k : List St}
    (hf : forward text (text.length + 4) .start [] [.bad] pos = .ok (lex ++ [c], s :: k, pos' + 1))
    (hs : s.accepting = true) :
    rawToken text pos = .ok (s.token, some (s.modifyLexeme (stripNul lex)), pos') := by
  unfold rawToken
  rw [hf]
  simp only
  rw [backward_pop rfl (by simp), backward_acc hs]
  simp [hs, dropLast_concat]

theorem stripNul_concat {l : Str} {c : Char} (h : c ≠ nul) : stripNul (l ++ [c]) = l ++ [c] := by
  simp [stripNul, h]

theorem stripNul_nul {l : Str} : stripNul (l ++ [nul]) = stripNul l := by
  simp [stripNul]

theorem stripNul_id {l : Str} (h : ∀ c ∈ l, c ≠ nul) : stripNul l = l := by
  rcases List.eq_nil_or_concat l with rfl | ⟨l', c, rfl⟩
  · rfl
  · rw [List.concat_eq_append]
    exact stripNul_concat (by have := h c (by simp); exact this)

theorem nul_not_space : Text.isSpace nul = false := by decide

/-- The next character after `pos`, whether the text goes on or not. -/
theorem At.any {text rest : Str} {pos : Nat} (h : At text rest pos) :
    ∃ c, nextChar text pos = (c, pos + 1) ∧ (rest.head? = some c ∨ (rest = [] ∧ c = nul)) := by
  cases rest with
  | nil => exact ⟨nul, h.nil.1, .inr ⟨rfl, rfl⟩⟩
  | cons c r => exact ⟨c, h.cons.1, .inl rfl⟩

theorem next_start_bare {c : Char} (h : BareStart c) : next .start c = .bareWord := by
  obtain ⟨⟨h1, h2, h3, h4, h5⟩, h6⟩ := h
  simp [next, h1, h2, h3, h4, h5, h6]

theorem next_bare {c : Char} (h : BareChar c) : next .bareWord c = .bareWord := by
  obtain ⟨h1, h2, h3, h4, h5⟩ := h
  simp [next, h1, h2, h3, h4, h5]

theorem next_bare_end {c : Char} (h : ¬ BareChar c) : next .bareWord c = .error := by
  have : Text.isSpace c ∨ c = nul ∨ c = '#' ∨ c = ',' ∨ c = '=' := by
    apply Classical.byContradiction
    intro hn
    simp only [not_or] at hn
    exact h ⟨by simpa using hn.1, hn.2⟩
  simp only [next]
  rw [if_pos this]

theorem not_bare_nul : ¬ BareChar nul := fun h => h.2.1 rfl

/-- Scanning one token agrees with the specification. -/
theorem raw_step {text rest : Str} {pos : Nat} {t : Tok} {l r : Str} (hat : At text rest pos)
    (h : Step rest t l r) :
    ∃ pos', rawToken text pos = .ok (t, some l, pos') ∧ At text r pos' := by
  have hlen := hat.le
  cases h with
  | space w r hw hws hr =>
    cases l with
    | nil => exact absurd rfl hw
    | cons c w =>
      have h1 := (show At text (c :: (w ++ r)) pos from hat).cons
      have h2 := h1.2.app
      obtain ⟨d, hd, hd'⟩ := h2.any
      have hde : next .space d = .error := by
        rcases hd' with hd' | ⟨_, rfl⟩
        · simp [next, hr d hd']
        · simp [next, nul_not_space]
      refine ⟨pos + 1 + w.length, ?_, h2⟩
      have hc : next .start c = .space := by
        simp [next, hws c List.mem_cons_self]
      have hlen' : text.length + 4 = ((r.length + pos + 3 + 1) + w.length) + 1 := by
        simp at hlen; omega
      have hf : forward text (text.length + 4) .start [] [.bad] pos =
          .ok (c :: w ++ [d], .space :: [], pos + 1 + w.length + 1) := by
        rw [hlen', forward_step (by simp) h1.1 hc,
          forward_run (by simp) w _ _ _ _ r
            (fun e he => by simp [next, hws e (List.mem_cons_of_mem _ he)]) h1.2,
          forward_step (by simp) hd hde, forward_error]
        simp [St.accepting]
      rw [raw_of_accept hf rfl]
      have : stripNul (c :: w) = c :: w := stripNul_id (by
        intro e he hen
        have := hws e he
        rw [hen, nul_not_space] at this
        cases this)
      simp [St.token, St.modifyLexeme, this]
  | bare c w r hc hw hr =>
      have h1 := (show At text (c :: (w ++ r)) pos from hat).cons
      have h2 := h1.2.app
      obtain ⟨d, hd, hd'⟩ := h2.any
      have hde : next .bareWord d = .error := by
        rcases hd' with hd' | ⟨_, rfl⟩
        · exact next_bare_end (hr d hd')
        · exact next_bare_end not_bare_nul
      refine ⟨pos + 1 + w.length, ?_, h2⟩
      have hlen' : text.length + 4 = ((r.length + pos + 3 + 1) + w.length) + 1 := by
        simp at hlen; omega
      have hf : forward text (text.length + 4) .start [] [.bad] pos =
          .ok (c :: w ++ [d], .bareWord :: [], pos + 1 + w.length + 1) := by
        rw [hlen', forward_step (by simp) h1.1 (next_start_bare hc),
          forward_run (by simp) w _ _ _ _ r (fun e he => next_bare (hw e he)) h1.2,
          forward_step (by simp) hd hde, forward_error]
        simp [St.accepting]
      rw [raw_of_accept hf rfl]
      have : stripNul (c :: w) = c :: w := stripNul_id (by
        intro e he hen
        rcases List.mem_cons.1 he with rfl | he
        · exact hc.1.2.1 hen
        · exact (hw e he).2.1 hen)
      simp [St.token, St.modifyLexeme, this]
  | quoted l r hw =>
      have h1 := (show At text ('"' :: (l ++ '"' :: r)) pos from hat).cons
      have h2 := h1.2.app.cons
      obtain ⟨d, hd, _⟩ := h2.2.any
      refine ⟨pos + 1 + l.length + 1, ?_, h2.2⟩
      have hlen' : text.length + 4 = (((r.length + pos + 3 + 1) + 1) + l.length) + 1 := by
        simp at hlen; omega
      have hf : forward text (text.length + 4) .start [] [.bad] pos =
          .ok ('"' :: l ++ ['"'] ++ [d], .quotedEnd :: [], pos + 1 + l.length + 1 + 1) := by
        rw [hlen', forward_step (by simp) h1.1 (show next .start '"' = .quotedInner by decide),
          forward_run (by simp) l _ _ _ _ ('"' :: r)
            (fun e he => by simp [next, (hw e he).1, (hw e he).2]) h1.2,
          forward_step (by simp) h2.1 (show next .quotedInner '"' = .quotedEnd by decide),
          forward_step (by simp) hd (show next .quotedEnd d = .error from rfl), forward_error]
        simp [St.accepting]
      rw [raw_of_accept hf rfl, stripNul_concat (by decide)]
      simp [St.token, St.modifyLexeme]
  | commentNl w r hw =>
      have h1 := (show At text ('#' :: (w ++ '\n' :: r)) pos from hat).cons
      have h2 := h1.2.app.cons
      obtain ⟨d, hd, _⟩ := h2.2.any
      refine ⟨pos + 1 + w.length + 1, ?_, h2.2⟩
      have hlen' : text.length + 4 = (((r.length + pos + 3 + 1) + 1) + w.length) + 1 := by
        simp at hlen; omega
      have hf : forward text (text.length + 4) .start [] [.bad] pos =
          .ok ('#' :: w ++ ['\n'] ++ [d], .commentEnd :: [], pos + 1 + w.length + 1 + 1) := by
        rw [hlen', forward_step (by simp) h1.1 (show next .start '#' = .commentInner by decide),
          forward_run (by simp) w _ _ _ _ ('\n' :: r)
            (fun e he => by simp [next, (hw e he).1, (hw e he).2]) h1.2,
          forward_step (by simp) h2.1 (show next .commentInner '\n' = .commentEnd by decide),
          forward_step (by simp) hd (show next .commentEnd d = .error from rfl), forward_error]
        simp [St.accepting]
      rw [raw_of_accept hf rfl, stripNul_concat (by decide)]
      simp [St.token, St.modifyLexeme]
  | commentNul w r hw =>
      have h1 := (show At text ('#' :: (w ++ nul :: r)) pos from hat).cons
      have h2 := h1.2.app.cons
      obtain ⟨d, hd, _⟩ := h2.2.any
      refine ⟨pos + 1 + w.length + 1, ?_, h2.2⟩
      have hlen' : text.length + 4 = (((r.length + pos + 3 + 1) + 1) + w.length) + 1 := by
        simp at hlen; omega
      have hf : forward text (text.length + 4) .start [] [.bad] pos =
          .ok ('#' :: w ++ [nul] ++ [d], .commentEnd :: [], pos + 1 + w.length + 1 + 1) := by
        rw [hlen', forward_step (by simp) h1.1 (show next .start '#' = .commentInner by decide),
          forward_run (by simp) w _ _ _ _ (nul :: r)
            (fun e he => by simp [next, (hw e he).1, (hw e he).2]) h1.2,
          forward_step (by simp) h2.1 (show next .commentInner nul = .commentEnd by decide),
          forward_step (by simp) hd (show next .commentEnd d = .error from rfl), forward_error]
        simp [St.accepting]
      rw [raw_of_accept hf rfl, stripNul_nul]
      have : stripNul ('#' :: w) = '#' :: w := stripNul_id (by
        intro e he
        rcases List.mem_cons.1 he with rfl | he
        · decide
        · exact (hw e he).2)
      simp [St.token, St.modifyLexeme, this]
  | commentEnd w hw =>
      have h1 := hat.cons
      have h2 : At text [] (pos + 1 + w.length) := by
        have : At text (w ++ []) (pos + 1) := by simpa using h1.2
        exact this.app
      have hend : nextChar text (pos + 1 + w.length + 1) = (nul, pos + 1 + w.length + 1) := by
        have := h2.nil.2
        rw [this]
        simp [nextChar]
      refine ⟨pos + 1 + w.length, ?_, h2⟩
      have hlen' : text.length + 4 = (((pos + 3 + 1) + 1) + w.length) + 1 - 1 := by
        simp at hlen; omega
      have hlen'' : text.length + 4 = (((pos + 2 + 1) + 1) + w.length) + 1 := by
        simp at hlen; omega
      have hf : forward text (text.length + 4) .start [] [.bad] pos =
          .ok ('#' :: w ++ [nul] ++ [nul], .commentEnd :: [], pos + 1 + w.length + 1) := by
        rw [hlen'', forward_step (by simp) h1.1 (show next .start '#' = .commentInner by decide),
          forward_run (by simp) w _ _ _ _ []
            (fun e he => by simp [next, (hw e he).1, (hw e he).2]) (by simpa using h1.2),
          forward_step (by simp) h2.nil.1 (show next .commentInner nul = .commentEnd by decide),
          forward_step (by simp) hend (show next .commentEnd nul = .error from rfl), forward_error]
        simp [St.accepting]
      rw [raw_of_accept hf rfl, stripNul_nul]
      have : stripNul ('#' :: w) = '#' :: w := stripNul_id (by
        intro e he
        rcases List.mem_cons.1 he with rfl | he
        · decide
        · exact (hw e he).2)
      simp [St.token, St.modifyLexeme, this]
  | comma r =>
      have h1 := hat.cons
      obtain ⟨d, hd, _⟩ := h1.2.any
      refine ⟨pos + 1, ?_, h1.2⟩
      have hf : forward text (text.length + 4) .start [] [.bad] pos =
          .ok ([','] ++ [d], .comma :: [], pos + 1 + 1) := by
        rw [show text.length + 4 = (((text.length + 1) + 1) + 1) + 1 from rfl,
          forward_step (by simp) h1.1 (show next .start ',' = .comma by decide),
          forward_step (by simp) hd (show next .comma d = .error from rfl), forward_error]
        simp [St.accepting]
      rw [raw_of_accept hf rfl]
      simp [St.token, St.modifyLexeme, stripNul]
      decide
  | equals r =>
      have h1 := hat.cons
      obtain ⟨d, hd, _⟩ := h1.2.any
      refine ⟨pos + 1, ?_, h1.2⟩
      have hf : forward text (text.length + 4) .start [] [.bad] pos =
          .ok (['='] ++ [d], .equals :: [], pos + 1 + 1) := by
        rw [show text.length + 4 = (((text.length + 1) + 1) + 1) + 1 from rfl,
          forward_step (by simp) h1.1 (show next .start '=' = .equals by decide),
          forward_step (by simp) hd (show next .equals d = .error from rfl), forward_error]
        simp [St.accepting]
      rw [raw_of_accept hf rfl]
      simp [St.token, St.modifyLexeme, stripNul]
      decide

/-- At the end of the text the scanner says so, and leaves the position inside the text. -/
theorem raw_end {text rest : Str} {pos : Nat} (hat : At text rest pos) (h : AtEnd rest) :
    ∃ pos', rawToken text pos = .ok (.eof, some [], pos') := by
  rcases h with rfl | ⟨r, rfl⟩
  · have h1 := hat.nil
    have hend : nextChar text (pos + 1) = (nul, pos + 1) := by
      rw [h1.2]; simp [nextChar]
    have hf : forward text (text.length + 4) .start [] [.bad] pos =
        .ok ([nul] ++ [nul], .eof :: [], pos + 1) := by
      rw [show text.length + 4 = (((text.length + 1) + 1) + 1) + 1 from rfl,
        forward_step (by simp) h1.1 (show next .start nul = .eof by decide),
        forward_step (by simp) hend (show next .eof nul = .error from rfl), forward_error]
      simp [St.accepting]
    exact ⟨pos, by rw [raw_of_accept hf rfl]; rfl⟩
  · have h1 := hat.cons
    obtain ⟨d, hd, _⟩ := h1.2.any
    have hf : forward text (text.length + 4) .start [] [.bad] pos =
        .ok ([nul] ++ [d], .eof :: [], pos + 1 + 1) := by
      rw [show text.length + 4 = (((text.length + 1) + 1) + 1) + 1 from rfl,
        forward_step (by simp) h1.1 (show next .start nul = .eof by decide),
        forward_step (by simp) hd (show next .eof d = .error from rfl), forward_error]
      simp [St.accepting]
    exact ⟨pos + 1, by rw [raw_of_accept hf rfl]; rfl⟩

theorem backward_quoted (k : List St) : ∀ (n : Nat) (l : Str) (p : Nat),
    backward (List.replicate n .quotedInner ++ k) .quotedInner l (p + n) =
      backward k .quotedInner (l.take (l.length - n)) p := by
  intro n
  induction n with
  | zero => intro l p; simp
  | succ n ih =>
    intro l p
    rw [List.replicate_succ, List.cons_append, show p + (n + 1) = (p + n) + 1 from rfl,
      backward_pop rfl (by simp), ih, List.dropLast_eq_take, List.take_take]
    congr 2
    simp; omega

/-- An open quote: nothing can be accepted, and the rollback goes one character too far. -/
theorem raw_open {text rest : Str} {pos : Nat} (hat : At text rest pos) (h : OpenQuote rest) :
    rawToken text pos =
      if pos = 0 then .error .assertion else .ok (.invalid, none, pos - 1) := by
  have key : ∀ (w r : Str), (∀ c ∈ w, c ≠ '"' ∧ c ≠ nul) → AtEnd r → At text ('"' :: w ++ r) pos →
      rawToken text pos =
        if pos = 0 then .error .assertion else .ok (.invalid, none, pos - 1) := by
    intro w r hw hr hat
    have hlen := hat.le
    have h1 := (show At text ('"' :: (w ++ r)) pos from hat).cons
    have h2 := h1.2.app
    have hd : nextChar text (pos + 1 + w.length) = (nul, pos + 1 + w.length + 1) := by
      rcases hr with rfl | ⟨r', rfl⟩
      · exact h2.nil.1
      · exact h2.cons.1
    have hlen' : text.length + 4 = ((r.length + pos + 3 + 1) + w.length) + 1 := by
      simp at hlen; omega
    have hf : forward text (text.length + 4) .start [] [.bad] pos =
        .ok ('"' :: w ++ [nul],
          List.replicate (w.length + 1) .quotedInner ++ [.start, .bad],
          pos + 1 + w.length + 1) := by
      rw [hlen', forward_step (by simp) h1.1 (show next .start '"' = .quotedInner by decide),
        forward_run (by simp) w _ _ _ _ r
          (fun e he => by simp [next, (hw e he).1, (hw e he).2]) h1.2,
        forward_step (by simp) hd (show next .quotedInner nul = .error by decide), forward_error]
      by_cases hwn : w = []
      · subst hwn; simp [St.accepting]
      · simp [St.accepting, hwn, List.replicate_succ]
    unfold rawToken
    rw [hf]
    simp only
    rw [List.replicate_succ, List.cons_append, backward_pop rfl (by simp),
      show pos + 1 + w.length = (pos + 1) + w.length from rfl, backward_quoted,
      backward_pop rfl (by simp)]
    rw [backward]
    by_cases hp : pos = 0
    · simp [St.accepting, hp]
    · simp only [St.accepting, hp, Bool.false_eq_true, reduceCtorEq, or_self, ↓reduceIte]
      unfold backward
      simp [St.accepting, St.token]
  obtain ⟨w, hw, rfl | ⟨r, rfl⟩⟩ := h
  · exact key w [] hw (.inl rfl) (by simpa using hat)
  · exact key w (nul :: r) hw (.inr ⟨r, rfl⟩) hat

/-! ## Skipping what is irrelevant -/

/-- `Skips rest rest'`: only white space and comments lie between the two. -/
inductive Skips : Str → Str → Prop
  | refl (r : Str) : Skips r r
  | step {r t l r' r''} : Step r t l r' → t.irrelevant = true → Skips r' r'' → Skips r r''

/-- Everything that a scanner can find, after irrelevant tokens. -/
theorem skip_total : ∀ (n : Nat) (rest : Str), rest.length ≤ n →
    ∃ r, Skips rest r ∧ (AtEnd r ∨ OpenQuote r ∨ ∃ t l r', Step r t l r' ∧ t.irrelevant = false) := by
  intro n
  induction n with
  | zero =>
    intro rest h
    have : rest = [] := List.length_eq_zero_iff.1 (by omega)
    subst this
    exact ⟨[], .refl _, .inl (.inl rfl)⟩
  | succ n ih =>
    intro rest h
    rcases step_total rest with h1 | h1 | ⟨t, l, r, h1⟩
    · exact ⟨rest, .refl _, .inl h1⟩
    · exact ⟨rest, .refl _, .inr (.inl h1)⟩
    · cases ht : t.irrelevant
      · exact ⟨rest, .refl _, .inr (.inr ⟨t, l, r, h1, ht⟩)⟩
      · obtain ⟨r', hs, h'⟩ := ih r (by have := h1.shorter; omega)
        exact ⟨r', .step h1 ht hs, h'⟩

theorem Skips.shorter {r r' : Str} (h : Skips r r') : r'.length ≤ r.length := by
  induction h with
  | refl r => omega
  | step h _ _ ih => have := h.shorter; omega

theorem skipToken_succ (text : Str) (n pos : Nat) : skipToken text (n + 1) pos =
    (rawToken text pos).bind fun x =>
      if x.1.irrelevant then skipToken text n x.2.2 else .ok x := by
  conv => lhs; unfold skipToken
  cases rawToken text pos <;> rfl

theorem skip_aux {text : Str} {rest r : Str} (h : Skips rest r) :
    ∀ (n pos : Nat), At text rest pos → rest.length < n →
    ∃ m pos', At text r pos' ∧ r.length < m ∧ (0 < pos → 0 < pos') ∧ (pos' = 0 → rest = r) ∧
      skipToken text n pos = skipToken text m pos' := by
  induction h with
  | refl r => intro n pos hat hn; exact ⟨n, pos, hat, hn, id, fun _ => rfl, rfl⟩
  | @step r t l r' r'' hs ht _ ih =>
    intro n pos hat hn
    obtain ⟨p1, hr, hat'⟩ := raw_step hat hs
    have hsh := hs.shorter
    cases n with
    | zero => omega
    | succ n =>
      obtain ⟨m, p2, hat2, hm, hp2, _, hk⟩ := ih n p1 hat' (by omega)
      have hpos : 0 < p1 := by
        have := hat.le; have := hat'.le; omega
      refine ⟨m, p2, hat2, hm, fun _ => hp2 hpos, fun h0 => ?_, ?_⟩
      · have := hp2 hpos; omega
      · rw [skipToken_succ, hr]
        simp [Except.bind, ht, hk]

/-- Getting the next relevant token. -/
theorem get_step {text rest r r' : Str} {pos : Nat} {t : Tok} {l : Str} (hat : At text rest pos)
    (hs : Skips rest r) (h : Step r t l r') (ht : t.irrelevant = false) :
    ∃ pos', getToken text pos = .ok (t, some l, pos') ∧ At text r' pos' := by
  have hlen := hat.le
  obtain ⟨m, p, hat', hm, _, _, he⟩ := skip_aux hs (text.length + 2) pos hat (by omega)
  obtain ⟨p', hr, hat''⟩ := raw_step hat' h
  refine ⟨p', ?_, hat''⟩
  cases m with
  | zero => omega
  | succ m =>
    unfold getToken
    rw [he, skipToken_succ, hr]
    simp [Except.bind, ht]

theorem get_end {text rest r : Str} {pos : Nat} (hat : At text rest pos)
    (hs : Skips rest r) (h : AtEnd r) : ∃ pos', getToken text pos = .ok (.eof, some [], pos') := by
  have hlen := hat.le
  obtain ⟨m, p, hat', hm, _, _, he⟩ := skip_aux hs (text.length + 2) pos hat (by omega)
  obtain ⟨p', hr⟩ := raw_end hat' h
  refine ⟨p', ?_⟩
  cases m with
  | zero => omega
  | succ m =>
    unfold getToken
    rw [he, skipToken_succ, hr]
    simp [Except.bind, Tok.irrelevant]

theorem get_open {text rest r : Str} {pos : Nat} (hat : At text rest pos)
    (hs : Skips rest r) (h : OpenQuote r) :
    ∃ pos', At text r pos' ∧ (0 < pos → 0 < pos') ∧ (pos' = 0 → rest = r) ∧
      getToken text pos =
        if pos' = 0 then .error .assertion else .ok (.invalid, none, pos' - 1) := by
  have hlen := hat.le
  obtain ⟨m, p, hat', hm, hp, hp0, he⟩ := skip_aux hs (text.length + 2) pos hat (by omega)
  have hr := raw_open hat' h
  refine ⟨p, hat', hp, hp0, ?_⟩
  cases m with
  | zero => omega
  | succ m =>
    unfold getToken
    rw [he, skipToken_succ, hr]
    by_cases h0 : p = 0
    · simp [h0, Except.bind]
    · simp [h0, Except.bind, Tok.irrelevant]

/-- A token of an open quote comes from a position that is not the first, unless it is. -/
theorem At.zero {text rest : Str} (h : At text rest 0) : text = rest := by
  obtain ⟨pre, rfl, hp⟩ := h
  have : pre = [] := List.length_eq_zero_iff.1 hp.symm
  simp [this]

theorem At.self (text : Str) : At text text 0 := ⟨[], rfl, rfl⟩

end Verif.Words
