import Verif.Lemmas.Words

/-! # Token sequences, written texts and where an open quote stands -/

set_option linter.unusedSimpArgs false

namespace Verif.Words

/-- `Toks rest ts`: the text consists of the relevant tokens `ts`, with white space and comments in
between, and then ends. -/
inductive Toks : Str → List (Tok × Str) → Prop
  | done {rest r} : Skips rest r → AtEnd r → Toks rest []
  | cons {rest r t l r' ts} : Skips rest r → Step r t l r' → t.irrelevant = false → Toks r' ts →
      Toks rest ((t, l) :: ts)

/-- Everything `getToken` can do. -/
theorem get_cases {text rest : Str} {pos : Nat} (hat : At text rest pos) :
    (∃ p', getToken text pos = .ok (.eof, some [], p') ∧ Toks rest []) ∨
    (∃ t l r' p', getToken text pos = .ok (t, some l, p') ∧ t ≠ .eof ∧ t ≠ .invalid ∧
      t.irrelevant = false ∧ At text r' p' ∧ 0 < p' ∧ r'.length < rest.length ∧
      (∀ ts, Toks r' ts → Toks rest ((t, l) :: ts))) ∨
    (∃ p', getToken text pos = .ok (.invalid, none, p') ∧ ∃ r, Skips rest r ∧ OpenQuote r ∧
      At text r (p' + 1)) ∨
    (getToken text pos = .error .assertion ∧ pos = 0 ∧ OpenQuote rest) := by
  obtain ⟨r, hs, h⟩ := skip_total _ rest (Nat.le_refl _)
  rcases h with h | h | ⟨t, l, r', h, ht⟩
  · obtain ⟨p', hg⟩ := get_end hat hs h
    exact .inl ⟨p', hg, .done hs h⟩
  · obtain ⟨p', hat', hp, hp0, hg⟩ := get_open hat hs h
    by_cases h0 : p' = 0
    · refine .inr (.inr (.inr ⟨by rw [hg, if_pos h0], ?_, ?_⟩))
      · omega
      · rw [hp0 h0]; exact h
    · refine .inr (.inr (.inl ⟨p' - 1, by rw [hg, if_neg h0], r, hs, h, ?_⟩))
      have : p' - 1 + 1 = p' := by omega
      rw [this]; exact hat'
  · obtain ⟨p', hg, hat'⟩ := get_step hat hs h ht
    have h1 := hs.shorter
    have h2 := h.shorter
    have h3 := hat.le
    have h4 := hat'.le
    exact .inr (.inl ⟨t, l, r', p', hg, h.not_eof.1, h.not_eof.2, ht, hat', by omega, by omega,
      fun ts hts => .cons hs h ht hts⟩)

/-! ## `Toks` determines what the scanner returns -/

theorem get_toks_nil {text rest : Str} {pos : Nat} (hat : At text rest pos) (h : Toks rest []) :
    ∃ p', getToken text pos = .ok (.eof, some [], p') := by
  cases h with
  | done hs he => exact get_end hat hs he

theorem get_toks_cons {text rest : Str} {pos : Nat} {t l ts} (hat : At text rest pos)
    (h : Toks rest ((t, l) :: ts)) :
    ∃ p' r', getToken text pos = .ok (t, some l, p') ∧ At text r' p' ∧ Toks r' ts ∧
      r'.length < rest.length := by
  cases h with
  | cons hs hst ht hts =>
    obtain ⟨p', hg, hat'⟩ := get_step hat hs hst ht
    have h1 := hs.shorter
    have h2 := hst.shorter
    exact ⟨p', _, hg, hat', hts, by omega⟩

theorem toks_length {rest : Str} {ts : List (Tok × Str)} (h : Toks rest ts) :
    ts.length ≤ rest.length := by
  induction h with
  | done _ _ => simp
  | cons hs hst _ _ ih =>
    have h1 := hs.shorter
    have h2 := hst.shorter
    simp; omega

/-- What a word list makes of the tokens. -/
def entriesOf : List (Tok × Str) → List Entry
  | [] => []
  | (t, l) :: ts =>
    if t = .comma then entriesOf ts
    else if t = .word then .text l :: entriesOf ts
    else .error (some l) :: entriesOf ts

theorem wordLoop_toks {text : Str} : ∀ {ts : List (Tok × Str)} {rest : Str} {pos n : Nat}
    {acc : List Entry}, Toks rest ts → At text rest pos → ts.length < n →
    wordLoop text n pos acc = .ok (acc ++ entriesOf ts) := by
  intro ts
  induction ts with
  | nil =>
    intro rest pos n acc h hat hn
    obtain ⟨p', hg⟩ := get_toks_nil hat h
    cases n with
    | zero => simp at hn
    | succ n => rw [wordLoop, hg]; simp [Except.bind, entriesOf]
  | cons tl ts ih =>
    intro rest pos n acc h hat hn
    obtain ⟨t, l⟩ := tl
    have hne : t ≠ .eof := by
      cases h with
      | cons _ hst _ _ => exact hst.not_eof.1
    obtain ⟨p', r', hg, hat', hts, _⟩ := get_toks_cons hat h
    cases n with
    | zero => simp at hn
    | succ n =>
      have hn' : ts.length < n := by simp at hn; omega
      rw [wordLoop, hg]
      simp only [Except.bind, if_neg hne]
      by_cases hc : t = .comma
      · simp only [if_pos hc, entriesOf]
        exact ih hts hat' hn'
      · by_cases hw : t = .word
        · simp only [if_neg hc, if_pos hw, entriesOf, Option.getD_some]
          rw [ih hts hat' hn']
          simp
        · simp only [if_neg hc, if_neg hw, entriesOf]
          rw [ih hts hat' hn']
          simp

/-! ## Written texts -/

/-- White space or a comment line. -/
inductive Gap
  | ws (c : Char)
  | comment (w : Str)

def Gap.text : Gap → Str
  | .ws c => [c]
  | .comment w => '#' :: w ++ ['\n']

def Gap.Ok : Gap → Prop
  | .ws c => Text.isSpace c = true
  | .comment w => ∀ c ∈ w, c ≠ '\n' ∧ c ≠ nul

/-- A way to write one token. -/
inductive Item
  | bare (c : Char) (w : Str)
  | quoted (w : Str)
  | comma
  | equals

def Item.text : Item → Str
  | .bare c w => c :: w
  | .quoted w => '"' :: w ++ ['"']
  | .comma => [',']
  | .equals => ['=']

def Item.tok : Item → Tok × Str
  | .bare c w => (.word, c :: w)
  | .quoted w => (.word, w)
  | .comma => (.comma, [','])
  | .equals => (.equals, ['='])

def Item.Ok : Item → Prop
  | .bare c w => BareStart c ∧ ∀ d ∈ w, BareChar d
  | .quoted w => ∀ c ∈ w, c ≠ '"' ∧ c ≠ nul
  | _ => True

def Item.isBare : Item → Bool
  | .bare _ _ => true
  | _ => false

def Item.isWord : Item → Bool
  | .bare _ _ => true
  | .quoted _ => true
  | _ => false

/-- The text with the given gaps and items, ending in a gap. -/
def render : List (List Gap × Item) → List Gap → Str
  | [], tail => tail.flatMap Gap.text
  | (g, i) :: l, tail => g.flatMap Gap.text ++ i.text ++ render l tail

/-- After a bare word, another word needs a gap. -/
def Spaced : List (List Gap × Item) → Prop
  | [] => True
  | [_] => True
  | (_, i) :: (g, j) :: l => (i.isBare = true → j.isWord = true → g ≠ []) ∧ Spaced ((g, j) :: l)

/-- Everything in the text is well formed. -/
def WellWritten (l : List (List Gap × Item)) (tail : List Gap) : Prop :=
  (∀ p ∈ l, (∀ g ∈ p.1, Gap.Ok g) ∧ p.2.Ok) ∧ (∀ g ∈ tail, Gap.Ok g) ∧ Spaced l

theorem skips_space {r s : Str} {c : Char} (h : Skips r s)
    (hs : ∀ d, s.head? = some d → Text.isSpace d = false) (hc : Text.isSpace c = true) :
    Skips (c :: r) s := by
  cases h with
  | refl r => exact .step (Step.space [c] r (by simp) (by simpa using hc) hs) rfl (.refl _)
  | @step _ t l r' _ hst ht hk =>
    have single : (∀ d, r.head? = some d → Text.isSpace d = false) → Skips (c :: r) s := fun hr =>
      .step (Step.space [c] r (by simp) (by simpa using hc) hr) rfl (.step hst ht hk)
    cases hst with
    | space _ _ hw hws hr =>
      refine .step (Step.space (c :: l) r' (by simp) ?_ hr) rfl hk
      intro d hd
      rcases List.mem_cons.1 hd with rfl | hd
      · exact hc
      · exact hws d hd
    | bare | quoted | comma | equals => cases ht
    | commentNl w r hw => exact single (by simp; decide)
    | commentNul w r hw => exact single (by simp; decide)
    | commentEnd w hw => exact single (by simp; decide)

theorem Step.head_not_space {r t l r'} (h : Step r t l r') (ht : t.irrelevant = false) :
    ∀ d, r.head? = some d → Text.isSpace d = false := by
  cases h with
  | bare c w r hc _ _ => simpa using hc.1.1
  | quoted => simp; decide
  | comma => simp; decide
  | equals => simp; decide
  | _ => cases ht

theorem AtEnd.head_not_space {r : Str} (h : AtEnd r) :
    ∀ d, r.head? = some d → Text.isSpace d = false := by
  rcases h with rfl | ⟨r, rfl⟩
  · simp
  · simp; decide

theorem toks_ws {r : Str} {ts} {c : Char} (h : Toks r ts) (hc : Text.isSpace c = true) :
    Toks (c :: r) ts := by
  cases h with
  | done hs he => exact .done (skips_space hs he.head_not_space hc) he
  | cons hs hst ht hts => exact .cons (skips_space hs (hst.head_not_space ht) hc) hst ht hts

theorem toks_comment {r : Str} {ts} {w : Str} (h : Toks r ts) (hw : ∀ c ∈ w, c ≠ '\n' ∧ c ≠ nul) :
    Toks ('#' :: w ++ '\n' :: r) ts := by
  cases h with
  | done hs he => exact .done (.step (.commentNl w r hw) rfl hs) he
  | cons hs hst ht hts => exact .cons (.step (.commentNl w r hw) rfl hs) hst ht hts

theorem toks_gap {r : Str} {ts} (h : Toks r ts) :
    ∀ (g : List Gap), (∀ x ∈ g, Gap.Ok x) → Toks (g.flatMap Gap.text ++ r) ts := by
  intro g
  induction g with
  | nil => intro _; exact h
  | cons x g ih =>
    intro hg
    have h' := ih (fun y hy => hg y (List.mem_cons_of_mem _ hy))
    have hx := hg x List.mem_cons_self
    cases x with
    | ws c => simpa [Gap.text] using toks_ws h' hx
    | comment w => simpa [Gap.text] using toks_comment h' hx

theorem gap_head {g : List Gap} (hg : ∀ x ∈ g, Gap.Ok x) {r : Str}
    (hr : g = [] → ∀ d, r.head? = some d → ¬ BareChar d) :
    ∀ d, (g.flatMap Gap.text ++ r).head? = some d → ¬ BareChar d := by
  cases g with
  | nil => exact hr rfl
  | cons x g =>
    intro d hd
    have hx := hg x List.mem_cons_self
    cases x with
    | ws c =>
      simp [Gap.text] at hd
      subst hd
      intro hb
      have : Text.isSpace c = true := hx
      rw [hb.1] at this
      cases this
    | comment w =>
      simp [Gap.text] at hd
      subst hd
      intro hb
      exact hb.2.2.1 rfl

theorem step_item {i : Item} (hi : i.Ok) {r : Str}
    (hr : i.isBare = true → ∀ d, r.head? = some d → ¬ BareChar d) :
    Step (i.text ++ r) i.tok.1 i.tok.2 r := by
  cases i with
  | bare c w => exact Step.bare c w r hi.1 hi.2 (hr rfl)
  | quoted w => simpa [Item.text, Item.tok] using Step.quoted w r hi
  | comma => exact Step.comma r
  | equals => exact Step.equals r

/-- A written text consists of the tokens that were written. -/
theorem toks_render : ∀ (l : List (List Gap × Item)) (tail : List Gap), WellWritten l tail →
    Toks (render l tail) (l.map fun p => p.2.tok) := by
  intro l
  induction l with
  | nil =>
    intro tail h
    have : Toks ([] : Str) [] := .done (.refl _) (.inl rfl)
    simpa [render] using toks_gap this tail h.2.1
  | cons p l ih =>
    intro tail h
    obtain ⟨g, i⟩ := p
    have hp := h.1 (g, i) List.mem_cons_self
    have hsp : Spaced l := by
      have := h.2.2
      cases l with
      | nil => trivial
      | cons q l => exact this.2
    have hl := ih tail ⟨fun q hq => h.1 q (List.mem_cons_of_mem _ hq), h.2.1, hsp⟩
    rw [render, List.append_assoc]
    refine toks_gap (.cons (.refl _) (step_item hp.2 ?_) ?_ hl) g hp.1
    · intro hb
      cases l with
      | nil =>
        have := gap_head h.2.1 (r := []) (by simp)
        simpa [render] using this
      | cons q l =>
        obtain ⟨g', j⟩ := q
        have hq := h.1 (g', j) (by simp)
        rw [render, List.append_assoc]
        refine gap_head hq.1 ?_
        intro hg0 d hd
        have hj : j.isWord = false := by
          cases hj : j.isWord
          · rfl
          · exact absurd hg0 (h.2.2.1 hb hj)
        cases j with
        | bare | quoted => cases hj
        | comma =>
          simp [Item.text] at hd
          subst hd
          intro hb; exact hb.2.2.2.1 rfl
        | equals =>
          simp [Item.text] at hd
          subst hd
          intro hb; exact hb.2.2.2.2 rfl
    · cases i <;> rfl

/-! ## Where an open quote stands -/

/-- What is being read. `quoted p` remembers the character before the opening quote. -/
inductive Mode
  | start | bare | comment
  | quoted (p : Option Char)

/-- The quote that is never closed: `none` if there is none, otherwise the character before it.
`p` is the character before the text. -/
def openAt : Mode → Option Char → Str → Option (Option Char)
  | .quoted p, _, [] => some p
  | _, _, [] => none
  | .start, p, c :: r =>
    if c = nul then none
    else if c = '#' then openAt .comment none r
    else if c = '"' then openAt (.quoted p) none r
    else if Text.isSpace c ∨ c = ',' ∨ c = '=' then openAt .start (some c) r
    else openAt .bare (some c) r
  | .bare, _, c :: r =>
    if c = nul then none
    else if c = '#' then openAt .comment none r
    else if Text.isSpace c ∨ c = ',' ∨ c = '=' then openAt .start (some c) r
    else openAt .bare (some c) r
  | .comment, _, c :: r =>
    if c = '\n' ∨ c = nul then openAt .start (some c) r else openAt .comment none r
  | .quoted p, _, c :: r =>
    if c = '"' then openAt .start (some '"') r
    else if c = nul then some p
    else openAt (.quoted p) none r

/-- The character before a token boundary is not part of a bare word that would go on. -/
def PrevOk (p : Option Char) (rest : Str) : Prop :=
  ∀ c, p = some c → rest = [] ∨ Text.isSpace c = true ∨ c = ',' ∨ c = '=' ∨ c = '"' ∨ c = nul ∨
    (∀ d, rest.head? = some d → ¬ BareChar d)

/-- Position with the character before it. -/
def AtP (text rest : Str) (pos : Nat) (p : Option Char) : Prop :=
  ∃ pre, text = pre ++ rest ∧ pos = pre.length ∧ pre.getLast? = p

theorem AtP.at {text rest pos p} (h : AtP text rest pos p) : At text rest pos := by
  obtain ⟨pre, h1, h2, _⟩ := h
  exact ⟨pre, h1, h2⟩

theorem At.atP {text rest : Str} {pos : Nat} {w : Str} {c : Char} {r : Str}
    (h : At text rest pos) (hr : rest = w ++ [c] ++ r) {pos' : Nat} (h' : At text r pos') :
    AtP text r pos' (some c) := by
  obtain ⟨pre, rfl, rfl⟩ := h
  obtain ⟨pre', he, rfl⟩ := h'
  subst hr
  refine ⟨pre', he, rfl, ?_⟩
  have : pre' = pre ++ (w ++ [c]) := by
    have h1 : pre ++ (w ++ [c]) ++ r = pre' ++ r := by simpa using he
    exact (List.append_cancel_right h1).symm
  rw [this]
  simp [List.getLast?_append]

theorem openAt_start_space {p c r} (hc : Text.isSpace c = true) :
    openAt .start p (c :: r) = openAt .start (some c) r := by
  have h1 : c ≠ nul := by rintro rfl; simp [nul_not_space] at hc
  have h2 : c ≠ '#' := by rintro rfl; revert hc; decide
  have h3 : c ≠ '"' := by rintro rfl; revert hc; decide
  simp [openAt, h1, h2, h3, hc]

theorem openAt_spaces (w : Str) : ∀ (p r), w ≠ [] → (∀ c ∈ w, Text.isSpace c = true) →
    ∃ w' c, w = w' ++ [c] ∧ openAt .start p (w ++ r) = openAt .start (some c) r := by
  induction w with
  | nil => intro p r h; exact absurd rfl h
  | cons c w ih =>
    intro p r _ hw
    by_cases hwn : w = []
    · subst hwn
      exact ⟨[], c, rfl, openAt_start_space (hw c (by simp))⟩
    · obtain ⟨w', d, rfl, hd⟩ := ih (some c) r hwn (fun e he => hw e (List.mem_cons_of_mem _ he))
      refine ⟨c :: w', d, rfl, ?_⟩
      rw [List.cons_append, openAt_start_space (hw c (by simp)), hd]

theorem openAt_bare_start (p q : Option Char) {r : Str}
    (hr : ∀ d, r.head? = some d → ¬ BareChar d) : openAt .bare p r = openAt .start q r := by
  cases r with
  | nil => rfl
  | cons c r =>
    have hc := hr c rfl
    have hq : c ≠ '"' := by rintro rfl; exact hc ⟨by decide, by decide, by decide, by decide, by decide⟩
    by_cases h1 : c = nul
    · simp [openAt, h1]
    by_cases h2 : c = '#'
    · subst h2; simp [openAt, h1]
    have h3 : Text.isSpace c = true ∨ c = ',' ∨ c = '=' := by
      apply Classical.byContradiction
      intro hn
      simp only [not_or] at hn
      exact hc ⟨by simpa using hn.1, h1, h2, hn.2⟩
    simp [openAt, h1, h2, hq, h3]

theorem openAt_bare_char {p c r} (hc : BareChar c) :
    openAt .bare p (c :: r) = openAt .bare (some c) r := by
  obtain ⟨h1, h2, h3, h4, h5⟩ := hc
  simp [openAt, h1, h2, h3, h4, h5]

theorem openAt_bares (w : Str) : ∀ (p) (c : Char) (r), (∀ d ∈ w, BareChar d) → p = some c →
    ∃ w' d, c :: w = w' ++ [d] ∧ openAt .bare p (w ++ r) = openAt .bare (some d) r := by
  induction w with
  | nil => intro p c r _ hp; exact ⟨[], c, rfl, by rw [hp]; rfl⟩
  | cons e w ih =>
    intro p c r hw hp
    obtain ⟨w', d, h1, h2⟩ := ih (some e) e r (fun x hx => hw x (List.mem_cons_of_mem _ hx)) rfl
    refine ⟨c :: w', d, by rw [h1]; rfl, ?_⟩
    rw [List.cons_append, openAt_bare_char (hw e (by simp)), h2]

theorem openAt_quoted (w : Str) : ∀ (p q r), (∀ c ∈ w, c ≠ '"' ∧ c ≠ nul) →
    ∃ q', openAt (.quoted p) q (w ++ r) = openAt (.quoted p) q' r := by
  induction w with
  | nil => intro p q r _; exact ⟨q, rfl⟩
  | cons c w ih =>
    intro p q r hw
    obtain ⟨q', h⟩ := ih p none r (fun e he => hw e (List.mem_cons_of_mem _ he))
    have hc := hw c (by simp)
    exact ⟨q', by rw [← h]; simp [openAt, hc.1, hc.2]⟩

theorem openAt_comment (w : Str) : ∀ (q r), (∀ c ∈ w, c ≠ '\n' ∧ c ≠ nul) →
    ∃ q', openAt .comment q (w ++ r) = openAt .comment q' r := by
  induction w with
  | nil => intro q r _; exact ⟨q, rfl⟩
  | cons c w ih =>
    intro q r hw
    obtain ⟨q', h⟩ := ih none r (fun e he => hw e (List.mem_cons_of_mem _ he))
    have hc := hw c (by simp)
    exact ⟨q', by rw [← h]; simp [openAt, hc.1, hc.2]⟩

/-- Reading a token moves on to the text after it. -/
theorem openAt_step {rest t l r} (h : Step rest t l r) (p : Option Char) :
    ∃ w c, rest = w ++ [c] ++ r ∧ PrevOk (some c) r ∧
      openAt .start p rest = openAt .start (some c) r := by
  cases h with
  | space _ _ hw hws hr =>
    obtain ⟨w', c, rfl, h⟩ := openAt_spaces l p r hw hws
    refine ⟨w', c, rfl, ?_, h⟩
    intro d hd
    cases hd
    exact .inr (.inl (hws _ (by simp)))
  | bare c w r hc hw hr =>
    obtain ⟨w', d, h1, h2⟩ := openAt_bares w (some c) c r hw rfl
    refine ⟨w', d, by rw [h1], ?_, ?_⟩
    · intro e he
      exact .inr (.inr (.inr (.inr (.inr (.inr hr)))))
    · rw [← openAt_bare_start (some d) (some d) hr, ← h2, List.cons_append]
      obtain ⟨⟨g1, g2, g3, g4, g5⟩, g6⟩ := hc
      simp [openAt, g1, g2, g3, g4, g5, g6]
  | quoted _ _ hw =>
    refine ⟨'"' :: l, '"', by simp, fun e he => by cases he; simp, ?_⟩
    obtain ⟨q', h⟩ := openAt_quoted l p none ('"' :: r) hw
    have : openAt .start p ('"' :: l ++ '"' :: r) = openAt (.quoted p) none (l ++ '"' :: r) := by
      rw [List.cons_append, openAt, if_neg (by decide), if_neg (by decide), if_pos rfl]
    rw [this, h]
    simp [openAt]
  | commentNl w r hw =>
    refine ⟨'#' :: w, '\n', by simp, fun e he => by cases he; exact .inr (.inl (by decide)), ?_⟩
    obtain ⟨q', h⟩ := openAt_comment w none ('\n' :: r) hw
    have : openAt .start p ('#' :: w ++ '\n' :: r) = openAt .comment none (w ++ '\n' :: r) := by
      rw [List.cons_append, openAt, if_neg (by decide), if_pos rfl]
    rw [this, h]
    simp [openAt]
  | commentNul w r hw =>
    refine ⟨'#' :: w, nul, by simp, fun e he => by cases he; simp, ?_⟩
    obtain ⟨q', h⟩ := openAt_comment w none (nul :: r) hw
    have : openAt .start p ('#' :: w ++ nul :: r) = openAt .comment none (w ++ nul :: r) := by
      rw [List.cons_append, openAt, if_neg (by decide), if_pos rfl]
    rw [this, h]
    simp [openAt]
  | commentEnd w hw =>
    have hne : '#' :: w ≠ [] := by simp
    refine ⟨('#' :: w).dropLast, ('#' :: w).getLast hne, ?_, fun e he => .inl rfl, ?_⟩
    · rw [List.append_nil]; exact (List.dropLast_concat_getLast hne).symm
    · obtain ⟨q', h⟩ := openAt_comment w none [] hw
      have : openAt .start p ('#' :: w) = openAt .comment none w := by
        rw [openAt, if_neg (by decide), if_pos rfl]
      rw [List.append_nil] at h
      rw [this, h]
      rfl
  | comma r =>
    exact ⟨[], ',', rfl, fun e he => by cases he; simp, by rw [openAt, if_neg (by decide)]; simp⟩
  | equals r =>
    exact ⟨[], '=', rfl, fun e he => by cases he; simp, by rw [openAt, if_neg (by decide)]; simp⟩

theorem openAt_end {r : Str} (h : AtEnd r) (p) : openAt .start p r = none := by
  rcases h with rfl | ⟨r, rfl⟩
  · rfl
  · simp [openAt]

theorem openAt_open {r : Str} (h : OpenQuote r) (p) : openAt .start p r = some p := by
  have key : ∀ w r : Str, (∀ c ∈ w, c ≠ '"' ∧ c ≠ nul) → AtEnd r →
      openAt .start p ('"' :: w ++ r) = some p := by
    intro w r hw hr
    obtain ⟨q', h⟩ := openAt_quoted w p none r hw
    have : openAt .start p ('"' :: w ++ r) = openAt (.quoted p) none (w ++ r) := by
      rw [List.cons_append, openAt, if_neg (by decide), if_neg (by decide), if_pos rfl]
    rw [this, h]
    rcases hr with rfl | ⟨r, rfl⟩
    · rfl
    · rw [openAt, if_neg (by decide), if_pos rfl]
  obtain ⟨w, hw, rfl | ⟨r, rfl⟩⟩ := h
  · simpa using key w [] hw (.inl rfl)
  · exact key w (nul :: r) hw (.inr ⟨r, rfl⟩)

theorem openAt_skips {rest r : Str} (h : Skips rest r) : ∀ (p) {text pos},
    AtP text rest pos p → PrevOk p rest →
    ∃ p', openAt .start p rest = openAt .start p' r ∧ PrevOk p' r ∧
      ∀ pos', At text r pos' → AtP text r pos' p' := by
  induction h with
  | refl r =>
    intro p text pos hat hp
    refine ⟨p, rfl, hp, ?_⟩
    intro pos' h'
    have h1 := hat.at.le
    have h2 := h'.le
    have : pos' = pos := by omega
    rw [this]; exact hat
  | @step r t l r' r'' hs ht hk ih =>
    intro p text pos hat hp
    obtain ⟨w, c, h1, h2, h3⟩ := openAt_step hs p
    obtain ⟨p1, _, hat1⟩ := raw_step hat.at hs
    have hatp := hat.at.atP h1 hat1
    obtain ⟨p', h4, h5, h6⟩ := ih (some c) hatp h2
    exact ⟨p', by rw [h3, h4], h5, h6⟩

/-- No open quote: the text is a sequence of tokens. -/
theorem toks_of_closed : ∀ (n : Nat) (rest : Str) (p), rest.length ≤ n →
    openAt .start p rest = none → ∃ ts, Toks rest ts := by
  intro n
  induction n with
  | zero =>
    intro rest p h _
    have : rest = [] := List.length_eq_zero_iff.1 (by omega)
    subst this
    exact ⟨[], .done (.refl _) (.inl rfl)⟩
  | succ n ih =>
    intro rest p h ho
    rcases step_total rest with h1 | h1 | ⟨t, l, r, h1⟩
    · exact ⟨[], .done (.refl _) h1⟩
    · rw [openAt_open h1] at ho; cases ho
    · obtain ⟨w, c, _, _, h3⟩ := openAt_step h1 p
      obtain ⟨ts, hts⟩ := ih r (some c) (by have := h1.shorter; omega) (by rw [← h3, ho])
      cases ht : t.irrelevant
      · exact ⟨_, .cons (.refl _) h1 ht hts⟩
      · cases hts with
        | done hs he => exact ⟨_, .done (.step h1 ht hs) he⟩
        | cons hs hst ht' hts => exact ⟨_, .cons (.step h1 ht hs) hst ht' hts⟩

theorem Skips.openAt_none {rest r : Str} (h : Skips rest r) :
    ∀ p, ∃ p', openAt .start p rest = openAt .start p' r := by
  induction h with
  | refl r => intro p; exact ⟨p, rfl⟩
  | step hs _ _ ih =>
    intro p
    obtain ⟨w, c, _, _, h3⟩ := openAt_step hs p
    obtain ⟨p', h⟩ := ih (some c)
    exact ⟨p', by rw [h3, h]⟩

theorem closed_of_toks {rest : Str} {ts} (h : Toks rest ts) : ∀ p, openAt .start p rest = none := by
  induction h with
  | done hs he =>
    intro p
    obtain ⟨p', h⟩ := hs.openAt_none p
    rw [h, openAt_end he]
  | cons hs hst _ _ ih =>
    intro p
    obtain ⟨p', h⟩ := hs.openAt_none p
    obtain ⟨w, c, _, _, h3⟩ := openAt_step hst p'
    rw [h, h3, ih]

end Verif.Words
