import Verif.Model.Submission
import Verif.Props.IOLog
import Verif.Lemmas.Where

/-! # A reader of JSON, and what it makes of the pieces of the report

The reader is the specification of C102. It is a machine that takes characters, with a stack of the arrays and objects that it
is in. It follows RFC 8259; what the escapes in a text stand for is as in C22. -/

namespace Verif.Submission

open Verif.Checksum (Str)

/-! ## The reader -/

/-- Values of JSON. A number is its text. -/
inductive Json
  | null
  | bool (b : Bool)
  | num (text : Str)
  | str (s : Str)
  | arr (l : List Json)
  | obj (l : List (Str × Json))

/-- Where the reader is among the characters: between words, in a text, after a backslash in a text, or in a number or one of
the words `true`, `false` and `null`. -/
inductive Lex
  | idle
  | text (raw : Str)
  | escape (raw : Str)
  | word (w : Str)

/-- What the reader is in: an array, with its elements so far, or the value of a member of an object, with the members before
and the key. -/
inductive Frame
  | arr (l : List Json)
  | mem (l : List (Str × Json)) (key : Str)

/-- What the reader expects: a value (or the end of an array), a comma or the end of an array, a key (or the end of an object),
a colon, a comma or the end of an object; or it has got the value. -/
inductive Want
  | value (orEnd : Bool)
  | after
  | key (l : List (Str × Json)) (orEnd : Bool)
  | colon (l : List (Str × Json)) (key : Str)
  | more (l : List (Str × Json))
  | done (v : Json)

/-- The reader. -/
structure Reader where
  lex : Lex
  stack : List Frame
  want : Want

/-- The reader gets a value. -/
def put (v : Json) : List Frame → Reader
  | [] => ⟨.idle, [], .done v⟩
  | .arr l :: fs => ⟨.idle, .arr (l ++ [v]) :: fs, .after⟩
  | .mem l k :: fs => ⟨.idle, fs, .more (l ++ [(k, v)])⟩

/-- The reader gets a text, a number or a word. -/
def literal (v : Json) (fs : List Frame) : Want → Option Reader
  | .value _ => some (put v fs)
  | .key l _ =>
    match v with
    | .str k => some ⟨.idle, fs, .colon l k⟩
    | _ => none
  | _ => none

/-- The reader gets one of the signs `[ ] { } , :`. -/
def sign (c : Char) (fs : List Frame) : Want → Option Reader
  | .value e =>
    if c = '[' then some ⟨.idle, .arr [] :: fs, .value true⟩
    else if c = '{' then some ⟨.idle, fs, .key [] true⟩
    else if c = ']' ∧ e then
      match fs with
      | .arr l :: fs => some (put (.arr l) fs)
      | _ => none
    else none
  | .after =>
    match fs with
    | .arr l :: fs =>
      if c = ',' then some ⟨.idle, .arr l :: fs, .value false⟩
      else if c = ']' then some (put (.arr l) fs)
      else none
    | _ => none
  | .key l e => if c = '}' ∧ e then some (put (.obj l) fs) else none
  | .colon l k => if c = ':' then some ⟨.idle, .mem l k :: fs, .value false⟩ else none
  | .more l =>
    if c = ',' then some ⟨.idle, fs, .key l false⟩
    else if c = '}' then some (put (.obj l) fs)
    else none
  | .done _ => none

/-- White space. -/
def white (c : Char) : Bool := c = ' ' ∨ c = '\t' ∨ c = '\n' ∨ c = '\r'

/-- Characters of numbers and words. -/
def wordly (c : Char) : Bool := c.isAlphanum || c = '+' || c = '-' || c = '.'

/-- One or more digits, and what is after them. -/
def digits (s : Str) : Option Str :=
  if (s.takeWhile Char.isDigit).isEmpty then none else some (s.dropWhile Char.isDigit)

/-- The exponent of a number, if there is one, and the end. -/
def exponent : Str → Bool
  | [] => true
  | 'e' :: '+' :: s => digits s = some []
  | 'e' :: '-' :: s => digits s = some []
  | 'e' :: s => digits s = some []
  | 'E' :: '+' :: s => digits s = some []
  | 'E' :: '-' :: s => digits s = some []
  | 'E' :: s => digits s = some []
  | _ => false

/-- The digits after the point, if there is one, and what is after them. -/
def fraction : Str → Bool
  | '.' :: s =>
    match digits s with
    | none => false
    | some r => exponent r
  | s => exponent s

/-- A number that is not negative. -/
def unsigned : Str → Bool
  | '0' :: s => fraction s
  | s =>
    match digits s with
    | none => false
    | some r => fraction r

/-- A number. -/
def number : Str → Bool
  | '-' :: s => unsigned s
  | s => unsigned s

/-- What a word stands for. -/
def meaning (w : Str) : Option Json :=
  if w = "null".toList then some .null
  else if w = "true".toList then some (.bool true)
  else if w = "false".toList then some (.bool false)
  else if number w then some (.num w)
  else none

/-- What is written between quotes, without its escapes. -/
def unquote (raw : Str) : Option Str :=
  match IOLog.scanStr (raw ++ ['"']) with
  | some (s, []) => some s
  | _ => none

/-- A character between words. -/
def between (fs : List Frame) (w : Want) (c : Char) : Option Reader :=
  if white c then some ⟨.idle, fs, w⟩
  else if c = '"' then some ⟨.text [], fs, w⟩
  else if wordly c then some ⟨.word [c], fs, w⟩
  else sign c fs w

/-- The reader takes a character. -/
def step (r : Reader) (c : Char) : Option Reader :=
  match r.lex with
  | .idle => between r.stack r.want c
  | .text raw =>
    if c = '"' then (unquote raw).bind fun s => literal (.str s) r.stack r.want
    else if c = '\\' then some ⟨.escape (raw ++ [c]), r.stack, r.want⟩
    else if c.toNat < 0x20 then none
    else some ⟨.text (raw ++ [c]), r.stack, r.want⟩
  | .escape raw => if c.toNat < 0x20 then none else some ⟨.text (raw ++ [c]), r.stack, r.want⟩
  | .word w =>
    if wordly c then some ⟨.word (w ++ [c]), r.stack, r.want⟩
    else (meaning w).bind fun v => (literal v r.stack r.want).bind fun r' => between r'.stack r'.want c

/-- The reader takes characters. -/
def run (r : Reader) : Str → Option Reader
  | [] => some r
  | c :: s => (step r c).bind fun r' => run r' s

/-- The reader at the beginning. -/
def start : Reader := ⟨.idle, [], .value false⟩

/-- What a document says. -/
def readJson (doc : Str) : Option Json :=
  match run start (doc ++ [' ']) with
  | some ⟨.idle, [], .done v⟩ => some v
  | _ => none

/-! ## Lemmas -/

theorem run_append (a b : Str) : ∀ r, run r (a ++ b) = (run r a).bind fun r' => run r' b := by
  induction a with
  | nil => intro r; rfl
  | cons c a ih =>
    intro r
    rw [List.cons_append, run, run]
    cases step r c with
    | none => rfl
    | some r' => exact ih r'

/-- Characters that end a word: white space, commas and brackets. -/
def Delim (c : Char) : Prop := c = '\n' ∨ c = ',' ∨ c = ' '

theorem delim_wordly {c : Char} (h : Delim c) : wordly c = false := by
  rcases h with rfl | rfl | rfl <;> decide

/-- The reader gets from one state to another, when something follows that ends words. -/
def Gets (r : Reader) (s : Str) (r' : Reader) : Prop :=
  ∀ d t, Delim d → run r (s ++ d :: t) = run r' (d :: t)

/-- The text is that of a value. -/
def Value (s : Str) (v : Json) : Prop := ∀ fs e, Gets ⟨.idle, fs, .value e⟩ s (put v fs)

theorem gets_of_run {r r' : Reader} {s : Str} (h : run r s = some r') : Gets r s r' := by
  intro d t _
  rw [run_append, h]; rfl

theorem gets_run {r r' r'' : Reader} {s t : Str} (h : run r s = some r') (h' : Gets r' t r'') : Gets r (s ++ t) r'' := by
  intro d u hd
  rw [List.append_assoc, run_append, h]
  exact h' d u hd

/-- Two pieces, the second of which begins with something that ends words. -/
theorem gets_gets {r r' r'' : Reader} {s t : Str} {c : Char} (h : Gets r s r') (hc : Delim c) (h' : Gets r' (c :: t) r'') :
    Gets r (s ++ c :: t) r'' := by
  intro d u hd
  rw [List.append_assoc, List.cons_append, h c _ hc]
  exact h' d u hd

/-- The same when the whole ends. -/
theorem gets_end {r r' r'' : Reader} {s t : Str} {c : Char} (h : Gets r s r') (hc : Delim c) (h' : run r' (c :: t) = some r'') :
    run r (s ++ c :: t) = some r'' := by
  rw [h c _ hc, h']

theorem run_cons {r r' : Reader} {c : Char} (h : step r c = some r') (s : Str) : run r (c :: s) = run r' s := by
  rw [run, h]; rfl

theorem step_white {fs : List Frame} {w : Want} {c : Char} (h : white c = true) : step ⟨.idle, fs, w⟩ c = some ⟨.idle, fs, w⟩ := by
  rw [step]
  dsimp only
  rw [between, if_pos h]

theorem run_spaces {fs : List Frame} {w : Want} (n : Nat) :
    run ⟨.idle, fs, w⟩ (List.replicate n ' ') = some ⟨.idle, fs, w⟩ := by
  induction n with
  | zero => rfl
  | succ n ih => rw [List.replicate_succ, run_cons (step_white (by decide))]; exact ih

theorem run_margin {fs : List Frame} {w : Want} (n : Nat) : run ⟨.idle, fs, w⟩ (margin n) = some ⟨.idle, fs, w⟩ := by
  rw [margin, run_cons (step_white (by decide))]
  exact run_spaces n

/-- Characters that stand for themselves between quotes. -/
def Free (c : Char) : Prop := 0x20 ≤ c.toNat ∧ c ≠ '"' ∧ c ≠ '\\'

theorem run_text_free {fs : List Frame} {w : Want} (s : Str) (h : ∀ c ∈ s, Free c) : ∀ raw,
    run ⟨.text raw, fs, w⟩ s = some ⟨.text (raw ++ s), fs, w⟩ := by
  induction s with
  | nil => intro raw; rw [List.append_nil]; rfl
  | cons c s ih =>
    intro raw
    have hc := h c List.mem_cons_self
    have : step ⟨.text raw, fs, w⟩ c = some ⟨.text (raw ++ [c]), fs, w⟩ := by
      rw [step]
      dsimp only
      rw [if_neg hc.2.1, if_neg hc.2.2, if_neg (by have := hc.1; omega)]
    rw [run_cons this, ih (fun x hx => h x (List.mem_cons_of_mem _ hx)), List.append_assoc]
    rfl

theorem scan_free (s : Str) (h : ∀ c ∈ s, Free c) : ∀ fuel, s.length + 1 ≤ fuel →
    IOLog.scanStrF fuel (s ++ ['"']) = some (s, []) := by
  induction s with
  | nil =>
    intro fuel hf
    cases fuel with
    | zero => simp at hf
    | succ n => simp [IOLog.scanStrF]
  | cons c s ih =>
    intro fuel hf
    have hc := h c List.mem_cons_self
    cases fuel with
    | zero => simp at hf
    | succ n =>
      rw [List.cons_append, IOLog.scanStrF, if_neg hc.2.1, if_neg hc.2.2, if_neg (by have := hc.1; omega),
        ih (fun x hx => h x (List.mem_cons_of_mem _ hx)) n (by simp only [List.length_cons] at hf; omega)]
      rfl

theorem unquote_free (s : Str) (h : ∀ c ∈ s, Free c) : unquote s = some s := by
  rw [unquote, IOLog.scanStr, scan_free s h _ (by simp)]

theorem step_quote {fs : List Frame} {w : Want} {raw s : Str} (h : unquote raw = some s) :
    step ⟨.text raw, fs, w⟩ '"' = literal (.str s) fs w := by
  rw [step]
  dsimp only
  rw [if_pos rfl, h]
  rfl

theorem step_open {fs : List Frame} {w : Want} : step ⟨.idle, fs, w⟩ '"' = some ⟨.text [], fs, w⟩ := by
  rw [step]
  dsimp only
  rw [between, if_neg (by decide), if_pos rfl]

/-- A text between quotes, whose characters stand for themselves. -/
theorem run_quoted {fs : List Frame} {w : Want} {r : Reader} (s : Str) (h : ∀ c ∈ s, Free c)
    (hl : literal (.str s) fs w = some r) : run ⟨.idle, fs, w⟩ (quoted s) = some r := by
  rw [quoted, run_cons step_open, run_append, run_text_free s h, Option.bind_some, List.nil_append,
    run_cons (r' := r) (by rw [step_quote (unquote_free s h), hl])]
  rfl

theorem value_quoted (s : Str) (h : ∀ c ∈ s, Free c) : Value (quoted s) (.str s) :=
  fun _ _ => gets_of_run (run_quoted s h rfl)

theorem hexDigit_free (n : Nat) : Free (IOLog.hexDigit n) := by
  have : ∀ c ∈ '0' :: "0123456789abcdef".toList, Free c := by
    intro c hc
    have h : (('0' :: "0123456789abcdef".toList).all fun c => decide (0x20 ≤ c.toNat ∧ c ≠ '"' ∧ c ≠ '\\')) = true := by
      decide +kernel
    have := List.all_eq_true.1 h c hc
    rw [decide_eq_true_iff] at this
    exact this
  unfold IOLog.hexDigit
  rw [List.getD_eq_getElem?_getD]
  cases hg : "0123456789abcdef".toList[n]? with
  | none => exact this _ List.mem_cons_self
  | some c => exact this _ (List.mem_cons_of_mem _ (List.mem_of_getElem? hg))

theorem step_free {fs : List Frame} {w : Want} {raw : Str} {c : Char} (hc : Free c) :
    step ⟨.text raw, fs, w⟩ c = some ⟨.text (raw ++ [c]), fs, w⟩ := by
  rw [step]
  dsimp only
  rw [if_neg hc.2.1, if_neg hc.2.2, if_neg (by have := hc.1; omega)]

theorem step_back {fs : List Frame} {w : Want} {raw : Str} :
    step ⟨.text raw, fs, w⟩ '\\' = some ⟨.escape (raw ++ ['\\']), fs, w⟩ := by
  rw [step]
  dsimp only
  rw [if_neg (by decide), if_pos rfl]

theorem step_escaped {fs : List Frame} {w : Want} {raw : Str} {c : Char} (hc : 0x20 ≤ c.toNat) :
    step ⟨.escape raw, fs, w⟩ c = some ⟨.text (raw ++ [c]), fs, w⟩ := by
  rw [step]
  dsimp only
  rw [if_neg (by omega)]

/-- A backslash and a character. -/
theorem run_pair {fs : List Frame} {w : Want} {raw : Str} {c : Char} (hc : 0x20 ≤ c.toNat) :
    run ⟨.text raw, fs, w⟩ ['\\', c] = some ⟨.text (raw ++ ['\\', c]), fs, w⟩ := by
  rw [run_cons step_back, run_cons (step_escaped hc), List.append_assoc]
  rfl

theorem run_uEsc {fs : List Frame} {w : Want} {raw : Str} (n : Nat) :
    run ⟨.text raw, fs, w⟩ (IOLog.uEsc n) = some ⟨.text (raw ++ IOLog.uEsc n), fs, w⟩ := by
  have he : IOLog.uEsc n = ['\\', 'u'] ++ [IOLog.hexDigit (n / 4096 % 16), IOLog.hexDigit (n / 256 % 16),
    IOLog.hexDigit (n / 16 % 16), IOLog.hexDigit (n % 16)] := rfl
  rw [he, run_append, run_pair (by decide), Option.bind_some, run_text_free _ ?_, List.append_assoc]
  intro c hc
  simp only [List.mem_cons, List.not_mem_nil, or_false] at hc
  rcases hc with rfl | rfl | rfl | rfl <;> exact hexDigit_free _

theorem run_escChar {fs : List Frame} {w : Want} {raw : Str} (c : Char) :
    run ⟨.text raw, fs, w⟩ (IOLog.escChar c) = some ⟨.text (raw ++ IOLog.escChar c), fs, w⟩ := by
  unfold IOLog.escChar
  split
  · exact run_pair (by decide)
  · next h1 =>
    split
    · exact run_pair (by decide)
    · next h2 =>
      split
      · exact run_pair (by decide)
      · split
        · exact run_pair (by decide)
        · split
          · exact run_pair (by decide)
          · split
            · exact run_pair (by decide)
            · split
              · exact run_pair (by decide)
              · split
                · next h => rw [run_cons (step_free ⟨h.1, h1, h2⟩)]; rfl
                · split
                  · exact run_uEsc _
                  · rw [run_append, run_uEsc, Option.bind_some, run_uEsc, List.append_assoc]

theorem run_escaped {fs : List Frame} {w : Want} (s : Str) : ∀ raw,
    run ⟨.text raw, fs, w⟩ (s.map IOLog.escChar).flatten = some ⟨.text (raw ++ (s.map IOLog.escChar).flatten), fs, w⟩ := by
  induction s with
  | nil => intro raw; simp [run]
  | cons c s ih =>
    intro raw
    rw [List.map_cons, List.flatten_cons, run_append, run_escChar, Option.bind_some, ih, List.append_assoc]

theorem unquote_escaped (s : Str) : unquote (s.map IOLog.escChar).flatten = some s := by
  rw [unquote, IOLog.scanStr_round]

/-- What `json.dumps` writes. -/
theorem value_jsonStr (s : Str) : Value (IOLog.jsonStr s) (.str s) := by
  intro fs e
  refine gets_of_run ?_
  rw [IOLog.jsonStr, run_cons step_open, run_append, run_escaped, Option.bind_some, List.nil_append,
    run_cons (r' := put (.str s) fs) (by rw [step_quote (unquote_escaped s)]; rfl)]
  rfl

theorem run_word {fs : List Frame} {w : Want} (s : Str) (h : ∀ c ∈ s, wordly c = true) : ∀ raw,
    run ⟨.word raw, fs, w⟩ s = some ⟨.word (raw ++ s), fs, w⟩ := by
  induction s with
  | nil => intro raw; rw [List.append_nil]; rfl
  | cons c s ih =>
    intro raw
    have : step ⟨.word raw, fs, w⟩ c = some ⟨.word (raw ++ [c]), fs, w⟩ := by
      rw [step]
      dsimp only
      rw [if_pos (h c List.mem_cons_self)]
    rw [run_cons this, ih (fun x hx => h x (List.mem_cons_of_mem _ hx)), List.append_assoc]
    rfl

theorem put_idle (v : Json) (fs : List Frame) : (put v fs).lex = .idle := by
  cases fs with
  | nil => rfl
  | cons f fs => cases f <;> rfl

theorem step_idle {r : Reader} (h : r.lex = .idle) (c : Char) : step r c = between r.stack r.want c := by
  rw [step, h]

theorem wordly_plain {c : Char} (h : wordly c = true) : white c = false ∧ c ≠ '"' := by
  have h2 : c ≠ '"' := by rintro rfl; revert h; decide
  refine ⟨?_, h2⟩
  rw [Bool.eq_false_iff]
  intro hw
  have : c = ' ' ∨ c = '\t' ∨ c = '\n' ∨ c = '\r' := by simpa [white] using hw
  rcases this with rfl | rfl | rfl | rfl <;> revert h <;> decide

/-- A word that stands for something. -/
theorem value_word {s : Str} {v : Json} (h : ∀ c ∈ s, wordly c = true) (hs : s ≠ []) (hm : meaning s = some v) : Value s v := by
  intro fs e d t hd
  cases s with
  | nil => exact absurd rfl hs
  | cons c s =>
    have hc := h c List.mem_cons_self
    have hp := wordly_plain hc
    have h1 : step ⟨.idle, fs, .value e⟩ c = some ⟨.word [c], fs, .value e⟩ := by
      rw [step]
      dsimp only
      rw [between, hp.1, if_neg (by decide), if_neg hp.2, if_pos hc]
    rw [List.cons_append, run_cons h1, run_append, run_word s (fun x hx => h x (List.mem_cons_of_mem _ hx)), Option.bind_some, run,
      run]
    congr 1
    rw [step_idle (put_idle v fs), step]
    dsimp only
    rw [delim_wordly hd, if_neg (by decide), List.singleton_append, hm]
    rfl

theorem value_null : Value "null".toList .null := value_word (by decide) (by decide) rfl

/-- A number without sign, fraction and exponent. -/
def Numeral (s : Str) : Prop := s ≠ [] ∧ (∀ c ∈ s, c.isDigit = true) ∧ (s = ['0'] ∨ s.head? ≠ some '0')

theorem takeWhile_all {p : Char → Bool} {s : Str} (h : ∀ c ∈ s, p c = true) : s.takeWhile p = s ∧ s.dropWhile p = [] := by
  induction s with
  | nil => exact ⟨rfl, rfl⟩
  | cons c s ih =>
    have := ih fun x hx => h x (List.mem_cons_of_mem _ hx)
    rw [List.takeWhile_cons, List.dropWhile_cons, h c List.mem_cons_self]
    exact ⟨congrArg (c :: ·) this.1, this.2⟩

theorem digits_all {s : Str} (h : ∀ c ∈ s, c.isDigit = true) (hs : s ≠ []) : digits s = some [] := by
  have := takeWhile_all h
  rw [digits, this.1, this.2, if_neg (by simpa using hs)]

theorem number_numeral {s : Str} (h : Numeral s) : number s = true := by
  obtain ⟨hs, hd, h0⟩ := h
  cases s with
  | nil => exact absurd rfl hs
  | cons c s =>
    have hc := hd c List.mem_cons_self
    have hm : c ≠ '-' := by rintro rfl; revert hc; decide
    have h1 : number (c :: s) = unsigned (c :: s) := by
      unfold number
      split
      · next h => cases h; exact absurd rfl hm
      · rfl
    rw [h1]
    rcases h0 with h0 | h0
    · rw [h0]; rfl
    · have hz : c ≠ '0' := by rintro rfl; exact h0 rfl
      unfold unsigned
      split
      · next h => cases h; exact absurd rfl hz
      · rw [digits_all hd hs]; rfl

theorem value_numeral {s : Str} (h : Numeral s) : Value s (.num s) := by
  have hd : ∀ c ∈ s, wordly c = true := by
    intro c hc
    have : c.isAlphanum = true := by
      unfold Char.isAlphanum
      rw [h.2.1 c hc, Bool.or_true]
    simp [wordly, this]
  have hw : ∀ t : Str, (∃ c ∈ t, c.isDigit = false) → s ≠ t := by
    rintro t ⟨c, hc, hf⟩ rfl
    rw [h.2.1 c hc] at hf
    cases hf
  refine value_word hd h.1 ?_
  unfold meaning
  rw [if_neg (hw _ ⟨'n', by decide, by decide⟩), if_neg (hw _ ⟨'t', by decide, by decide⟩),
    if_neg (hw _ ⟨'f', by decide, by decide⟩), if_pos (number_numeral h)]

/-! ### Members, objects and arrays -/

theorem step_sign {fs : List Frame} {w : Want} {c : Char} {r : Reader} (h1 : white c = false) (h2 : c ≠ '"')
    (h3 : wordly c = false) (h : sign c fs w = some r) : step ⟨.idle, fs, w⟩ c = some r := by
  rw [step]
  dsimp only
  rw [between, h1, if_neg (by decide), if_neg h2, h3, if_neg (by decide), h]

theorem value_margin {s : Str} {v : Json} (n : Nat) (h : Value s v) : Value (margin n ++ s) v :=
  fun fs e => gets_run (run_margin n) (h fs e)

/-- A key and a value. -/
def entry (n : Nat) (k v : Str) : Str := margin n ++ (quoted k ++ (':' :: ' ' :: v))

theorem member_eq (n : Nat) (k : String) (v : Str) : member n k v = entry n k.toList v := by
  simp [member, entry, quoted]

theorem line_eq (n : Nat) (k v : Str) : line n k v = entry n (Junit.escape k) (quoted (Junit.escape v)) := by
  simp [line, entry, quoted]

/-- A piece that is a member of an object. -/
def Member (s : Str) (k : Str) (v : Json) : Prop :=
  ∀ fs l e, Gets ⟨.idle, fs, .key l e⟩ s ⟨.idle, fs, .more (l ++ [(k, v)])⟩

theorem member_entry {n : Nat} {k v : Str} {j : Json} (hk : ∀ c ∈ k, Free c)
    (hv : ∀ fs, Gets ⟨.idle, fs, .value false⟩ v (put j fs)) : Member (entry n k v) k j := by
  intro fs l e
  refine gets_run (run_margin n) (gets_run (run_quoted k hk rfl) ?_)
  have h := hv (.mem l k :: fs)
  intro d t hd
  rw [List.cons_append, List.cons_append,
    run_cons (step_sign (r := ⟨.idle, .mem l k :: fs, .value false⟩) (by decide) (by decide) (by decide) rfl),
    run_cons (step_white (by decide))]
  exact h d t hd

theorem entry_delim (n : Nat) (k v : Str) : ∃ t, entry n k v = '\n' :: t := ⟨_, rfl⟩

/-- Members with commas between them. -/
theorem gets_members {pieces : List (Str × Str × Json)} (hp : ∀ p ∈ pieces, Member p.1 p.2.1 p.2.2) (hne : pieces ≠ []) :
    ∀ fs l e, Gets ⟨.idle, fs, .key l e⟩ (listed (pieces.map (·.1))) ⟨.idle, fs, .more (l ++ pieces.map (·.2))⟩ := by
  induction pieces with
  | nil => exact absurd rfl hne
  | cons p ps ih =>
    intro fs l e
    have h1 := hp p List.mem_cons_self fs l e
    cases ps with
    | nil => exact h1
    | cons q ps =>
      have h2 := ih (fun x hx => hp x (List.mem_cons_of_mem _ hx)) (by simp) fs (l ++ [p.2]) false
      rw [show listed (List.map (·.1) (p :: q :: ps)) = p.1 ++ ',' :: listed ((q :: ps).map (·.1)) from rfl]
      refine gets_gets h1 (Or.inr (Or.inl rfl)) ?_
      have hs : step ⟨.idle, fs, .more (l ++ [p.2])⟩ ',' = some ⟨.idle, fs, .key (l ++ [p.2]) false⟩ :=
        step_sign (by decide) (by decide) (by decide) rfl
      have := gets_run (s := [',']) (by rw [run_cons hs]; rfl) h2
      rw [List.append_assoc] at this
      exact this

/-- An object. -/
theorem value_object {pieces : List (Str × Str × Json)} (n : Nat) (hp : ∀ p ∈ pieces, Member p.1 p.2.1 p.2.2) :
    Value ('{' :: (listed (pieces.map (·.1)) ++ margin n ++ ['}'])) (.obj (pieces.map (·.2))) := by
  intro fs e
  have ho : step ⟨.idle, fs, .value e⟩ '{' = some ⟨.idle, fs, .key [] true⟩ :=
    step_sign (by decide) (by decide) (by decide) rfl
  refine gets_of_run ?_
  rw [run_cons ho]
  by_cases hne : pieces = []
  · subst hne
    rw [List.map_nil, listed, List.nil_append, run_append, run_margin, Option.bind_some,
      run_cons (step_sign (r := put (.obj []) fs) (by decide) (by decide) (by decide) rfl)]
    rfl
  · have h := gets_members hp hne fs [] true
    rw [List.append_assoc, margin, List.cons_append]
    refine gets_end h (Or.inl rfl) ?_
    rw [← List.cons_append, ← margin, run_append, run_margin, Option.bind_some,
      run_cons (step_sign (r := put (.obj (pieces.map (·.2))) fs) (by decide) (by decide) (by decide) rfl)]
    rfl

/-- Elements with commas between them. -/
theorem gets_elements {pieces : List (Str × Json)} (hp : ∀ p ∈ pieces, Value p.1 p.2) (hne : pieces ≠ []) :
    ∀ fs l e, Gets ⟨.idle, .arr l :: fs, .value e⟩ (listed (pieces.map (·.1)))
      ⟨.idle, .arr (l ++ pieces.map (·.2)) :: fs, .after⟩ := by
  induction pieces with
  | nil => exact absurd rfl hne
  | cons p ps ih =>
    intro fs l e
    have h1 := hp p List.mem_cons_self (.arr l :: fs) e
    cases ps with
    | nil => exact h1
    | cons q ps =>
      have h2 := ih (fun x hx => hp x (List.mem_cons_of_mem _ hx)) (by simp) fs (l ++ [p.2]) false
      rw [show listed (List.map (·.1) (p :: q :: ps)) = p.1 ++ ',' :: listed ((q :: ps).map (·.1)) from rfl]
      refine gets_gets h1 (Or.inr (Or.inl rfl)) ?_
      have hs : step (put p.2 (.arr l :: fs)) ',' = some ⟨.idle, .arr (l ++ [p.2]) :: fs, .value false⟩ :=
        step_sign (by decide) (by decide) (by decide) rfl
      have := gets_run (s := [',']) (by rw [run_cons hs]; rfl) h2
      rw [List.append_assoc] at this
      exact this

/-- An array. -/
theorem value_array {pieces : List (Str × Json)} (n : Nat) (hp : ∀ p ∈ pieces, Value p.1 p.2) :
    Value ('[' :: (listed (pieces.map (·.1)) ++ margin n ++ [']'])) (.arr (pieces.map (·.2))) := by
  intro fs e
  have ho : step ⟨.idle, fs, .value e⟩ '[' = some ⟨.idle, .arr [] :: fs, .value true⟩ :=
    step_sign (by decide) (by decide) (by decide) rfl
  refine gets_of_run ?_
  rw [run_cons ho]
  by_cases hne : pieces = []
  · subst hne
    rw [List.map_nil, listed, List.nil_append, run_append, run_margin, Option.bind_some,
      run_cons (step_sign (r := put (.arr []) fs) (by decide) (by decide) (by decide) rfl)]
    rfl
  · have h := gets_elements hp hne fs [] true
    rw [List.append_assoc, margin, List.cons_append]
    refine gets_end h (Or.inl rfl) ?_
    rw [← List.cons_append, ← margin, run_append, run_margin, Option.bind_some,
      run_cons (step_sign (r := put (.arr (pieces.map (·.2))) fs) (by decide) (by decide) (by decide) rfl)]
    rfl

/-! ### Documents within documents -/

/-- Where the reader is, when the document is within another one. -/
def place (ctx : List Frame) (fs : List Frame) : Want → List Frame × Want
  | .done v => ((put v ctx).stack, (put v ctx).want)
  | w => (fs ++ ctx, w)

/-- The reader, when the document is within another one. -/
def lift (ctx : List Frame) (r : Reader) : Reader := ⟨r.lex, (place ctx r.stack r.want).1, (place ctx r.stack r.want).2⟩

theorem lift_put (ctx : List Frame) (v : Json) (fs : List Frame) : lift ctx (put v fs) = put v (fs ++ ctx) := by
  cases fs with
  | nil =>
    have h := put_idle v ctx
    show (⟨.idle, (put v ctx).stack, (put v ctx).want⟩ : Reader) = put v ctx
    rw [← h]
  | cons f fs => cases f <;> rfl

theorem literal_lift {ctx fs : List Frame} {v : Json} {w : Want} {r : Reader} (h : literal v fs w = some r) :
    literal v (place ctx fs w).1 (place ctx fs w).2 = some (lift ctx r) := by
  cases w with
  | value e =>
    cases h
    rw [lift_put]
    rfl
  | key l e =>
    cases v <;> cases h
    rfl
  | after => cases h
  | colon l k => cases h
  | more l => cases h
  | done v => cases h

theorem sign_lift {ctx fs : List Frame} {c : Char} {w : Want} {r : Reader} (h : sign c fs w = some r) :
    sign c (place ctx fs w).1 (place ctx fs w).2 = some (lift ctx r) := by
  cases w with
  | value e =>
    show sign c (fs ++ ctx) (.value e) = _
    rw [sign.eq_def] at h ⊢
    dsimp only at h ⊢
    by_cases h1 : c = '['
    · rw [if_pos h1] at h ⊢
      cases h
      rfl
    · rw [if_neg h1] at h ⊢
      by_cases h2 : c = '{'
      · rw [if_pos h2] at h ⊢
        cases h
        rfl
      · rw [if_neg h2] at h ⊢
        by_cases h3 : c = ']' ∧ e = true
        · rw [if_pos h3] at h ⊢
          cases fs with
          | nil => cases h
          | cons f fs =>
            cases f with
            | mem l k => cases h
            | arr l =>
              cases h
              rw [lift_put]
              rfl
        · rw [if_neg h3] at h
          cases h
  | after =>
    cases fs with
    | nil => cases h
    | cons f fs =>
      cases f with
      | mem l k => cases h
      | arr l =>
        show sign c (.arr l :: (fs ++ ctx)) .after = _
        rw [sign] at h ⊢
        by_cases h1 : c = ','
        · rw [if_pos h1] at h ⊢
          cases h
          rfl
        · rw [if_neg h1] at h ⊢
          by_cases h2 : c = ']'
          · rw [if_pos h2] at h ⊢
            cases h
            rw [lift_put]
          · rw [if_neg h2] at h
            cases h
  | key l e =>
    show sign c (fs ++ ctx) (.key l e) = _
    rw [sign] at h ⊢
    by_cases h1 : c = '}' ∧ e = true
    · rw [if_pos h1] at h ⊢
      cases h
      rw [lift_put]
    · rw [if_neg h1] at h
      cases h
  | colon l k =>
    show sign c (fs ++ ctx) (.colon l k) = _
    rw [sign] at h ⊢
    by_cases h1 : c = ':'
    · rw [if_pos h1] at h ⊢
      cases h
      rfl
    · rw [if_neg h1] at h
      cases h
  | more l =>
    show sign c (fs ++ ctx) (.more l) = _
    rw [sign] at h ⊢
    by_cases h1 : c = ','
    · rw [if_pos h1] at h ⊢
      cases h
      rfl
    · rw [if_neg h1] at h ⊢
      by_cases h2 : c = '}'
      · rw [if_pos h2] at h ⊢
        cases h
        rw [lift_put]
      · rw [if_neg h2] at h
        cases h
  | done v => cases h

theorem between_lift {ctx fs : List Frame} {c : Char} {w : Want} {r : Reader} (h : between fs w c = some r) :
    between (place ctx fs w).1 (place ctx fs w).2 c = some (lift ctx r) := by
  unfold between at h ⊢
  by_cases h1 : white c = true
  · rw [if_pos h1] at h ⊢; cases h; rfl
  · rw [if_neg h1] at h ⊢
    by_cases h2 : c = '"'
    · rw [if_pos h2] at h ⊢; cases h; rfl
    · rw [if_neg h2] at h ⊢
      by_cases h3 : wordly c = true
      · rw [if_pos h3] at h ⊢; cases h; rfl
      · rw [if_neg h3] at h ⊢
        exact sign_lift h

theorem step_lift {ctx : List Frame} {c : Char} {r r' : Reader} (h : step r c = some r') :
    step (lift ctx r) c = some (lift ctx r') := by
  obtain ⟨lex, fs, w⟩ := r
  rw [step] at h ⊢
  cases lex with
  | idle => exact between_lift h
  | text raw =>
    show (if c = '"' then (unquote raw).bind fun s => literal (.str s) (place ctx fs w).1 (place ctx fs w).2
      else if c = '\\' then some ⟨.escape (raw ++ [c]), (place ctx fs w).1, (place ctx fs w).2⟩
      else if c.toNat < 0x20 then none
      else some ⟨.text (raw ++ [c]), (place ctx fs w).1, (place ctx fs w).2⟩) = _
    dsimp only at h
    by_cases h1 : c = '"'
    · rw [if_pos h1] at h ⊢
      cases hu : unquote raw with
      | none => rw [hu] at h; cases h
      | some s =>
        rw [hu] at h
        exact literal_lift h
    · rw [if_neg h1] at h ⊢
      by_cases h2 : c = '\\'
      · rw [if_pos h2] at h ⊢; cases h; rfl
      · rw [if_neg h2] at h ⊢
        by_cases h3 : c.toNat < 0x20
        · rw [if_pos h3] at h; cases h
        · rw [if_neg h3] at h ⊢; cases h; rfl
  | escape raw =>
    show (if c.toNat < 0x20 then none else some (⟨.text (raw ++ [c]), (place ctx fs w).1, (place ctx fs w).2⟩ : Reader)) = _
    dsimp only at h
    by_cases h3 : c.toNat < 0x20
    · rw [if_pos h3] at h; cases h
    · rw [if_neg h3] at h ⊢; cases h; rfl
  | word u =>
    show (if wordly c then some ⟨.word (u ++ [c]), (place ctx fs w).1, (place ctx fs w).2⟩
      else (meaning u).bind fun v => (literal v (place ctx fs w).1 (place ctx fs w).2).bind fun r' =>
        between r'.stack r'.want c) = _
    dsimp only at h
    by_cases h3 : wordly c = true
    · rw [if_pos h3] at h ⊢; cases h; rfl
    · rw [if_neg h3] at h ⊢
      cases hm : meaning u with
      | none => rw [hm] at h; cases h
      | some v =>
        rw [hm] at h
        simp only [Option.bind_some] at h ⊢
        cases hl : literal v fs w with
        | none => rw [hl] at h; cases h
        | some r1 =>
          rw [hl] at h
          rw [literal_lift hl]
          exact between_lift h

theorem run_lift {ctx : List Frame} (s : Str) : ∀ {r r' : Reader}, run r s = some r' → run (lift ctx r) s = some (lift ctx r') := by
  induction s with
  | nil => intro r r' h; cases h; rfl
  | cons c s ih =>
    intro r r' h
    rw [run] at h
    cases hs : step r c with
    | none => rw [hs] at h; cases h
    | some r1 =>
      rw [hs] at h
      rw [run_cons (step_lift hs)]
      exact ih h

theorem readJson_run {s : Str} {v : Json} (h : readJson s = some v) : run start (s ++ [' ']) = some ⟨.idle, [], .done v⟩ := by
  unfold readJson at h
  split at h
  · next v' hr => cases h; exact hr
  · cases h

/-- When a space ends the text of a value, then so does anything else that ends words. -/
theorem gets_space {r r' : Reader} {s : Str} (h : run r (s ++ [' ']) = some r') (hi : r'.lex = .idle) : Gets r s r' := by
  intro d t hd
  rw [run_append] at h ⊢
  cases hs : run r s with
  | none => rw [hs] at h; cases h
  | some r1 =>
    rw [hs] at h
    simp only [Option.bind_some] at h ⊢
    obtain ⟨lex, fs, w⟩ := r1
    cases lex with
    | idle =>
      rw [run_cons (step_white (by decide))] at h
      cases h
      rfl
    | text raw =>
      rw [run_cons (step_free (c := ' ') ⟨by decide, by decide, by decide⟩)] at h
      cases h
      cases hi
    | escape raw =>
      rw [run_cons (step_escaped (by decide))] at h
      cases h
      cases hi
    | word u =>
      rw [run, step] at h
      dsimp only at h
      rw [if_neg (by decide)] at h
      rw [run, run, step, step_idle hi]
      dsimp only
      rw [delim_wordly hd, if_neg (by decide)]
      cases hm : meaning u with
      | none => rw [hm] at h; cases h
      | some v =>
        rw [hm] at h
        simp only [Option.bind_some] at h ⊢
        cases hl : literal v fs w with
        | none => rw [hl] at h; cases h
        | some r1 =>
          rw [hl] at h
          simp only [Option.bind_some] at h ⊢
          rw [between, if_pos (by decide)] at h
          cases h
          rfl

/-- A document is a value within another. -/
theorem value_document {s : Str} {v : Json} (h : readJson s = some v) : ∀ fs, Gets ⟨.idle, fs, .value false⟩ s (put v fs) := by
  intro fs
  have := run_lift (ctx := fs) _ (readJson_run h)
  refine gets_space ?_ (put_idle v fs)
  rw [show lift fs ⟨.idle, [], .done v⟩ = put v fs from lift_put fs v []] at this
  exact this

/-! ### Indentation -/

/-- Line boundaries that JSON allows within texts, and that become line feeds. -/
def Odd (c : Char) : Prop := c.toNat = 0x85 ∨ c.toNat = 0x2028 ∨ c.toNat = 0x2029

theorem step_break {r : Reader} {c : Char} (hc : c.toNat < 0x20) {r' : Reader} (h : step r c = some r') :
    (∃ fs w, r = ⟨.idle, fs, w⟩) ∨ ∃ u fs w, r = ⟨.word u, fs, w⟩ := by
  obtain ⟨lex, fs, w⟩ := r
  cases lex with
  | idle => exact Or.inl ⟨fs, w, rfl⟩
  | word u => exact Or.inr ⟨u, fs, w, rfl⟩
  | escape raw =>
    rw [step] at h
    dsimp only at h
    rw [if_pos hc] at h
    cases h
  | text raw =>
    rw [step] at h
    dsimp only at h
    rw [if_neg (by rintro rfl; revert hc; decide), if_neg (by rintro rfl; revert hc; decide), if_pos hc] at h
    cases h

theorem white_wordly {c : Char} (h : white c = true) : wordly c = false := by
  have : c = ' ' ∨ c = '\t' ∨ c = '\n' ∨ c = '\r' := by simpa [white] using h
  rcases this with rfl | rfl | rfl | rfl <;> decide

/-- All white space ends words alike, outside of texts. -/
theorem step_breaks {r : Reader} (hr : (∃ fs w, r = ⟨.idle, fs, w⟩) ∨ ∃ u fs w, r = ⟨.word u, fs, w⟩) {c d : Char}
    (hc : white c = true) (hd : white d = true) : step r c = step r d := by
  have hb : ∀ fs w, between fs w c = between fs w d := by
    intro fs w
    rw [between, between, if_pos hc, if_pos hd]
  rcases hr with ⟨fs, w, rfl⟩ | ⟨u, fs, w, rfl⟩
  · rw [step, step]
    exact hb fs w
  · rw [step, step]
    dsimp only
    rw [white_wordly hc, white_wordly hd, if_neg (by decide), if_neg (by decide)]
    simp only [hb]

theorem break_idle {r r' : Reader} {c : Char} (hr : (∃ fs w, r = ⟨.idle, fs, w⟩) ∨ ∃ u fs w, r = ⟨.word u, fs, w⟩)
    (hc : white c = true) (h : step r c = some r') : r'.lex = .idle := by
  rcases hr with ⟨fs, w, rfl⟩ | ⟨u, fs, w, rfl⟩
  · rw [step_white hc] at h
    cases h
    rfl
  · rw [step] at h
    dsimp only at h
    rw [white_wordly hc, if_neg (by decide)] at h
    cases hm : meaning u with
    | none => rw [hm] at h; cases h
    | some v =>
      rw [hm] at h
      simp only [Option.bind_some] at h
      cases hl : literal v fs w with
      | none => rw [hl] at h; cases h
      | some r1 =>
        rw [hl] at h
        simp only [Option.bind_some] at h
        rw [between, if_pos hc] at h
        cases h
        rfl

theorem break_low {c : Char} (h : Where.isBreak c = true) (ho : ¬ Odd c) : c.toNat < 0x20 := by
  unfold Where.isBreak at h
  unfold Odd at ho
  simp at h
  omega

theorem low_white {c : Char} {r r' : Reader} (hc : c.toNat < 0x20) (h : step r c = some r') : white c = true := by
  have hb : ∀ {fs w r'}, between fs w c = some r' → white c = true := by
    intro fs w r' hb
    unfold between at hb
    cases hw : white c with
    | true => rfl
    | false =>
      rw [hw, if_neg (by decide), if_neg (by rintro rfl; revert hc; decide)] at hb
      have h1 : wordly c = false := by
        rw [Bool.eq_false_iff]
        intro h1
        unfold wordly at h1
        simp only [Bool.or_eq_true, decide_eq_true_eq] at h1
        rcases h1 with ((h1 | rfl) | rfl) | rfl
        · unfold Char.isAlphanum Char.isAlpha Char.isUpper Char.isLower Char.isDigit at h1
          simp only [Bool.or_eq_true, Bool.and_eq_true, decide_eq_true_eq, ge_iff_le, UInt32.le_iff_toNat_le] at h1
          have e : c.toNat = c.val.toNat := rfl
          simp at h1
          omega
        · revert hc; decide
        · revert hc; decide
        · revert hc; decide
      rw [h1, if_neg (by decide)] at hb
      have hn : ∀ d : Char, 0x20 ≤ d.toNat → c ≠ d := by rintro d hd rfl; omega
      unfold sign at hb
      cases w with
      | value e =>
        dsimp only at hb
        rw [if_neg (hn _ (by decide)), if_neg (hn _ (by decide)), if_neg (fun h => hn _ (by decide) h.1)] at hb
        cases hb
      | after =>
        dsimp only at hb
        split at hb
        · rw [if_neg (hn _ (by decide)), if_neg (hn _ (by decide))] at hb; cases hb
        · cases hb
      | key l e =>
        dsimp only at hb
        rw [if_neg (fun h => hn _ (by decide) h.1)] at hb
        cases hb
      | colon l k =>
        dsimp only at hb
        rw [if_neg (hn _ (by decide))] at hb
        cases hb
      | more l =>
        dsimp only at hb
        rw [if_neg (hn _ (by decide)), if_neg (hn _ (by decide))] at hb
        cases hb
      | done v => cases hb
  rcases step_break hc h with ⟨fs, w, rfl⟩ | ⟨u, fs, w, rfl⟩
  · rw [step] at h
    exact hb h
  · rw [step] at h
    dsimp only at h
    by_cases h3 : wordly c = true
    · exfalso
      unfold wordly at h3
      simp only [Bool.or_eq_true, decide_eq_true_eq] at h3
      rcases h3 with ((h1 | rfl) | rfl) | rfl
      · unfold Char.isAlphanum Char.isAlpha Char.isUpper Char.isLower Char.isDigit at h1
        simp only [Bool.or_eq_true, Bool.and_eq_true, decide_eq_true_eq, ge_iff_le, UInt32.le_iff_toNat_le] at h1
        have e : c.toNat = c.val.toNat := rfl
        simp at h1
        omega
      · revert hc; decide
      · revert hc; decide
      · revert hc; decide
    · rw [if_neg h3] at h
      cases hm : meaning u with
      | none => rw [hm] at h; cases h
      | some v =>
        rw [hm] at h
        simp only [Option.bind_some] at h
        cases hl : literal v fs w with
        | none => rw [hl] at h; cases h
        | some r1 => rw [hl] at h; exact hb h

theorem join_cons_cons (n : Nat) (c : Char) (p : Str) (ps : List Str) :
    (margin n).intercalate ((c :: p) :: ps) = c :: (margin n).intercalate (p :: ps) := by
  cases ps <;> rfl

theorem join_nil_cons (n : Nat) (p : Str) (ps : List Str) :
    (margin n).intercalate ([] :: p :: ps) = margin n ++ (margin n).intercalate (p :: ps) := by
  cases ps <;> simp [List.intercalate]

/-- Indentation does not change what is read. -/
theorem run_indent (n : Nat) (text : Str) (ho : ∀ c ∈ text, ¬ Odd c) : ∀ (cr : Bool) (r : Reader) {x : Reader},
    (cr = true → r.lex = .idle) → run r (text ++ [' ']) = some x →
    run r ((margin n).intercalate (Where.splitLines' cr text) ++ [' ']) = some x := by
  induction text with
  | nil => intro cr r x _ h; exact h
  | cons c text ih =>
    intro cr r x hr h
    have ih := ih fun d hd => ho d (List.mem_cons_of_mem _ hd)
    rw [List.cons_append, run] at h
    cases hs : step r c with
    | none => rw [hs] at h; cases h
    | some r1 =>
      rw [hs] at h
      simp only [Option.bind_some] at h
      rw [Where.splitLines']
      by_cases h1 : (cr && c == '\n') = true
      · rw [if_pos h1]
        rw [Bool.and_eq_true, beq_iff_eq] at h1
        obtain ⟨rfl, rfl⟩ := h1
        have hi := hr rfl
        obtain ⟨lex, fs, w⟩ := r
        cases hi
        rw [step_white (by decide)] at hs
        cases hs
        exact ih false _ nofun h
      · rw [if_neg h1]
        by_cases h2 : Where.isBreak c = true
        · rw [if_pos h2]
          have hlow := break_low h2 (ho c List.mem_cons_self)
          have hsh := step_break hlow hs
          have hw := low_white hlow hs
          have hi := break_idle hsh hw hs
          have h3 := ih (c == '\r') r1 (fun _ => hi) h
          cases hl : Where.splitLines' (c == '\r') text with
          | nil =>
            rw [hl] at h3
            have : run r1 [' '] = some x := h3
            obtain ⟨lex, fs, w⟩ := r1
            cases hi
            rw [run_cons (step_white (by decide))] at this
            cases this
            show run r [' '] = _
            rw [run_cons (r' := ⟨.idle, fs, w⟩) (by rw [step_breaks hsh (d := c) (by decide) hw, hs])]
            rfl
          | cons p ps =>
            rw [hl] at h3
            rw [join_nil_cons, List.append_assoc, run_append]
            have hm : run r (margin n) = some r1 := by
              rw [margin, run_cons (r' := r1) (by rw [step_breaks hsh (d := c) (by decide) hw, hs])]
              obtain ⟨lex, fs, w⟩ := r1
              cases hi
              exact run_spaces n
            rw [hm]
            exact h3
        · rw [if_neg h2]
          have h3 := ih false r1 nofun h
          cases hl : Where.splitLines' false text with
          | nil =>
            rw [hl] at h3
            show run r (c :: [' ']) = _
            rw [run_cons hs]
            exact h3
          | cons p ps =>
            rw [hl] at h3
            dsimp only
            rw [join_cons_cons, List.cons_append, run_cons hs]
            exact h3

theorem readJson_indent (n : Nat) {text : Str} {v : Json} (ho : ∀ c ∈ text, ¬ Odd c) (h : readJson text = some v) :
    readJson (indent n text) = some v := by
  unfold readJson indent Where.splitLines
  rw [run_indent n text ho false start nofun (readJson_run h)]

end Verif.Submission
