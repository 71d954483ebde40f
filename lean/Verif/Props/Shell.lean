import Verif.Model.Shell

/-!
# C119: which commands `ShellProgramValidator` reports

The specification is the part of the grammar of the shell that is about quoting: backslashes, single
and double quotes and comments, and that `#` begins a comment only at the start of a word.  Command
substitutions inside double quotes are not taken apart.
-/

namespace Verif.Shell

/-! ## Specification -/

/-- Blanks, newlines and the characters of operators: what ends a word. -/
def Ends (c : Char) : Prop := c ∈ [' ', '\t', '\n', ';', '|', '&', '(', ')', '<', '>']

instance (c : Char) : Decidable (Ends c) := inferInstanceAs (Decidable (_ ∈ _))

/-- Characters that do something to the characters after them. -/
def Special (c : Char) : Prop := c = '\'' ∨ c = '"' ∨ c = '\\' ∨ c = '#'

/-- The text between double quotes. -/
inductive Body : Str → Prop where
  | nil : Body []
  | plain {c r} : c ≠ '"' → c ≠ '\\' → Body r → Body (c :: r)
  | escaped {c r} : Body r → Body ('\\' :: c :: r)

/-- Text in which all quotes are closed.  The second parameter tells if it follows the end of a word;
`inner` tells if there may be a `#` inside words. -/
inductive Closed (inner : Bool) : Bool → Str → Prop where
  | nil {b} : Closed inner b []
  | ends {b c r} : Ends c → Closed inner true r → Closed inner b (c :: r)
  | plain {b c r} : ¬ Ends c → ¬ Special c → Closed inner false r → Closed inner b (c :: r)
  | hash {r} : inner = true → Closed inner false r → Closed inner false ('#' :: r)
  | comment {t r} : '\n' ∉ t → Closed inner true r → Closed inner true ('#' :: (t ++ '\n' :: r))
  | lastComment {t} : '\n' ∉ t → Closed inner true ('#' :: t)
  | escaped {b c r} : c ≠ '\n' → Closed inner false r → Closed inner b ('\\' :: c :: r)
  | joined {b r} : Closed inner b r → Closed inner b ('\\' :: '\n' :: r)
  | single {b t r} : '\'' ∉ t → Closed inner false r → Closed inner b ('\'' :: (t ++ '\'' :: r))
  | double {b t r} : Body t → Closed inner false r → Closed inner b ('"' :: (t ++ '"' :: r))

/-- The text of a command in which the shell finds every quote closed. -/
def WellQuoted (v : Str) : Prop := Closed true true v

/-- Text in which all quotes are closed if `#` begins a comment wherever it is not quoted. -/
inductive Taken : Str → Prop where
  | nil : Taken []
  | plain {c r} : ¬ Special c → Taken r → Taken (c :: r)
  | comment {t r} : '\n' ∉ t → Taken r → Taken ('#' :: (t ++ '\n' :: r))
  | lastComment {t} : '\n' ∉ t → Taken ('#' :: t)
  | escaped {c r} : Taken r → Taken ('\\' :: c :: r)
  | single {t r} : '\'' ∉ t → Taken r → Taken ('\'' :: (t ++ '\'' :: r))
  | double {t r} : Body t → Taken r → Taken ('"' :: (t ++ '"' :: r))

/-- Every `#` is at the start of the text or after a character that ends a word and that no backslash
is before. -/
def HashesApart (v : Str) : Prop :=
  ∀ a b, v = a ++ '#' :: b → a = [] ∨ ∃ a' c, a = a' ++ [c] ∧ Ends c ∧ a'.getLast? ≠ some '\\'

/-- The text has `<<` somewhere. -/
def HasHere (v : Str) : Prop := ∃ a b, v = a ++ '<' :: '<' :: b

/-! ## The state of the lexer -/

/-- The state alone. -/
def next (s : State) (c : Char) : State :=
  match s with
  | .comment => if c = '\n' then .space else .comment
  | .space =>
    if isSpace c then .space
    else if c = '#' then .comment
    else if c = '\\' then .escape
    else if isWord c then .word
    else if c = '\'' ∨ c = '"' then .quotes c
    else .space
  | .quotes q => if c = q then .word else if c = '\\' ∧ q = '"' then .escapeIn q else .quotes q
  | .escape => .word
  | .escapeIn q => .quotes q
  | .word =>
    if isSpace c then .space
    else if c = '#' then .comment
    else if c = '\'' ∨ c = '"' then .quotes c
    else if c = '\\' then .escape
    else if isWord c then .word
    else .space

theorem emit_state (l : Lexer) : l.emit.state = l.state ∧ l.emit.lineno = l.lineno := by
  unfold Lexer.emit; split <;> exact ⟨rfl, rfl⟩

theorem read_state (l : Lexer) (c : Char) : (l.read c).state = next l.state c := by
  obtain ⟨st, t, q, n, la⟩ := l
  cases st <;> simp only [Lexer.read, next]
  case comment => split <;> rfl
  all_goals repeat' split
  all_goals first | rfl | simp [emit_state] | simp_all [emit_state]

/-- The state after some text. -/
def after (s : State) (v : Str) : State := v.foldl next s

/-- States in which the text may end. -/
def fine : State → Bool
  | .quotes _ | .escape | .escapeIn _ => false
  | _ => true

theorem lex_run : ∀ (v : Str) (l : Lexer), (v.foldl Lexer.read l).state = after l.state v ∧
    lex l v = lex (v.foldl Lexer.read l) [] := by
  intro v
  induction v with
  | nil => intro l; exact ⟨rfl, rfl⟩
  | cons c v ih =>
    intro l
    obtain ⟨h1, h2⟩ := ih (l.read c)
    refine ⟨?_, ?_⟩
    · rw [List.foldl_cons, h1, read_state]; rfl
    · rw [List.foldl_cons, ← h2]; rfl

theorem lex_none (v : Str) (l : Lexer) : lex l v = none ↔ fine (after l.state v) = true := by
  obtain ⟨h1, h2⟩ := lex_run v l
  rw [h2, ← h1]
  generalize v.foldl Lexer.read l = l'
  obtain ⟨st, t, q, n, la⟩ := l'
  cases st <;> simp [lex, fine]

/-! ## What the lexer takes -/

theorem space_not_special {c : Char} (h : isSpace c = true) : ¬ Special c := by
  simp only [isSpace, Bool.or_eq_true, beq_iff_eq] at h
  rcases h with ((rfl | rfl) | rfl) | rfl <;> (unfold Special; decide)

theorem word_not_special {c : Char} (h : isWord c = true) : ¬ Special c := by
  rintro (rfl | rfl | rfl | rfl) <;> revert h <;> decide +kernel

/-- Two states in which a plain character is read. -/
def open' (s : State) : Prop := s = .space ∨ s = .word

theorem next_plain {s : State} (hs : open' s) {c : Char} (h : ¬ Special c) : open' (next s c) := by
  have h1 : c ≠ '#' := fun e => h (.inr (.inr (.inr e)))
  have h2 : ¬ (c = '\'' ∨ c = '"') := fun e => h (e.elim .inl (fun e => .inr (.inl e)))
  have h3 : c ≠ '\\' := fun e => h (.inr (.inr (.inl e)))
  rcases hs with rfl | rfl
  · simp only [next, if_neg h1, if_neg h2, if_neg h3]
    split
    · exact .inl rfl
    · split
      · exact .inr rfl
      · exact .inl rfl
  · simp only [next, if_neg h1, if_neg h2, if_neg h3]
    split
    · exact .inl rfl
    · split
      · exact .inr rfl
      · exact .inl rfl

theorem next_special {s : State} (hs : open' s) {c : Char} (h : Special c) :
    next s c = if c = '#' then .comment else if c = '\\' then .escape else .quotes c := by
  have hsp : isSpace c = false := by
    cases e : isSpace c with
    | false => rfl
    | true => exact absurd h (space_not_special e)
  have hw : isWord c = false := by
    cases e : isWord c with
    | false => rfl
    | true => exact absurd h (word_not_special e)
  rcases hs with rfl | rfl <;> rcases h with rfl | rfl | rfl | rfl <;>
    simp [next, hsp, hw]

theorem after_cons (s : State) (c : Char) (v : Str) : after s (c :: v) = after (next s c) v := rfl

theorem after_append (s : State) (u v : Str) : after s (u ++ v) = after (after s u) v := by
  simp [after, List.foldl_append]

theorem after_comment : ∀ (t : Str), '\n' ∉ t → after .comment t = .comment := by
  intro t
  induction t with
  | nil => intro _; rfl
  | cons c t ih =>
    intro h
    rw [after_cons]
    have : next .comment c = .comment := by
      simp only [next]
      rw [if_neg (fun e => h (by simp [e]))]
    rw [this]
    exact ih (fun hm => h (by simp [hm]))

theorem after_single : ∀ (t : Str), '\'' ∉ t → after (.quotes '\'') t = .quotes '\'' := by
  intro t
  induction t with
  | nil => intro _; rfl
  | cons c t ih =>
    intro h
    rw [after_cons]
    have : next (.quotes '\'') c = .quotes '\'' := by
      simp only [next]
      rw [if_neg (fun e => h (by simp [e])), if_neg (fun e => absurd e.2 (by decide))]
    rw [this]
    exact ih (fun hm => h (by simp [hm]))

theorem after_double {t : Str} (h : Body t) : after (.quotes '"') t = .quotes '"' := by
  induction h with
  | nil => rfl
  | @plain c r h1 h2 _ ih =>
    rw [after_cons]
    have : next (.quotes '"') c = .quotes '"' := by
      simp only [next]
      rw [if_neg h1, if_neg (fun e => h2 e.1)]
    rw [this]
    exact ih
  | @escaped c r _ ih =>
    rw [after_cons, after_cons]
    exact ih

theorem taken_fine {v : Str} (h : Taken v) : ∀ s, open' s → fine (after s v) = true := by
  induction h with
  | nil => rintro s (rfl | rfl) <;> rfl
  | plain h _ ih => intro s hs; exact ih _ (next_plain hs h)
  | @comment t r ht _ ih =>
    intro s hs
    rw [after_cons, next_special hs (by unfold Special; decide), if_pos rfl, after_append,
      after_comment t ht]
    exact ih _ (.inl rfl)
  | @lastComment t ht =>
    intro s hs
    rw [after_cons, next_special hs (by unfold Special; decide), if_pos rfl, after_comment t ht]
    rfl
  | escaped _ ih =>
    intro s hs
    rw [after_cons, next_special hs (by unfold Special; decide)]
    exact ih _ (.inr rfl)
  | @single t r ht _ ih =>
    intro s hs
    rw [after_cons, next_special hs (by unfold Special; decide), if_neg (by decide),
      if_neg (by decide), after_append, after_single t ht]
    exact ih _ (.inr rfl)
  | @double t r ht _ ih =>
    intro s hs
    rw [after_cons, next_special hs (by unfold Special; decide), if_neg (by decide),
      if_neg (by decide), after_append, after_double ht]
    exact ih _ (.inr rfl)

/-- What is left of a text from a state. -/
theorem fine_taken : ∀ (n : Nat) (v : Str), v.length ≤ n →
    (∀ s, open' s → fine (after s v) = true → Taken v) ∧
    (fine (after .comment v) = true → '\n' ∉ v ∨ ∃ t r, v = t ++ '\n' :: r ∧ '\n' ∉ t ∧ Taken r) ∧
    (fine (after .escape v) = true → ∃ c r, v = c :: r ∧ Taken r) ∧
    (fine (after (.quotes '\'') v) = true → ∃ t r, v = t ++ '\'' :: r ∧ '\'' ∉ t ∧ Taken r) ∧
    (fine (after (.quotes '"') v) = true → ∃ t r, v = t ++ '"' :: r ∧ Body t ∧ Taken r) := by
  intro n
  induction n with
  | zero =>
    intro v hv
    have : v = [] := List.length_eq_zero_iff.mp (by omega)
    subst this
    exact ⟨fun _ _ _ => .nil, fun _ => .inl (by simp), fun h => absurd h (by decide),
      fun h => absurd h (by decide), fun h => absurd h (by decide)⟩
  | succ n ih =>
    intro v hv
    cases v with
    | nil =>
      exact ⟨fun _ _ _ => .nil, fun _ => .inl (by simp), fun h => absurd h (by decide),
        fun h => absurd h (by decide), fun h => absurd h (by decide)⟩
    | cons c v =>
      have hv' : v.length ≤ n := by simpa using hv
      obtain ⟨i1, i2, i3, i4, i5⟩ := ih v hv'
      refine ⟨?_, ?_, ?_, ?_, ?_⟩
      · intro s hs h
        rw [after_cons] at h
        by_cases hc : Special c
        · rw [next_special hs hc] at h
          rcases hc with rfl | rfl | rfl | rfl
          · rw [if_neg (by decide), if_neg (by decide)] at h
            obtain ⟨t, r, rfl, ht, hr⟩ := i4 h
            exact .single ht hr
          · rw [if_neg (by decide), if_neg (by decide)] at h
            obtain ⟨t, r, rfl, ht, hr⟩ := i5 h
            exact .double ht hr
          · rw [if_neg (by decide), if_pos rfl] at h
            obtain ⟨c, r, rfl, hr⟩ := i3 h
            exact .escaped hr
          · rw [if_pos rfl] at h
            rcases i2 h with ht | ⟨t, r, rfl, ht, hr⟩
            · exact .lastComment ht
            · exact .comment ht hr
        · exact .plain hc (i1 _ (next_plain hs hc) h)
      · intro h
        rw [after_cons] at h
        by_cases hc : c = '\n'
        · subst hc
          exact .inr ⟨[], v, rfl, by simp, i1 .space (.inl rfl) h⟩
        · have : next .comment c = .comment := by simp only [next, if_neg hc]
          rw [this] at h
          rcases i2 h with ht | ⟨t, r, rfl, ht, hr⟩
          · exact .inl (by simp only [List.mem_cons, not_or]; exact ⟨fun e => hc e.symm, ht⟩)
          · exact .inr ⟨c :: t, r, rfl, by
              simp only [List.mem_cons, not_or]; exact ⟨fun e => hc e.symm, ht⟩, hr⟩
      · intro h
        exact ⟨c, v, rfl, i1 .word (.inr rfl) h⟩
      · intro h
        rw [after_cons] at h
        by_cases hc : c = '\''
        · subst hc
          exact ⟨[], v, rfl, by simp, i1 .word (.inr rfl) h⟩
        · have : next (.quotes '\'') c = .quotes '\'' := by
            simp only [next, if_neg hc]; rw [if_neg (fun e => absurd e.2 (by decide))]
          rw [this] at h
          obtain ⟨t, r, rfl, ht, hr⟩ := i4 h
          exact ⟨c :: t, r, rfl, by
            simp only [List.mem_cons, not_or]; exact ⟨fun e => hc e.symm, ht⟩, hr⟩
      · intro h
        rw [after_cons] at h
        by_cases hc : c = '"'
        · subst hc
          exact ⟨[], v, rfl, .nil, i1 .word (.inr rfl) h⟩
        · by_cases hb : c = '\\'
          · subst hb
            have : next (.quotes '"') '\\' = .escapeIn '"' := by decide
            rw [this] at h
            cases v with
            | nil => exact absurd h (by decide)
            | cons d v =>
              rw [after_cons] at h
              obtain ⟨_, _, _, _, j5⟩ := ih v (by simp at hv'; omega)
              obtain ⟨t, r, rfl, ht, hr⟩ := j5 h
              exact ⟨'\\' :: d :: t, r, rfl, .escaped ht, hr⟩
          · have : next (.quotes '"') c = .quotes '"' := by
              simp only [next, if_neg hc]; rw [if_neg (fun e => hb e.1)]
            rw [this] at h
            obtain ⟨t, r, rfl, ht, hr⟩ := i5 h
            exact ⟨c :: t, r, rfl, .plain hc hb ht, hr⟩

theorem lex_taken (v : Str) : lex start v = none ↔ Taken v := by
  rw [lex_none]
  exact ⟨(fine_taken v.length v (Nat.le_refl _)).1 .space (.inl rfl),
    fun h => taken_fine h .space (.inl rfl)⟩

theorem hasHere_iff (v : Str) : hasHere v = true ↔ HasHere v := by
  fun_induction hasHere v with
  | case1 r => exact ⟨fun _ => ⟨[], r, rfl⟩, fun _ => rfl⟩
  | case2 c r hne ih =>
    rw [ih]
    constructor
    · rintro ⟨a, b, rfl⟩; exact ⟨c :: a, b, rfl⟩
    · rintro ⟨a, b, h⟩
      cases a with
      | nil =>
        simp only [List.nil_append, List.cons.injEq] at h
        exact (hne b h.1 h.2).elim
      | cons x a =>
        simp only [List.cons_append, List.cons.injEq] at h
        exact ⟨a, b, h.2⟩
  | case3 => exact ⟨by simp, by rintro ⟨a, b, h⟩; simp at h⟩

/-! ## C119 -/

/-- **C119**, exactly: nothing is reported for a field without a value or with `<<` in it; for any
other value there is at most one issue, and there is none exactly if all quotes are closed when `#`
begins a comment wherever it is not quoted. -/
theorem C119_exact (v : Str) :
    check none = [] ∧ (HasHere v → check (some v) = []) ∧ (check (some v)).length ≤ 1 ∧
    (¬ HasHere v → (check (some v) = [] ↔ Taken v)) := by
  refine ⟨rfl, ?_, ?_, ?_⟩
  · intro h
    simp only [check, (hasHere_iff v).mpr h, if_true]
  · simp only [check]
    split
    · simp
    · split <;> simp
  · intro h
    have : ¬ hasHere v = true := fun e => h ((hasHere_iff v).mp e)
    simp only [check, if_neg this]
    rw [← lex_taken]
    split
    · rename_i e; simp [e]
    · rename_i e; simp [e]

theorem ends_not_special {c : Char} (h : Ends c) : ¬ Special c := by
  rintro (rfl | rfl | rfl | rfl) <;> revert h <;> decide

/-- Places at which `#` would be at the start of a word. -/
def Good (p : Str) : Prop := p = [] ∨ ∃ p' c, p = p' ++ [c] ∧ Ends c ∧ p'.getLast? ≠ some '\\'

theorem not_good {p : Str} {c : Char} (h : ¬ Ends c) : ¬ Good (p ++ [c]) := by
  rintro (he | ⟨p', c', he, hc, _⟩)
  · simp at he
  · obtain ⟨_, h2⟩ := List.append_inj' he rfl
    simp only [List.cons.injEq, and_true] at h2
    exact h (h2 ▸ hc)

theorem not_good_escaped {p : Str} {c : Char} : ¬ Good (p ++ ['\\', c]) := by
  rintro (he | ⟨p', c', he, _, hl⟩)
  · simp at he
  · have he' : (p ++ ['\\']) ++ [c] = p' ++ [c'] := by simpa using he
    obtain ⟨h1, _⟩ := List.append_inj' he' rfl
    rw [← h1] at hl
    simp at hl

/-- All `#` of a text that follows `p` are at good places. -/
def Apart (p v : Str) : Prop := ∀ a b, v = a ++ '#' :: b → Good (p ++ a)

theorem Apart.tail {p u v : Str} (h : Apart p (u ++ v)) : Apart (p ++ u) v := by
  intro a b hv
  have := h (u ++ a) b (by rw [hv]; simp)
  rwa [← List.append_assoc] at this

theorem taken_closed {v : Str} (h : Taken v) : ∀ (p : Str) (b : Bool), (Good p → b = true) →
    Apart p v → Closed true b v := by
  induction h with
  | nil => intro p b _ _; exact .nil
  | @plain c r hc _ ih =>
    intro p b hb ha
    have ha' : Apart (p ++ [c]) r := Apart.tail (u := [c]) ha
    by_cases he : Ends c
    · exact .ends he (ih _ true (fun _ => rfl) ha')
    · exact .plain he hc (ih _ false (fun hg => absurd hg (not_good he)) ha')
  | @comment t r ht _ ih =>
    intro p b hb ha
    have hg : b = true := hb (by simpa using ha [] (t ++ '\n' :: r) rfl)
    subst hg
    exact .comment ht (ih (p ++ ('#' :: t ++ ['\n'])) true (fun _ => rfl)
      (Apart.tail (u := '#' :: t ++ ['\n']) (by simpa using ha)))
  | @lastComment t ht =>
    intro p b hb ha
    have hg : b = true := hb (by simpa using ha [] t rfl)
    subst hg
    exact .lastComment ht
  | @escaped c r _ ih =>
    intro p b hb ha
    have ha' : Apart (p ++ ['\\', c]) r := Apart.tail (u := ['\\', c]) ha
    by_cases hc : c = '\n'
    · subst hc
      exact .joined (ih _ b (fun hg => absurd hg not_good_escaped) ha')
    · exact .escaped hc (ih _ false (fun hg => absurd hg not_good_escaped) ha')
  | @single t r ht _ ih =>
    intro p b hb ha
    have e : ('\'' :: (t ++ '\'' :: r)) = ('\'' :: t ++ ['\'']) ++ r := by simp
    rw [e] at ha
    refine .single ht (ih _ false (fun hg => absurd hg ?_) ha.tail)
    rw [← List.append_assoc]
    exact not_good (by decide)
  | @double t r ht _ ih =>
    intro p b hb ha
    have e : ('"' :: (t ++ '"' :: r)) = ('"' :: t ++ ['"']) ++ r := by simp
    rw [e] at ha
    refine .double ht (ih _ false (fun hg => absurd hg ?_) ha.tail)
    rw [← List.append_assoc]
    exact not_good (by decide)

theorem closed_taken {inner b : Bool} {v : Str} (h : Closed inner b v) : ∀ p,
    (b = false → ¬ Good p) → (inner = true → Apart p v) → Taken v := by
  induction h with
  | nil => intro p _ _; exact .nil
  | @ends b c r hc _ ih =>
    intro p _ ha
    exact .plain (ends_not_special hc)
      (ih (p ++ [c]) (by simp) (fun hi => Apart.tail (u := [c]) (ha hi)))
  | @plain b c r he hc _ ih =>
    intro p _ ha
    exact .plain hc (ih (p ++ [c]) (fun _ => not_good he) (fun hi => Apart.tail (u := [c]) (ha hi)))
  | @hash r hi _ _ =>
    intro p hb ha
    exact absurd (by simpa using ha hi [] r rfl) (hb rfl)
  | @comment t r ht _ ih =>
    intro p _ ha
    exact .comment ht (ih (p ++ ('#' :: t ++ ['\n'])) (by simp)
      (fun hi => Apart.tail (u := '#' :: t ++ ['\n']) (by simpa using ha hi)))
  | lastComment ht => intro p _ _; exact .lastComment ht
  | @escaped b c r _ _ ih =>
    intro p _ ha
    exact .escaped (ih (p ++ ['\\', c]) (fun _ => not_good_escaped)
      (fun hi => Apart.tail (u := ['\\', c]) (ha hi)))
  | @joined b r _ ih =>
    intro p _ ha
    exact .escaped (ih (p ++ ['\\', '\n']) (fun _ => not_good_escaped)
      (fun hi => Apart.tail (u := ['\\', '\n']) (ha hi)))
  | @single b t r ht _ ih =>
    intro p _ ha
    have e : ('\'' :: (t ++ '\'' :: r)) = ('\'' :: t ++ ['\'']) ++ r := by simp
    rw [e] at ha
    refine .single ht (ih _ (fun _ => ?_) (fun hi => (ha hi).tail))
    rw [← List.append_assoc]
    exact not_good (by decide)
  | @double b t r ht _ ih =>
    intro p _ ha
    have e : ('"' :: (t ++ '"' :: r)) = ('"' :: t ++ ['"']) ++ r := by simp
    rw [e] at ha
    refine .double ht (ih _ (fun _ => ?_) (fun hi => (ha hi).tail))
    rw [← List.append_assoc]
    exact not_good (by decide)

/-- **C119** for commands without `<<` in which every `#` is after the end of a word: an issue is
reported exactly if a quote is not closed.  Missing: `#` elsewhere, where the lexer sees comments that
the shell does not (`C119_rejects_violated`, `C119_accepts_violated`), and `<<`
(`C119_shift_violated`). -/
theorem C119_partial (v : Str) (hh : ¬ HasHere v) (ha : HashesApart v) :
    check (some v) = [] ↔ WellQuoted v := by
  rw [(C119_exact v).2.2.2 hh]
  have ha' : Apart [] v := fun a b e => ha a b e
  exact ⟨fun h => taken_closed h [] true (fun _ => rfl) ha',
    fun h => closed_taken h [] (by simp) (fun _ => ha')⟩

/-- **C119**: a command in which all quotes are closed and no `#` is inside a word is not reported;
`#` may be inside quotes, after a backslash and in comments. -/
theorem C119_accepts (v : Str) (h : Closed false true v) : check (some v) = [] := by
  by_cases hh : HasHere v
  · exact (C119_exact v).2.1 hh
  · exact ((C119_exact v).2.2.2 hh).mpr (closed_taken h [] (by simp) (by simp))

/-! ## What is reported -/

theorem next_escape {s : State} {c : Char} (h : next s c = .escape ∨ ∃ q, next s c = .escapeIn q) :
    c = '\\' := by
  cases s with
  | comment =>
    simp only [next] at h
    split at h <;> rcases h with h | ⟨q, h⟩ <;> exact State.noConfusion h
  | escape => rcases h with h | ⟨q, h⟩ <;> exact State.noConfusion h
  | escapeIn q => rcases h with h | ⟨q, h⟩ <;> exact State.noConfusion h
  | quotes q =>
    simp only [next] at h
    split at h
    · rcases h with h | ⟨q, h⟩ <;> exact State.noConfusion h
    · split at h
      · rename_i hh; exact hh.1
      · rcases h with h | ⟨q, h⟩ <;> exact State.noConfusion h
  | space =>
    simp only [next] at h
    repeat' split at h
    all_goals first
      | assumption
      | (rcases h with h | ⟨q, h⟩ <;> exact State.noConfusion h)
  | word =>
    simp only [next] at h
    repeat' split at h
    all_goals first
      | assumption
      | (rcases h with h | ⟨q, h⟩ <;> exact State.noConfusion h)

/-- Number of lines that are over. -/
theorem run_line : ∀ (v : Str) (l : Lexer),
    (v.foldl Lexer.read l).lineno + (if l.state = .comment then 1 else 0) =
      l.lineno + v.count '\n' + (if (v.foldl Lexer.read l).state = .comment then 1 else 0) := by
  intro v
  induction v with
  | nil => intro l; rfl
  | cons c v ih =>
    intro l
    rw [List.foldl_cons]
    have h := ih (l.read c)
    have hs : (l.read c).lineno + (if l.state = .comment then 1 else 0) =
        l.lineno + (if c = '\n' then 1 else 0) +
          (if (l.read c).state = .comment then 1 else 0) := by
      rw [read_state]
      obtain ⟨st, t, q, n, la⟩ := l
      cases st
      case comment =>
        by_cases hc : c = '\n' <;> simp [Lexer.read, next, hc]
      case escape => by_cases hc : c = '\n' <;> simp [Lexer.read, next, hc]
      case escapeIn q =>
        simp only [Lexer.read, next]
        by_cases hc : c = '\n' <;> simp only [hc, if_true, if_false] <;> split <;> simp
      case quotes q =>
        simp only [Lexer.read, next]
        by_cases hc : c = '\n' <;> simp only [hc, if_true, if_false] <;> split <;>
          (try split) <;> simp_all
      case space =>
        by_cases hc : c = '\n'
        · subst hc
          have : isSpace '\n' = true := by decide
          simp [Lexer.read, next, this, emit_state]
        · simp only [Lexer.read, next, if_neg hc]
          repeat' split
          all_goals simp_all [emit_state]
      case word =>
        by_cases hc : c = '\n'
        · subst hc
          have : isSpace '\n' = true := by decide
          simp [Lexer.read, next, this, emit_state]
        · simp only [Lexer.read, next, if_neg hc]
          repeat' split
          all_goals simp_all [emit_state]
    rw [List.count_cons]
    have hb : (if (c == '\n') = true then 1 else 0 : Nat) = if c = '\n' then 1 else 0 := by
      by_cases hc : c = '\n' <;> simp [hc]
    rw [hb]
    omega

/-- **C119**, the issue: it is placed at the last line of the command, wherever the quote was opened.
If it says that there is no closing quotation then one quote more at the end would close all of them;
if it says that there is no escaped character then the command ends with a backslash that is not
itself escaped. -/
theorem C119_issue (v : Str) (i : Issue) (h : i ∈ check (some v)) :
    i.offset = v.count '\n' ∧
    (i.failure = .noClosing → Taken (v ++ ['\'']) ∨ Taken (v ++ ['"'])) ∧
    (i.failure = .noEscaped → (∃ u, v = u ++ ['\\']) ∧
      (Taken (v ++ ['x']) ∨ Taken (v ++ ['x', '"']))) := by
  simp only [check] at h
  split at h
  · simp at h
  · split at h
    · simp at h
    · rename_i e n t hl
      simp only [List.mem_singleton] at h
      subst h
      obtain ⟨h1, h2⟩ := lex_run v start
      have hline := run_line v start
      rw [h2] at hl
      have hta : ∀ u, fine (after (after .space v) u) = true → Taken (v ++ u) := by
        intro u hu
        rw [← after_append] at hu
        exact (fine_taken _ (v ++ u) (Nat.le_refl _)).1 .space (.inl rfl) hu
      -- quotes are always one of the two
      have hq : ∀ (w : Str) (s : State), (∀ q, s = .quotes q → q = '\'' ∨ q = '"') →
          (∀ q, s = .escapeIn q → q = '"') →
          (∀ q, after s w = .quotes q → q = '\'' ∨ q = '"') ∧
          (∀ q, after s w = .escapeIn q → q = '"') := by
        intro w
        induction w with
        | nil => intro s a b; exact ⟨a, b⟩
        | cons c w ih =>
          intro s a b
          rw [after_cons]
          apply ih
          · intro q hq
            cases s with
            | quotes q0 =>
              have := a q0 rfl
              simp only [next] at hq
              split at hq
              · simp at hq
              · split at hq
                · simp at hq
                · simp only [State.quotes.injEq] at hq; rw [← hq]; exact this
            | escapeIn q0 =>
              simp only [next, State.quotes.injEq] at hq
              rw [← hq]; exact .inr (b q0 rfl)
            | escape => simp [next] at hq
            | comment => simp only [next] at hq; split at hq <;> simp at hq
            | space =>
              simp only [next] at hq
              repeat' split at hq
              all_goals first
                | (simp only [State.quotes.injEq] at hq; subst hq; assumption)
                | simp at hq
            | word =>
              simp only [next] at hq
              repeat' split at hq
              all_goals first
                | (simp only [State.quotes.injEq] at hq; subst hq; assumption)
                | simp at hq
          · intro q hq
            cases s with
            | quotes q0 =>
              simp only [next] at hq
              split at hq
              · simp at hq
              · split at hq
                · rename_i hh
                  simp only [State.escapeIn.injEq] at hq; rw [← hq]; exact hh.2
                · simp at hq
            | escapeIn q0 => simp [next] at hq
            | escape => simp [next] at hq
            | comment => simp only [next] at hq; split at hq <;> simp at hq
            | space => simp only [next] at hq; repeat' split at hq
                       all_goals simp at hq
            | word => simp only [next] at hq; repeat' split at hq
                      all_goals simp at hq
      obtain ⟨hq1, hq2⟩ := hq v .space (by simp) (by simp)
      -- a backslash is the last character
      have hlast : (after .space v = .escape ∨ ∃ q, after .space v = .escapeIn q) →
          ∃ u, v = u ++ ['\\'] := by
        intro hs
        rcases List.eq_nil_or_concat v with rfl | ⟨u, c, rfl⟩
        · rcases hs with hs | ⟨q, hs⟩ <;> simp [after] at hs
        · refine ⟨u, ?_⟩
          have he : after .space (u ++ [c]) = next (after .space u) c := by
            rw [after_append]; rfl
          rw [show u.concat c = u ++ [c] by simp] at hs ⊢
          rw [he] at hs
          have hc : c = '\\' := next_escape hs
          rw [hc]
      generalize v.foldl Lexer.read start = l at hl hline h1
      obtain ⟨st, tok, qd, ln, la⟩ := l
      simp only at h1 hline
      have hst : start.state = .space := rfl
      rw [hst] at h1
      rw [← h1] at hta hq1 hq2 hlast
      have hs0 : start.lineno = 1 := rfl
      rw [if_neg (show ¬ start.state = .comment by rw [hst]; decide), hs0] at hline
      cases st with
      | quotes q =>
        simp only [lex, Option.some.injEq, Prod.mk.injEq] at hl
        obtain ⟨rfl, rfl, rfl⟩ := hl
        refine ⟨?_, ?_, by simp⟩
        · rw [if_neg (by simp)] at hline
          simp only; omega
        · intro _
          rcases hq1 q rfl with rfl | rfl
          · exact .inl (hta _ (by decide))
          · exact .inr (hta _ (by decide))
      | escape =>
        simp only [lex, Option.some.injEq, Prod.mk.injEq] at hl
        obtain ⟨rfl, rfl, rfl⟩ := hl
        refine ⟨?_, by simp, fun _ => ⟨hlast (.inl rfl), .inl (hta _ (by decide))⟩⟩
        rw [if_neg (by simp)] at hline
        simp only; omega
      | escapeIn q =>
        simp only [lex, Option.some.injEq, Prod.mk.injEq] at hl
        obtain ⟨rfl, rfl, rfl⟩ := hl
        have := hq2 q rfl
        subst this
        refine ⟨?_, by simp, fun _ => ⟨hlast (.inr ⟨_, rfl⟩), .inr (hta _ (by decide))⟩⟩
        rw [if_neg (by simp)] at hline
        simp only; omega
      | space => simp [lex] at hl
      | word => simp [lex] at hl
      | comment => simp [lex] at hl

/-- Words with a blank after each. -/
def words : List Str → Str
  | [] => []
  | w :: ws => w ++ ' ' :: words ws

/-- Words of letters, digits and `_` as `shlex` and the shell both have them. -/
def Simple (w : Str) : Prop :=
  w ≠ [] ∧ ∀ c ∈ w, ('a' ≤ c ∧ c ≤ 'z') ∨ ('A' ≤ c ∧ c ≤ 'Z') ∨ ('0' ≤ c ∧ c ≤ '9') ∨ c = '_'

theorem simple_word {c : Char}
    (h : ('a' ≤ c ∧ c ≤ 'z') ∨ ('A' ≤ c ∧ c ≤ 'Z') ∨ ('0' ≤ c ∧ c ≤ '9') ∨ c = '_') :
    isWord c = true := by
  simp only [isWord, Bool.or_eq_true, Bool.and_eq_true, decide_eq_true_eq, beq_iff_eq]
  rcases h with h | h | h | h
  · exact .inl (.inl (.inl (.inl h)))
  · exact .inl (.inl (.inl (.inr h)))
  · exact .inl (.inl (.inr h))
  · exact .inl (.inr h)

theorem word_facts {c : Char} (h : isWord c = true) :
    isSpace c = false ∧ c ≠ '#' ∧ c ≠ '\\' ∧ ¬ (c = '\'' ∨ c = '"') ∧ c ≠ '\n' := by
  have hs := word_not_special h
  have hsp : isSpace c = false := by
    cases e : isSpace c with
    | false => rfl
    | true =>
      simp only [isSpace, Bool.or_eq_true, beq_iff_eq] at e
      exfalso
      rcases e with ((rfl | rfl) | rfl) | rfl <;> revert h <;> decide +kernel
  refine ⟨hsp, fun e => hs (.inr (.inr (.inr e))), fun e => hs (.inr (.inr (.inl e))),
    fun e => hs (e.elim .inl (fun e => .inr (.inl e))), fun e => ?_⟩
  subst e
  revert hsp; decide

theorem run_word : ∀ (w : Str) (t : Str) (n : Nat) (la : Option Str), (∀ c ∈ w, isWord c = true) →
    w.foldl Lexer.read ⟨.word, t, false, n, la⟩ = ⟨.word, t ++ w, false, n, la⟩ := by
  intro w
  induction w with
  | nil => intro t n la _; simp
  | cons c w ih =>
    intro t n la h
    obtain ⟨a, b, d, e, g⟩ := word_facts (h c (by simp))
    have hr : Lexer.read ⟨.word, t, false, n, la⟩ c = ⟨.word, t ++ [c], false, n, la⟩ := by
      simp [Lexer.read, g, a, b, d, e, h c (by simp)]
    rw [List.foldl_cons, hr, ih _ _ _ (fun x hx => h x (by simp [hx]))]
    simp

theorem run_words : ∀ (ws : List Str) (n : Nat) (la : Option Str), (∀ w ∈ ws, Simple w) →
    (words ws).foldl Lexer.read ⟨.space, [], false, n, la⟩ =
      ⟨.space, [], false, n, (ws.getLast?).or la⟩ := by
  intro ws
  induction ws with
  | nil => intro n la _; simp [words]
  | cons w ws ih =>
    intro n la h
    obtain ⟨hne, hw⟩ := h w (by simp)
    cases w with
    | nil => exact absurd rfl hne
    | cons c w =>
      have hc := simple_word (hw c (by simp))
      obtain ⟨a, b, d, e, g⟩ := word_facts hc
      have hr : Lexer.read ⟨.space, [], false, n, la⟩ c = ⟨.word, [c], false, n, la⟩ := by
        simp [Lexer.read, g, a, b, d, hc]
      have hsp : Lexer.read ⟨.word, [c] ++ w, false, n, la⟩ ' ' =
          ⟨.space, [], false, n, some (c :: w)⟩ := by
        have : isSpace ' ' = true := by decide
        simp [Lexer.read, this, Lexer.emit]
      have h1 : (c :: w).foldl Lexer.read ⟨.space, [], false, n, la⟩ =
          ⟨.word, [c] ++ w, false, n, la⟩ := by
        rw [List.foldl_cons, hr,
          run_word w _ _ _ (fun x hx => simple_word (hw x (by simp [hx])))]
      rw [words, List.foldl_append, h1, List.foldl_cons, hsp, ih _ _ (fun x hx => h x (by simp [hx]))]
      congr 1
      cases hg : ws.getLast? with
      | none =>
        have : ws = [] := List.getLast?_eq_none_iff.mp hg
        subst this
        simp
      | some z =>
        have hws : ws ≠ [] := by intro he; rw [he] at hg; simp at hg
        rw [List.getLast?_cons_of_ne_nil hws, hg]; rfl

theorem run_quoted : ∀ (t : Str) (tok : Str) (qd : Bool) (n : Nat) (la : Option Str), '\'' ∉ t →
    ∃ tok' qd', t.foldl Lexer.read ⟨.quotes '\'', tok, qd, n, la⟩ =
      ⟨.quotes '\'', tok', qd', n + t.count '\n', la⟩ := by
  intro t
  induction t with
  | nil => intro tok qd n la _; exact ⟨tok, qd, by simp⟩
  | cons c t ih =>
    intro tok qd n la h
    have hc : c ≠ '\'' := fun e => h (by simp [e])
    have ht : '\'' ∉ t := fun hm => h (by simp [hm])
    have hq : ¬ (c = '\\' ∧ '\'' = '"') := by rintro ⟨_, e⟩; exact absurd e (by decide)
    by_cases hn : c = '\n'
    · have hr : Lexer.read ⟨.quotes '\'', tok, qd, n, la⟩ c =
          ⟨.quotes '\'', tok ++ [c], true, n + 1, la⟩ := by
        simp only [Lexer.read, if_pos hn, if_neg hc, if_neg hq]
      obtain ⟨a, b, he⟩ := ih (tok ++ [c]) true (n + 1) la ht
      refine ⟨a, b, ?_⟩
      rw [List.foldl_cons, hr, he, hn, List.count_cons_self]
      rw [Nat.add_assoc, Nat.add_comm 1]
    · have hr : Lexer.read ⟨.quotes '\'', tok, qd, n, la⟩ c =
          ⟨.quotes '\'', tok ++ [c], true, n, la⟩ := by
        simp only [Lexer.read, if_neg hn, if_neg hc, if_neg hq]
      obtain ⟨a, b, he⟩ := ih (tok ++ [c]) true n la ht
      refine ⟨a, b, ?_⟩
      rw [List.foldl_cons, hr, he, List.count_cons_of_ne hn]

/-- **C119**, the message: after simple words a quote that is never closed is reported near the last
of them, and with no word near nothing. -/
theorem C119_near (ws : List Str) (t : Str) (hw : ∀ w ∈ ws, Simple w) (ht : '\'' ∉ t)
    (hh : ¬ HasHere (words ws ++ '\'' :: t)) :
    check (some (words ws ++ '\'' :: t)) = [⟨.noClosing, ws.getLast?, t.count '\n'⟩] := by
  have h0 : ¬ hasHere (words ws ++ '\'' :: t) = true := fun e => hh ((hasHere_iff _).mp e)
  have hl : lex start (words ws ++ '\'' :: t) =
      some (.noClosing, 1 + t.count '\n', ws.getLast?) := by
    rw [(lex_run _ start).2, List.foldl_append]
    have h1 : (words ws).foldl Lexer.read start = ⟨.space, [], false, 1, ws.getLast?⟩ := by
      have := run_words ws 1 none hw
      rw [Option.or_none] at this
      exact this
    rw [h1, List.foldl_cons]
    have h2 : Lexer.read ⟨.space, [], false, 1, ws.getLast?⟩ '\'' =
        ⟨.quotes '\'', [], false, 1, ws.getLast?⟩ := by
      have a : isSpace '\'' = false := by decide
      have b : isWord '\'' = false := by decide +kernel
      simp [Lexer.read, a, b]
    rw [h2]
    obtain ⟨a, b, he⟩ := run_quoted t [] false 1 (ws.getLast?) ht
    rw [he]
    simp [lex]
  simp only [check, if_neg h0, hl]
  simp

/-! ## Examples and violations -/

/-- The hypotheses of `C119_partial` are met by a program of two lines with a comment, and its two
sides both hold. -/
example : WellQuoted "echo 'it''s' # it's\nls \"a \\\" b\"".toList ∧
    check (some "echo 'it''s' # it's\nls \"a \\\" b\"".toList) = [] := by
  have hc : check (some "echo 'it''s' # it's\nls \"a \\\" b\"".toList) = [] := by decide +kernel
  refine ⟨(C119_partial _ ?_ ?_).mp hc, hc⟩
  · rw [← hasHere_iff]; decide +kernel
  · intro a b h
    right
    have hp : a = "echo 'it''s' ".toList := by
      have h1 : a.length < 31 := by
        have h0 := congrArg List.length h
        have hn : "echo 'it''s' # it's\nls \"a \\\" b\"".toList.length = 31 := by decide +kernel
        rw [hn, List.length_append, List.length_cons] at h0
        omega
      have h2 : "echo 'it''s' # it's\nls \"a \\\" b\"".toList[a.length]? = some '#' := by rw [h]; simp
      have h3 : ∀ k < 31, "echo 'it''s' # it's\nls \"a \\\" b\"".toList[k]? = some '#' → k = 13 := by
        decide +kernel
      have h4 := h3 _ h1 h2
      have h5 := congrArg (List.take 13) h
      rw [List.take_left' h4] at h5
      rw [← h5]; rfl
    exact ⟨"echo 'it''s'".toList, ' ', by rw [hp]; rfl, by decide, by decide⟩

example : check (some "echo 'it's'\nls".toList) = [⟨.noClosing, some "echo".toList, 1⟩] := by
  decide +kernel

/-- `C119_near`: the issue of a quote opened in the first of three lines is at the third. -/
example : check (some "rm -f".toList) = [] ∧
    check (some (words ["echo".toList, "a".toList] ++ '\'' :: "b\nc\n".toList)) =
      [⟨.noClosing, some "a".toList, 2⟩] := by
  refine ⟨by decide +kernel, ?_⟩
  refine C119_near _ _ ?_ (by decide) ?_
  · intro w hw
    simp only [List.mem_cons, List.not_mem_nil, or_false] at hw
    rcases hw with rfl | rfl <;> (unfold Simple; decide)
  · rw [← hasHere_iff]; decide +kernel

/-- `C119_accepts`: `#` inside quotes. -/
example : check (some "'a#b' # it's".toList) = [] := by
  refine C119_accepts _ ?_
  show Closed false true ('\'' :: (['a', '#', 'b'] ++ '\'' :: ' ' :: '#' :: " it's".toList))
  exact .single (by decide) (.ends (by decide) (.lastComment (by decide)))

/-- `C119_issue`: a backslash at the end of the second line. -/
example : check (some "ls\nrm \\".toList) = [⟨.noEscaped, some "rm".toList, 1⟩] := by decide +kernel

/-- **C119 is violated**: in `echo $# 'a⏎b'` all quotes are closed, yet an issue is reported: the
lexer takes `# 'a` for a comment. -/
theorem C119_rejects_violated : WellQuoted "echo $# 'a\nb'".toList ∧
    check (some "echo $# 'a\nb'".toList) = [⟨.noClosing, some "$".toList, 1⟩] := by
  refine ⟨?_, by decide +kernel⟩
  have hp : ∀ {b : Bool} {c : Char} {r : Str}, (¬ Ends c ∧ ¬ (c = '\'' ∨ c = '"' ∨ c = '\\' ∨ c = '#')) →
      Closed true false r → Closed true b (c :: r) := fun h hr => .plain h.1 h.2 hr
  show Closed true true ('e' :: 'c' :: 'h' :: 'o' :: ' ' :: '$' :: '#' :: ' ' :: '\'' ::
    (['a', '\n', 'b'] ++ '\'' :: []))
  refine hp (by decide) (hp (by decide) (hp (by decide) (hp (by decide) (.ends (by decide)
    (hp (by decide) (.hash rfl (.ends (by decide) (.single (by decide) .nil))))))))

/-- **C119 is violated** the other way: in `echo a#'` the quote is not closed, yet nothing is
reported. -/
theorem C119_accepts_violated : ¬ WellQuoted "echo a#'".toList ∧ check (some "echo a#'".toList) = [] := by
  refine ⟨?_, by decide +kernel⟩
  have hn : ∀ b, ¬ Closed true b ['\''] := by
    intro b h
    generalize hv : ['\''] = v at h
    cases h with
    | nil => simp at hv
    | ends hc _ => simp only [List.cons.injEq] at hv; rw [← hv.1] at hc; exact absurd hc (by decide)
    | plain _ hs _ => simp only [List.cons.injEq] at hv; rw [← hv.1] at hs; exact hs (.inl rfl)
    | single ht _ =>
      simp only [List.cons.injEq, true_and] at hv
      simp at hv
    | hash => simp at hv
    | comment => simp at hv
    | lastComment => simp at hv
    | escaped => simp at hv
    | joined => simp at hv
    | double => simp at hv
  have step : ∀ {b : Bool} {c : Char} {r : Str},
      ¬ (c = '\'' ∨ c = '"' ∨ c = '\\' ∨ c = '#') → Closed true b (c :: r) →
      Closed true (decide (Ends c)) r := by
    intro b c r hs h
    generalize hv : c :: r = v at h
    cases h with
    | nil => simp at hv
    | ends hc hr =>
      simp only [List.cons.injEq] at hv; rw [← hv.1] at hc; rw [decide_eq_true hc, hv.2]; exact hr
    | plain he _ hr =>
      simp only [List.cons.injEq] at hv; rw [← hv.1] at he; rw [decide_eq_false he, hv.2]; exact hr
    | hash => simp only [List.cons.injEq] at hv; exact absurd (.inr (.inr (.inr hv.1))) hs
    | comment => simp only [List.cons.injEq] at hv; exact absurd (.inr (.inr (.inr hv.1))) hs
    | lastComment => simp only [List.cons.injEq] at hv; exact absurd (.inr (.inr (.inr hv.1))) hs
    | escaped => simp only [List.cons.injEq] at hv; exact absurd (.inr (.inr (.inl hv.1))) hs
    | joined => simp only [List.cons.injEq] at hv; exact absurd (.inr (.inr (.inl hv.1))) hs
    | single => simp only [List.cons.injEq] at hv; exact absurd (.inl hv.1) hs
    | double => simp only [List.cons.injEq] at hv; exact absurd (.inr (.inl hv.1)) hs
  intro h
  have h6 := step (by decide) (step (by decide) (step (by decide) (step (by decide) (step (by decide)
    (step (by decide) (show Closed true true ['e', 'c', 'h', 'o', ' ', 'a', '#', '\''] from h))))))
  generalize hv : ['#', '\''] = v at h6
  have hb : decide (Ends 'a') = false := by decide
  rw [hb] at h6
  generalize hf : false = b at h6
  cases h6 with
  | nil => simp at hv
  | ends hc _ => simp only [List.cons.injEq] at hv; rw [← hv.1] at hc; exact absurd hc (by decide)
  | plain _ hs _ => simp only [List.cons.injEq] at hv; rw [← hv.1] at hs; exact hs (.inr (.inr (.inr rfl)))
  | hash _ hr => simp only [List.cons.injEq, true_and] at hv; rw [← hv] at hr; exact hn _ hr
  | comment => simp at hf
  | lastComment => simp at hf
  | escaped => simp at hv
  | joined => simp at hv
  | single => simp at hv
  | double => simp at hv

/-- **C119 is violated** for shifts: a command with `<<` that is no here-document is not looked at. -/
theorem C119_shift_violated : ¬ WellQuoted "echo $((1<<2)) '".toList ∧
    check (some "echo $((1<<2)) '".toList) = [] := by
  refine ⟨fun h => ?_, by decide +kernel⟩
  have ht := closed_taken h [] (by simp) (fun _ a b e => by
    have : '#' ∈ "echo $((1<<2)) '".toList := by rw [e]; simp
    exact absurd this (by decide))
  rw [← lex_taken] at ht
  exact absurd ht (by decide +kernel)

end Verif.Shell
