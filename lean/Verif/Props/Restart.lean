import Verif.Model.Restart

/-!
# C52: the restart command keeps its arguments

* `C52_quote`: the command that `run_job` makes splits into the arguments again, for all arguments.
* `C52_xdg_partial`, `C52_xdg_exact`, `C52_xdg_percent_violated`, `C52_xdg_terminal_violated`: the
  desktop file.
* `C52_snappy_exact`, `C52_snappy_violated`: the systemd unit.
* `C52_respawn_violated`: the file for jobs that do not return.
-/

namespace Verif.Restart

/-! ## Quoting and splitting -/

theorem lex_escape (s rest tok : Str) (q : Bool) :
    lex (escapeQuote s ++ '\'' :: rest) (.quote '\'') tok q = lex rest .word (tok ++ s) true := by
  induction s generalizing tok q with
  | nil => simp [escapeQuote, lex]
  | cons c s ih =>
    by_cases hc : c = '\''
    · subst hc
      simp only [escapeQuote, if_true, List.cons_append, List.nil_append, lex, isWs]
      simp only [Char.reduceEq, decide_false, Bool.or_self, Bool.false_eq_true, if_false, if_true,
        or_true, true_or, false_and]
      rw [ih, List.append_assoc]; rfl
    · simp only [escapeQuote, hc, if_false, List.cons_append, lex, Char.reduceEq, and_false]
      rw [ih, List.append_assoc]; rfl

theorem safe_plain {c : Char} (h : isSafe c = true) : isWs c = false ∧ c ≠ '\\' ∧ c ≠ '\'' ∧ c ≠ '"' := by
  refine ⟨?_, ?_, ?_, ?_⟩
  · cases hw : isWs c
    · rfl
    · simp only [isWs, Bool.or_eq_true, decide_eq_true_eq] at hw
      rcases hw with ((rfl | rfl) | rfl) | rfl <;> revert h <;> decide +kernel
  all_goals rintro rfl; revert h; decide +kernel

theorem lex_safe (s rest tok : Str) (q : Bool) (h : s.all isSafe = true) :
    lex (s ++ rest) .word tok q = lex rest .word (tok ++ s) q := by
  induction s generalizing tok with
  | nil => simp
  | cons c s ih =>
    simp only [List.all_cons, Bool.and_eq_true] at h
    obtain ⟨h1, h2, h3, h4⟩ := safe_plain h.1
    simp only [List.cons_append, lex, h1, h2, h3, h4, Bool.false_eq_true, if_false, or_self]
    rw [ih _ h.2, List.append_assoc]; rfl

/-- A quoted argument is read as one word. -/
theorem lex_quote (s rest : Str) : ∃ q, (s = [] → q = true) ∧
    lex (quote s ++ rest) .ws [] false = lex rest .word s q := by
  unfold quote
  split
  · rename_i h
    subst h
    refine ⟨true, fun _ => rfl, ?_⟩
    simp [lex, isWs]
  · rename_i h
    split
    · rename_i hs
      refine ⟨false, fun e => absurd e h, ?_⟩
      cases s with
      | nil => exact absurd rfl h
      | cons c s =>
        simp only [List.all_cons, Bool.and_eq_true] at hs
        obtain ⟨h1, h2, h3, h4⟩ := safe_plain hs.1
        simp only [List.cons_append, lex, h1, h2, h3, h4, Bool.false_eq_true, if_false, or_self]
        rw [lex_safe _ _ _ _ hs.2]; rfl
    · refine ⟨true, fun _ => rfl, ?_⟩
      have e : ['\''] ++ escapeQuote s ++ ['\''] ++ rest = '\'' :: (escapeQuote s ++ '\'' :: rest) := by simp
      rw [e]
      have : lex ('\'' :: (escapeQuote s ++ '\'' :: rest)) .ws [] false =
          lex (escapeQuote s ++ '\'' :: rest) (.quote '\'') [] false := by
        simp [lex, isWs]
      rw [this, lex_escape]; simp

/-- Splitting a command with something attached to its end. -/
theorem split_cmd (args : List Str) (a tail : Str) (ht : tail.all isSafe = true ∨ tail = ";$SHELL".toList) :
    split (restartCmd (args ++ [a]) ++ tail) = some (args ++ [a ++ tail]) := by
  have htail : ∀ q, (a = [] → q = true) → lex tail .word a q = some [a ++ tail] := by
    intro q hq
    have h1 : lex tail .word a q = lex [] .word (a ++ tail) q := by
      rcases ht with ht | rfl
      · have := lex_safe tail [] a q ht; simpa using this
      · have e : ";$SHELL".toList = [';', '$', 'S', 'H', 'E', 'L', 'L'] := rfl
        rw [e]
        simp [lex, isWs]
    rw [h1]
    simp only [lex]
    rw [if_pos]
    by_cases ha : a = []
    · exact .inr (hq ha)
    · exact .inl (by simp [ha])
  unfold split restartCmd
  induction args with
  | nil =>
    simp only [List.nil_append, List.map_cons, List.map_nil, joinSp]
    obtain ⟨q, hq, h⟩ := lex_quote a tail
    rw [h, htail q hq]
  | cons b args ih =>
    have e : joinSp ((b :: args ++ [a]).map quote) ++ tail =
        quote b ++ (' ' :: (joinSp ((args ++ [a]).map quote) ++ tail)) := by
      cases args <;> simp [joinSp]
    rw [e]
    obtain ⟨q, hq, h⟩ := lex_quote b (' ' :: (joinSp ((args ++ [a]).map quote) ++ tail))
    rw [h]
    have hb : b ≠ [] ∨ q = true := by
      by_cases hb : b = []
      · exact .inr (hq hb)
      · exact .inl hb
    simp only [lex, isWs, decide_true, Bool.true_or, if_true, hb, ih, Option.map_some, List.cons_append]

/-- **C52**, the command: for all arguments, empty ones and ones with quotes or spaces included, the
command made by `run_job` splits into the arguments again. -/
theorem C52_quote (args : List Str) : split (restartCmd args) = some args := by
  rcases List.eq_nil_or_concat args with rfl | ⟨l, a, rfl⟩
  · simp [split, restartCmd, joinSp, lex]
  · have := split_cmd l a [] (.inl rfl)
    simpa using this

example : restartCmd ["check box".toList, [], "--o='x'".toList, "b-1.2".toList] =
    "'check box' '' '--o='\"'\"'x'\"'\"'' b-1.2".toList := by decide +kernel

/-! ## The desktop file -/

theorem writeValue_self (s : Str) (h : '\n' ∉ s) : writeValue s = s := by
  induction s with
  | nil => rfl
  | cons c s ih =>
    simp only [List.mem_cons, not_or] at h
    simp [writeValue, Ne.symm h.1, ih h.2]

theorem writeValue_append (a b : Str) : writeValue (a ++ b) = writeValue a ++ writeValue b := by
  induction a with
  | nil => rfl
  | cons c s ih => simp only [List.cons_append, writeValue]; split <;> simp [ih]

theorem safe_write (s : Str) (h : s.all isSafe = true) : '\n' ∉ s := by
  intro hm
  have := List.all_eq_true.1 h _ hm
  revert this; decide +kernel

theorem write_nil (s : Str) : writeValue s = [] ↔ s = [] := by
  cases s with
  | nil => simp [writeValue]
  | cons c s => simp only [writeValue]; split <;> simp

theorem write_escape (s : Str) : writeValue (escapeQuote s) = escapeQuote (writeValue s) := by
  induction s with
  | nil => rfl
  | cons c s ih =>
    simp only [escapeQuote, writeValue]
    by_cases h1 : c = '\''
    · subst h1
      simp [writeValue, escapeQuote, ih]
    · by_cases h2 : c = '\n'
      · subst h2
        simp [writeValue, escapeQuote, ih]
      · simp [writeValue, escapeQuote, ih, h1, h2]

theorem write_quote (s : Str) : writeValue (quote s) = quote (writeValue s) := by
  by_cases h : s = []
  · subst h; decide +kernel
  · by_cases hs : s.all isSafe = true
    · have := safe_write s hs
      rw [writeValue_self s this]
      simp only [quote, h, hs, if_true, if_false]
      exact writeValue_self s this
    · have hw : (writeValue s).all isSafe = false := by
        cases hw : (writeValue s).all isSafe
        · rfl
        · exfalso
          apply hs
          rw [List.all_eq_true] at hw ⊢
          intro c hc
          by_cases hn : c = '\n'
          · subst hn
            obtain ⟨a, b, rfl⟩ := List.append_of_mem hc
            have : '\n' ∈ writeValue (a ++ '\n' :: b) := by
              rw [writeValue_append]; simp [writeValue]
            exact hw _ this
          · obtain ⟨a, b, rfl⟩ := List.append_of_mem hc
            have : c ∈ writeValue (a ++ c :: b) := by
              rw [writeValue_append]; simp [writeValue, hn]
            exact hw _ this
      have h' : writeValue s ≠ [] := by simpa [write_nil] using h
      simp only [quote, h, hs, h', hw, if_false, Bool.false_eq_true]
      simp [writeValue_append, write_escape, writeValue]

theorem write_cmd (args : List Str) : writeValue (restartCmd args) = restartCmd (args.map writeValue) := by
  unfold restartCmd
  induction args with
  | nil => rfl
  | cons a args ih =>
    cases args with
    | nil => simpa [joinSp] using write_quote a
    | cons b args =>
      simp only [List.map_cons, joinSp] at ih ⊢
      rw [writeValue_append, writeValue_append, ih, write_quote]
      rfl

theorem dropDouble_mem (s : Str) (h : '%' ∉ s) : dropDouble s = s := by
  fun_induction dropDouble s with
  | case1 => rfl
  | case2 => rfl
  | case3 c d s hc ih => exact absurd (by simp [hc.1]) h
  | case4 c d s hc ih => rw [ih (fun hm => h (List.mem_cons_of_mem _ hm))]

theorem dropKeysN_mem (n : Nat) (s : Str) (h : '%' ∉ s) : dropKeysN n s = s := by
  induction n generalizing s with
  | zero => rfl
  | succ n ih =>
    cases s with
    | nil => rfl
    | cons c s =>
      simp only [List.mem_cons, not_or] at h
      have hk : keyAt (c :: s) = none := by
        unfold keyAt
        split
        · rename_i he
          simp only [List.cons.injEq] at he
          exact absurd he.1.symm h.1
        · rfl
      simp only [dropKeysN, hk, ih s h.2]

theorem dropKeys_mem (s : Str) (h : '%' ∉ s) : dropKeys s = s := dropKeysN_mem _ s h

theorem settable_of (s : Str) (h : '%' ∉ s) : settable s = true := by
  simp [settable, dropDouble_mem s h, dropKeys_mem s h, h]

theorem percent_escape (s : Str) : '%' ∈ escapeQuote s ↔ '%' ∈ s := by
  induction s with
  | nil => simp [escapeQuote]
  | cons c s ih =>
    simp only [escapeQuote]
    split
    · rename_i h; subst h; simp [ih]
    · simp [ih]

theorem percent_cmd (args : List Str) : '%' ∈ restartCmd args ↔ ∃ a ∈ args, '%' ∈ a := by
  have hq : ∀ a, '%' ∈ quote a ↔ '%' ∈ a := by
    intro a
    simp only [quote]
    split
    · rename_i h; subst h; simp
    · split
      · rfl
      · simp [percent_escape]
  unfold restartCmd
  induction args with
  | nil => simp [joinSp]
  | cons a args ih =>
    cases args with
    | nil => simp [joinSp, hq]
    | cons b args =>
      simp only [List.map_cons] at ih ⊢
      simp only [joinSp, List.mem_append, List.mem_singleton, Char.reduceEq, or_false]
      simp only [hq, ih, List.mem_cons, exists_eq_or_imp]

/-- **C52**, the desktop file of an application without a terminal: if no argument holds a percent sign,
`Exec` splits into the arguments, except that each newline is followed by a tab. -/
theorem C52_xdg_exact (args : List Str) (hp : ∀ a ∈ args, '%' ∉ a) :
    ∃ v, xdgExec false (restartCmd args) = some v ∧ split v = some (args.map writeValue) := by
  have h : '%' ∉ restartCmd args := by
    rw [percent_cmd]; rintro ⟨a, ha, h⟩; exact hp a ha h
  refine ⟨writeValue (restartCmd args), ?_, ?_⟩
  · simp [xdgExec, settable_of _ h]
  · rw [write_cmd]; exact C52_quote _

/-- **C52**, partial: without a terminal, percent signs and newlines, `Exec` splits into the arguments.
Full statement: for all arguments and strategies. -/
theorem C52_xdg_partial (args : List Str) (hp : ∀ a ∈ args, '%' ∉ a ∧ '\n' ∉ a) :
    ∃ v, xdgExec false (restartCmd args) = some v ∧ split v = some args := by
  obtain ⟨v, h1, h2⟩ := C52_xdg_exact args (fun a ha => (hp a ha).1)
  refine ⟨v, h1, ?_⟩
  rw [h2]
  congr 1
  conv => rhs; rw [← List.map_id args]
  exact List.map_congr_left fun a ha => writeValue_self a (hp a ha).2

example : xdgExec false (restartCmd ["checkbox-cli".toList, "--resume".toList, "a b".toList]) =
    some "checkbox-cli --resume 'a b'".toList := by decide +kernel

/-- **C52** does not hold for the desktop file when an argument has a percent sign: the strategy raises
`ValueError` although the command is fine. -/
theorem C52_xdg_percent_violated :
    xdgExec false (restartCmd ["run".toList, "100%".toList]) = none ∧
    split (restartCmd ["run".toList, "100%".toList]) = some ["run".toList, "100%".toList] := by
  refine ⟨by decide +kernel, C52_quote _⟩

/-- **C52** does not hold for applications in a terminal (the default): whatever the arguments, `;$SHELL`
becomes part of the last one, unless a shell reads the line. -/
theorem C52_xdg_terminal_violated (args : List Str) (a : Str) (hp : ∀ b ∈ args ++ [a], '%' ∉ b ∧ '\n' ∉ b) :
    ∃ v, xdgExec true (restartCmd (args ++ [a])) = some v ∧
      split v = some (args ++ [a ++ ";$SHELL".toList]) := by
  have h : '%' ∉ restartCmd (args ++ [a]) ++ ";$SHELL".toList := by
    rw [List.mem_append, percent_cmd]
    rintro (⟨b, hb, h⟩ | h)
    · exact (hp b hb).1 h
    · revert h; decide +kernel
  refine ⟨writeValue (restartCmd (args ++ [a]) ++ ";$SHELL".toList), ?_, ?_⟩
  · simp only [xdgExec, if_true, settable_of _ h]
  · rw [writeValue_append, write_cmd]
    have e : (args ++ [a]).map writeValue = args ++ [a] := by
      conv => rhs; rw [← List.map_id (args ++ [a])]
      exact List.map_congr_left fun b hb => writeValue_self b (hp b hb).2
    have e2 : writeValue ";$SHELL".toList = ";$SHELL".toList := by decide +kernel
    rw [e, e2]
    exact split_cmd args a _ (.inr rfl)

/-! ## The systemd unit -/

/-- **C52**, the unit, exactly: only the first argument matters. -/
theorem C52_snappy_exact (binary a : Str) (rest : List Str) :
    snappyArgs (restartCmd (a :: rest)) = some ((wordsOf a []).drop 1) ∧
    snappyExec binary (restartCmd (a :: rest)) = snappyExec binary (restartCmd [a]) := by
  have h : ∀ l, snappyArgs (restartCmd (a :: l)) = some ((wordsOf a []).drop 1) := by
    intro l; simp [snappyArgs, C52_quote]
  refine ⟨h rest, ?_⟩
  simp [snappyExec, h]

theorem wordsOf_plain (a tok : Str) (h : ∀ c ∈ a, ¬(c = ' ' ∨ ('\t' ≤ c ∧ c ≤ '\r') ∨ ('\x1c' ≤ c ∧ c ≤ '\x1f'))) :
    wordsOf a tok = if tok ++ a = [] then [] else [tok ++ a] := by
  induction a generalizing tok with
  | nil => simp [wordsOf]
  | cons c a ih =>
    rw [wordsOf, if_neg (h c (by simp)), ih _ (fun x hx => h x (by simp [hx]))]
    simp

/-- **C52** does not hold for the snappy strategy: whatever the arguments, if the name of the program has
no spaces, all arguments are lost. -/
theorem C52_snappy_violated (binary a : Str) (rest : List Str)
    (ha : ∀ c ∈ a, ¬(c = ' ' ∨ ('\t' ≤ c ∧ c ≤ '\r') ∨ ('\x1c' ≤ c ∧ c ≤ '\x1f')))
    (hb : '%' ∉ binary ∧ '\n' ∉ binary) :
    snappyExec binary (restartCmd (a :: rest)) = some (binary ++ [' ']) := by
  have h : snappyArgs (restartCmd (a :: rest)) = some [] := by
    rw [(C52_snappy_exact binary a rest).1, wordsOf_plain a [] ha]
    split <;> simp
  have hs : '%' ∉ binary ++ [' '] := by simp [hb.1]
  have hw : '\n' ∉ binary ++ [' '] := by simp [hb.2]
  simp [snappyExec, h, joinSp, settable_of _ hs, writeValue_self _ hw]

example : snappyExec "/snap/bin/x.checkbox-cli".toList
    (restartCmd ["checkbox-cli".toList, "--resume".toList, "id".toList]) =
    some "/snap/bin/x.checkbox-cli ".toList := by decide +kernel

/-! ## The file for jobs that do not return -/

/-- **C52** does not hold for the file `__respawn_checkbox`: different argument lists give the same text,
so the arguments cannot be recovered. -/
theorem C52_respawn_violated : ∃ a b : List Str, a ≠ b ∧ respawn a = respawn b ∧
    respawn a = "checkbox-cli--resumeid".toList :=
  ⟨["checkbox-cli".toList, "--resume".toList, "id".toList], ["checkbox-cli--resumeid".toList],
    by decide +kernel, by decide +kernel, by decide +kernel⟩

end Verif.Restart
