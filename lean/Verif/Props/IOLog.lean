import Verif.Model.IOLog
import Verif.Lemmas.Text

/-! # Property C26 -/

namespace Verif.IOLog

open Verif.Text

theorem dec6_enc6 (n : Nat) (h : n < 64) : dec6 (enc6 n) = some n ∧ enc6 n ≠ '=' := by
  have : ∀ m : Fin 64, dec6 (enc6 m.val) = some m.val ∧ enc6 m.val ≠ '=' := by decide +kernel
  exact this ⟨n, h⟩

theorem byte_eq (a : Fin 256) (n : Nat) (h : n % 256 = a.val) : byte n = a := by
  apply Fin.ext; exact h

theorem b64_round (bs : List (Fin 256)) : b64dec (b64enc bs) = some bs := by
  match bs with
  | [] => rfl
  | [a] =>
    have ha := a.isLt
    have h1 := dec6_enc6 (a.val / 4) (by omega)
    have h2 := dec6_enc6 (a.val % 4 * 16) (by omega)
    simp only [b64enc, b64dec, h1.1, h2.1, if_true, and_self]
    rw [byte_eq a _ (by omega)]
  | [a, b] =>
    have ha := a.isLt
    have hb := b.isLt
    have h1 := dec6_enc6 (a.val / 4) (by omega)
    have h2 := dec6_enc6 (a.val % 4 * 16 + b.val / 16) (by omega)
    have h3 := dec6_enc6 (b.val % 16 * 4) (by omega)
    simp only [b64enc, b64dec, h1.1, h2.1, h3.1, h3.2, if_true, if_false]
    rw [byte_eq a _ (by omega), byte_eq b _ (by omega)]
  | a :: b :: c :: r =>
    have ha := a.isLt
    have hb := b.isLt
    have hc := c.isLt
    have h1 := dec6_enc6 (a.val / 4) (by omega)
    have h2 := dec6_enc6 (a.val % 4 * 16 + b.val / 16) (by omega)
    have h3 := dec6_enc6 (b.val % 16 * 4 + c.val / 64) (by omega)
    have h4 := dec6_enc6 (c.val % 64) (by omega)
    simp only [b64enc, b64dec, h1.1, h2.1, h3.1, h3.2, h4.1, h4.2, if_false, b64_round r]
    rw [byte_eq a _ (by omega), byte_eq b _ (by omega), byte_eq c _ (by omega)]

theorem hexVal_hexDigit (n : Nat) (h : n < 16) : hexVal (hexDigit n) = some n := by
  have : ∀ m : Fin 16, hexVal (hexDigit m.val) = some m.val := by decide +kernel
  exact this ⟨n, h⟩

theorem hex4_digits (n : Nat) (h : n < 65536) :
    hex4 (hexDigit (n / 4096 % 16)) (hexDigit (n / 256 % 16)) (hexDigit (n / 16 % 16))
      (hexDigit (n % 16)) = some n := by
  unfold hex4
  rw [hexVal_hexDigit _ (by omega), hexVal_hexDigit _ (by omega), hexVal_hexDigit _ (by omega),
    hexVal_hexDigit _ (by omega)]
  simp only [Option.some.injEq]
  omega

theorem chr_toNat (c : Char) : chr? c.toNat = some c := by
  unfold chr?
  have : c.toNat.isValidChar := c.valid
  rw [if_pos this, Char.ofNat_toNat]

theorem char_valid (c : Char) : c.toNat < 55296 ∨ (57343 < c.toNat ∧ c.toNat < 1114112) := by
  have : c.toNat.isValidChar := c.valid
  exact this

theorem escape_u {n : Nat} (hn : n < 65536) (hs : ¬ (55296 ≤ n ∧ n ≤ 56319)) {c : Char}
    (hc : chr? n = some c) (rest : Str) :
    escape ((uEsc n).tail ++ rest) = some (c, rest) := by
  have e := hex4_digits n hn
  simp only [uEsc, List.tail_cons, List.cons_append, List.nil_append, escape, unicodeEsc, e,
    if_true, if_neg hs, hc, Option.map_some]

theorem escape_uu {A B : Nat} (h1 : 55296 ≤ A) (h2 : A ≤ 56319) (h3 : 56320 ≤ B) (h4 : B ≤ 57343)
    {c : Char} (hc : chr? (65536 + (A - 55296) * 1024 + (B - 56320)) = some c) (rest : Str) :
    escape ((uEsc A).tail ++ (uEsc B ++ rest)) = some (c, rest) := by
  have e := hex4_digits A (by omega)
  have e' := hex4_digits B (by omega)
  simp only [uEsc, List.tail_cons, List.cons_append, List.nil_append, escape, unicodeEsc, e,
    if_true, if_pos (And.intro h1 h2), lowSurrogate, e', and_self, if_pos (And.intro h3 h4), hc,
    Option.map_some]

/-- An escaped character is a plain one or a backslash and an escape sequence. -/
theorem escChar_forms (c : Char) :
    (escChar c = [c] ∧ c ≠ '"' ∧ c ≠ '\\' ∧ ¬ c.toNat < 32) ∨
    ∃ e, escChar c = '\\' :: e ∧ ∀ rest, escape (e ++ rest) = some (c, rest) := by
  by_cases h1 : c = '"'
  · subst h1; exact .inr ⟨['"'], by decide, fun _ => rfl⟩
  by_cases h2 : c = '\\'
  · subst h2; exact .inr ⟨['\\'], by decide, fun _ => rfl⟩
  by_cases h3 : c = '\n'
  · subst h3; exact .inr ⟨['n'], by decide, fun _ => rfl⟩
  by_cases h4 : c = '\r'
  · subst h4; exact .inr ⟨['r'], by decide, fun _ => rfl⟩
  by_cases h5 : c = '\t'
  · subst h5; exact .inr ⟨['t'], by decide, fun _ => rfl⟩
  by_cases h6 : c = '\x0c'
  · subst h6; exact .inr ⟨['f'], by decide, fun _ => rfl⟩
  by_cases h7 : c = '\x08'
  · subst h7; exact .inr ⟨['b'], by decide, fun _ => rfl⟩
  have e : escChar c = if 32 ≤ c.toNat ∧ c.toNat ≤ 126 then [c]
      else if c.toNat < 65536 then uEsc c.toNat
      else uEsc (55296 + (c.toNat - 65536) / 1024) ++ uEsc (56320 + (c.toNat - 65536) % 1024) := by
    unfold escChar
    rw [if_neg h1, if_neg h2, if_neg h3, if_neg h4, if_neg h5, if_neg h6, if_neg h7]
  have hv := char_valid c
  have hcons : ∀ n, uEsc n = '\\' :: (uEsc n).tail := fun n => rfl
  by_cases h8 : 32 ≤ c.toNat ∧ c.toNat ≤ 126
  · exact .inl ⟨by rw [e, if_pos h8], h1, h2, by omega⟩
  by_cases h9 : c.toNat < 65536
  · exact .inr ⟨(uEsc c.toNat).tail, by rw [e, if_neg h8, if_pos h9]; exact hcons _,
      escape_u h9 (by omega) (chr_toNat c)⟩
  · have e' : escChar c = uEsc (55296 + (c.toNat - 65536) / 1024) ++
        uEsc (56320 + (c.toNat - 65536) % 1024) := by rw [e, if_neg h8, if_neg h9]
    rw [e']
    generalize hA : 55296 + (c.toNat - 65536) / 1024 = A
    generalize hB : 56320 + (c.toNat - 65536) % 1024 = B
    refine .inr ⟨(uEsc A).tail ++ uEsc B, by rw [hcons A]; rfl, ?_⟩
    intro rest
    rw [List.append_assoc]
    refine escape_uu (by omega) (by omega) (by omega) (by omega) ?_ rest
    have : 65536 + (A - 55296) * 1024 + (B - 56320) = c.toNat := by omega
    rw [this, chr_toNat]

theorem scanStrF_round (s t : Str) : ∀ fuel, s.length + 1 ≤ fuel →
    scanStrF fuel ((s.map escChar).flatten ++ '"' :: t) = some (s, t) := by
  induction s with
  | nil =>
    intro fuel h
    cases fuel with
    | zero => simp at h
    | succ n => simp [scanStrF]
  | cons c s ih =>
    intro fuel h
    cases fuel with
    | zero => simp at h
    | succ n =>
      have ih' := ih n (by simp at h; omega)
      rw [List.map_cons, List.flatten_cons, List.append_assoc]
      rcases escChar_forms c with ⟨e, h1, h2, h3⟩ | ⟨e, he, hesc⟩
      · rw [e, List.singleton_append]
        simp only [scanStrF, if_neg h1, if_neg h2, if_neg h3, ih', Option.map_some]
      · rw [he, List.cons_append]
        have hq : ¬ ('\\' = '"') := by decide
        simp only [scanStrF, if_neg hq, if_true, hesc, ih', Option.map_some]

theorem scanStr_round (s t : Str) :
    scanStr ((s.map escChar).flatten ++ '"' :: t) = some (s, t) := by
  refine scanStrF_round s t _ ?_
  have : s.length ≤ (s.map escChar).flatten.length := by
    induction s with
    | nil => simp
    | cons c s ih =>
      have hne : 1 ≤ (escChar c).length := by
        rcases escChar_forms c with ⟨e, _⟩ | ⟨e, he, _⟩
        · rw [e]; simp
        · rw [he]; simp
      simp only [List.map_cons, List.flatten_cons, List.length_append, List.length_cons]
      omega
  simp only [List.length_append, List.length_cons]
  omega

/-- The delay token is one that `json.dumps` could write: not empty, number characters only. -/
def Rec.Ok (r : Rec) : Prop := r.delay ≠ [] ∧ ∀ c ∈ r.delay, isNumChar c = true

theorem parse_write (r : Rec) (h : r.Ok) : parse (write r) = some r := by
  obtain ⟨d, s, bs⟩ := r
  obtain ⟨h1, h2⟩ := h
  simp only at h1 h2
  unfold parse write
  simp only
  obtain ⟨t1, t2⟩ := takeWhile_append_stop isNumChar d
    (',' :: (jsonStr s ++ ',' :: (jsonStr (b64enc bs) ++ [']', '\n']))) h2 (by
      intro c r' he
      simp only [List.cons.injEq] at he
      rw [← he.1]; decide)
  rw [t1, t2]
  simp only [jsonStr, List.cons_append, List.append_assoc, List.nil_append]
  rw [scanStr_round]
  simp only
  rw [scanStr_round]
  simp only [b64_round]
  rw [if_pos ⟨h1, by decide⟩]

/-- Printable ASCII. -/
def Printable (c : Char) : Prop := 32 ≤ c.toNat ∧ c.toNat ≤ 126

theorem hexDigit_printable (n : Nat) : Printable (hexDigit n) := by
  unfold Printable
  by_cases h : n < 16
  · have : ∀ m : Fin 16, 32 ≤ (hexDigit m.val).toNat ∧ (hexDigit m.val).toNat ≤ 126 := by
      decide +kernel
    exact this ⟨n, h⟩
  · have : hexDigit n = '0' := by
      unfold hexDigit
      rw [List.getD_eq_getElem?_getD, List.getElem?_eq_none (by simp; omega)]; rfl
    rw [this]; decide

theorem enc6_printable (n : Nat) : Printable (enc6 n) := by
  unfold Printable
  by_cases h : n < 64
  · have : ∀ m : Fin 64, 32 ≤ (enc6 m.val).toNat ∧ (enc6 m.val).toNat ≤ 126 := by
      decide +kernel
    exact this ⟨n, h⟩
  · have : enc6 n = 'A' := by
      unfold enc6
      have : alphabet.length = 64 := by decide +kernel
      rw [List.getD_eq_getElem?_getD, List.getElem?_eq_none (by omega)]; rfl
    rw [this]; decide

theorem escChar_printable (c : Char) : ∀ x ∈ escChar c, Printable x := by
  have hu : ∀ n, ∀ x ∈ uEsc n, Printable x := by
    intro n x hx
    simp only [uEsc, List.mem_cons, List.not_mem_nil, or_false] at hx
    rcases hx with rfl | rfl | rfl | rfl | rfl | rfl
    · unfold Printable; decide
    · unfold Printable; decide
    all_goals exact hexDigit_printable _
  unfold escChar
  intro x hx
  split at hx
  · simp at hx; rcases hx with rfl | rfl <;> (unfold Printable; decide)
  split at hx
  · simp at hx; subst hx; unfold Printable; decide
  split at hx
  · simp at hx; rcases hx with rfl | rfl <;> (unfold Printable; decide)
  split at hx
  · simp at hx; rcases hx with rfl | rfl <;> (unfold Printable; decide)
  split at hx
  · simp at hx; rcases hx with rfl | rfl <;> (unfold Printable; decide)
  split at hx
  · simp at hx; rcases hx with rfl | rfl <;> (unfold Printable; decide)
  split at hx
  · simp at hx; rcases hx with rfl | rfl <;> (unfold Printable; decide)
  split at hx
  · simp at hx; subst hx; assumption
  split at hx
  · exact hu _ _ hx
  · rcases List.mem_append.mp hx with hx | hx <;> exact hu _ _ hx

theorem numChar_printable (c : Char) (h : isNumChar c = true) : Printable c := by
  unfold isNumChar Char.isAlphanum Char.isAlpha Char.isUpper Char.isLower Char.isDigit at h
  unfold Printable
  simp only [Bool.or_eq_true, Bool.and_eq_true, decide_eq_true_eq, beq_iff_eq] at h
  rcases h with ((((h | h) | h) | h) | h) | h
  · have h1 : 65 ≤ c.val.toNat := h.1
    have h2 : c.val.toNat ≤ 90 := h.2
    unfold Char.toNat; omega
  · have h1 : 97 ≤ c.val.toNat := h.1
    have h2 : c.val.toNat ≤ 122 := h.2
    unfold Char.toNat; omega
  · have h1 : 48 ≤ c.val.toNat := h.1
    have h2 : c.val.toNat ≤ 57 := h.2
    unfold Char.toNat; omega
  · subst h; decide
  · subst h; decide
  · subst h; decide

theorem jsonStr_printable (s : Str) : ∀ x ∈ jsonStr s, Printable x := by
  intro x hx
  have hq : Printable '"' := by unfold Printable; decide
  simp only [jsonStr, List.mem_cons, List.mem_append, List.mem_flatten, List.mem_map,
    List.not_mem_nil, or_false] at hx
  rcases hx with rfl | ⟨l, ⟨c, _, rfl⟩, hx⟩ | rfl
  · exact hq
  · exact escChar_printable c x hx
  · exact hq

/-- A written record is one line: printable ASCII and then a newline. -/
theorem write_line (r : Rec) (h : r.Ok) :
    ∃ m, write r = m ++ ['\n'] ∧ ∀ c ∈ m, Printable c := by
  refine ⟨'[' :: (r.delay ++ ',' :: (jsonStr r.stream ++ ',' :: (jsonStr (b64enc r.data) ++ [']']))),
    by simp [write], ?_⟩
  intro c hc
  simp only [List.mem_cons, List.mem_append, List.not_mem_nil, or_false] at hc
  rcases hc with rfl | hc | rfl | hc | rfl | hc | rfl
  · unfold Printable; decide
  · exact numChar_printable c (h.2 c hc)
  · unfold Printable; decide
  · exact jsonStr_printable _ c hc
  · unfold Printable; decide
  · exact jsonStr_printable _ c hc
  · unfold Printable; decide

theorem newline_not_printable {m : Str} (h : ∀ c ∈ m, Printable c) : '\n' ∉ m := by
  intro hm
  have := (h _ hm).1
  revert this; decide

/-- **C26.**  Whatever records are written, reading the text yields exactly these records; each
record is one line of printable ASCII. -/
theorem C26_io_log (rs : List Rec) (h : ∀ r ∈ rs, r.Ok) :
    readAll (writeAll rs) = some rs ∧ linesKeep (writeAll rs) = rs.map write ∧
    ∀ r ∈ rs, ∃ m, write r = m ++ ['\n'] ∧ ∀ c ∈ m, Printable c := by
  have hl : linesKeep (writeAll rs) = rs.map write := by
    unfold writeAll
    induction rs with
    | nil => rfl
    | cons r rs ih =>
      obtain ⟨m, hm, hp⟩ := write_line r (h r (by simp))
      rw [List.map_cons, List.flatten_cons, hm, List.append_assoc]
      show linesKeep (m ++ '\n' :: (rs.map write).flatten) = _
      rw [linesKeep_append (newline_not_printable hp), ih (fun r hr => h r (by simp [hr]))]
  refine ⟨?_, hl, fun r hr => write_line r (h r hr)⟩
  unfold readAll
  rw [hl]
  clear hl
  induction rs with
  | nil => rfl
  | cons r rs ih =>
    rw [List.map_cons, List.mapM_cons, parse_write r (h r (by simp)),
      ih (fun r hr => h r (by simp [hr]))]
    rfl

/-- Bytes are not confused either: two different logs are different texts. -/
theorem C26_injective (rs rs' : List Rec) (h : ∀ r ∈ rs, r.Ok) (h' : ∀ r ∈ rs', r.Ok)
    (he : writeAll rs = writeAll rs') : rs = rs' := by
  have a := (C26_io_log rs h).1
  have b := (C26_io_log rs' h').1
  rw [he, b] at a
  simpa using a.symm

example : Rec.Ok ⟨"0.25".toList, "stdout".toList, [255, 0, 10]⟩ ∧
    write ⟨"0.25".toList, "std\"é𝄞".toList, [255, 0, 10, 7]⟩ =
      "[0.25,\"std\\\"\\u00e9\\ud834\\udd1e\",\"/wAKBw==\"]\n".toList := by
  refine ⟨⟨by decide, by decide +kernel⟩, by decide +kernel⟩

/-- C26, reading: hexadecimal digits of either case mean the same. -/
theorem C26_hex_case (a b c d : Char) (r : Str) :
    unicodeEsc (a :: b :: c :: d :: r) =
      unicodeEsc (a.toUpper :: b.toUpper :: c.toUpper :: d.toUpper :: r) := by
  have key : ∀ c : Char, hexVal c.toUpper = hexVal c := by
    intro c
    by_cases h : c ∈ "abcdefghijklmnopqrstuvwxyz".toList
    · revert h
      have : ∀ c ∈ "abcdefghijklmnopqrstuvwxyz".toList, hexVal c.toUpper = hexVal c := by
        decide +kernel
      exact this c
    · have : c.toUpper = c := by
        unfold Char.toUpper
        split
        · rename_i hc
          exfalso
          apply h
          have h1 : 97 ≤ c.toNat := by simpa [UInt32.le_iff_toNat_le] using hc.1
          have h2 : c.toNat ≤ 122 := by simpa [UInt32.le_iff_toNat_le] using hc.2
          have hall : ∀ n : Nat, 97 ≤ n → n ≤ 122 →
              Char.ofNat n ∈ "abcdefghijklmnopqrstuvwxyz".toList := by
            intro n h1 h2
            have : ∀ k : Fin 26, Char.ofNat (97 + k.val) ∈ "abcdefghijklmnopqrstuvwxyz".toList := by
              decide +kernel
            have := this ⟨n - 97, by omega⟩
            simpa [show 97 + (n - 97) = n by omega] using this
          have := hall c.toNat h1 h2
          rwa [Char.ofNat_toNat] at this
        · rfl
      rw [this]
  have h4 : hex4 a.toUpper b.toUpper c.toUpper d.toUpper = hex4 a b c d := by
    simp only [hex4, key]
  simp only [unicodeEsc, h4]

example : scanStr "\\u00E9\\u00e9\"".toList = some ("éé".toList, []) := by decide +kernel

end Verif.IOLog
