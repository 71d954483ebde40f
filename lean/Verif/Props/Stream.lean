import Verif.Lemmas.Stream

/-! # C96: what was exported is what is written to the standard output -/

namespace Verif.Stream

open Verif.Checksum (Str)

/-! ## Specification -/

/-- In the encoding of the text a character ends after so many bytes, or none has begun. -/
def Boundary (t : Str) (p : Nat) : Prop := ∃ s r, t = s ++ r ∧ (encode s).length = p

/-- All characters are ASCII. -/
def Plain (t : Str) : Prop := ∀ c ∈ t, c.toNat < 0x80

/-! ## Lemmas -/

theorem encode_nil_iff (t : Str) : encode t = [] ↔ t = [] := by
  cases t with
  | nil => simp [encode]
  | cons c t => simp [encode_cons, encodeChar_ne]

theorem boundary_shift {s r : Str} (p : Nat) :
    Boundary (s ++ r) ((encode s).length + p) ↔ Boundary r p := by
  constructor
  · rintro ⟨s', r', e, hl⟩
    rcases List.append_eq_append_iff.1 e with ⟨x, hx, hr⟩ | ⟨x, hx, hr⟩
    · refine ⟨x, r', hr, ?_⟩
      rw [hx, encode_append, List.length_append] at hl
      omega
    · rw [hx, encode_append, List.length_append] at hl
      have hz : (encode x).length = 0 ∧ p = 0 := by omega
      have : x = [] := (encode_nil_iff x).1 (List.length_eq_zero_iff.1 hz.1)
      subst this
      exact ⟨[], r, rfl, by rw [hz.2]; rfl⟩
  · rintro ⟨s', r', rfl, hl⟩
    exact ⟨s ++ s', r', by simp, by rw [encode_append, List.length_append, hl]⟩

theorem not_boundary {t : Str} {n : Nat} (hn : n ≤ (encode t).length) (h : ¬ Boundary t n) :
    decode ((encode t).take n) = none := by
  cases hd : decode ((encode t).take n) with
  | none => rfl
  | some s =>
    exfalso
    have hs := encode_decode _ _ hd
    have ht := decode_encode t
    rw [← List.take_append_drop n (encode t), ← hs, decode_append] at ht
    cases hr : decode ((encode t).drop n) with
    | none => rw [hr] at ht; cases ht
    | some r =>
      rw [hr] at ht
      have ht' : s ++ r = t := Option.some.inj ht
      exact h ⟨s, r, ht'.symm, by rw [hs, List.length_take]; omega⟩

/-- Copying in pieces of a fixed length, to a stream of the same encoding. -/
theorem copy_spec {dest : Option Str} {enc : Str} (hm : mismatch dest enc = false) {n : Nat} (hn : 0 < n) (fuel : Nat) :
    ∀ t : Str, (encode t).length ≤ fuel →
      ((copy dest enc (some n) fuel (encode t)).2 = true ∧ (copy dest enc (some n) fuel (encode t)).1 = t ∧
        ∀ k, k * n < (encode t).length → Boundary t (k * n)) ∨
      ((copy dest enc (some n) fuel (encode t)).2 = false ∧
        ∃ k r, t = (copy dest enc (some n) fuel (encode t)).1 ++ r ∧
          (encode (copy dest enc (some n) fuel (encode t)).1).length = k * n ∧
          (k + 1) * n < (encode t).length ∧ (∀ j, j ≤ k → Boundary t (j * n)) ∧ ¬ Boundary t ((k + 1) * n)) := by
  induction fuel with
  | zero =>
    intro t ht
    have : t = [] := (encode_nil_iff t).1 (List.length_eq_zero_iff.1 (by omega))
    subst this
    exact .inl ⟨rfl, rfl, fun k hk => by simp [encode] at hk⟩
  | succ fuel ih =>
    intro t ht
    rw [copy]
    by_cases h0 : (encode t).isEmpty = true
    · rw [if_pos h0]
      have : t = [] := (encode_nil_iff t).1 (by simpa using h0)
      subst this
      exact .inl ⟨rfl, rfl, fun k hk => by simp [encode] at hk⟩
    · rw [if_neg h0]
      have hpos : 0 < (encode t).length := by
        cases he : encode t with
        | nil => rw [he] at h0; simp at h0
        | cons => simp
      simp only [Option.getD_some, write, hm, Bool.false_eq_true, if_false]
      by_cases hl : (encode t).length ≤ n
      · rw [List.take_of_length_le hl, List.drop_of_length_le hl, decode_encode]
        have hc : copy dest enc (some n) fuel [] = ([], true) := by cases fuel <;> simp [copy]
        refine .inl ⟨by simp [hc], by simp [hc], fun k hk => ?_⟩
        have : k = 0 := by
          rcases k with _ | k
          · rfl
          · exfalso
            have : n ≤ (k + 1) * n := Nat.le_mul_of_pos_left n (by omega)
            omega
        subst this
        exact ⟨[], t, rfl, by simp [encode]⟩
      · by_cases hb : Boundary t n
        · obtain ⟨s, r, rfl, hs⟩ := hb
          have htk : (encode (s ++ r)).take n = encode s := by
            rw [encode_append, List.take_append_of_le_length (by omega), List.take_of_length_le (by omega)]
          have hdr : (encode (s ++ r)).drop n = encode r := by
            rw [encode_append, ← hs, List.drop_left]
          have hlen : (encode (s ++ r)).length = n + (encode r).length := by
            rw [encode_append, List.length_append, hs]
          rw [htk, hdr, decode_encode]
          dsimp only
          have shift : ∀ k, Boundary (s ++ r) ((k + 1) * n) ↔ Boundary r (k * n) := by
            intro k
            rw [← boundary_shift (s := s) (r := r) (k * n), hs]
            have : (k + 1) * n = n + k * n := by rw [Nat.succ_mul]; omega
            rw [this]
          rcases ih r (by omega) with ⟨h1, h2, h3⟩ | ⟨h1, k, r', h2, h3, h4, h6, h5⟩
          · refine .inl ⟨h1, by rw [h2], fun k hk => ?_⟩
            rcases k with _ | k
            · exact ⟨[], s ++ r, rfl, by simp [encode]⟩
            · rw [shift]
              refine h3 k ?_
              rw [Nat.succ_mul] at hk
              omega
          · refine .inr ⟨h1, k + 1, r', by rw [List.append_assoc, ← h2], ?_, ?_, ?_, ?_⟩
            · rw [encode_append, List.length_append, hs, h3, Nat.succ_mul]
              omega
            · rw [Nat.succ_mul (k + 1) n]
              omega
            · intro j hj
              rcases j with _ | j
              · exact ⟨[], s ++ r, rfl, by simp [encode]⟩
              · rw [shift]
                exact h6 j (by omega)
            · rw [shift]
              exact h5
        · rw [not_boundary (by omega) hb]
          refine .inr ⟨rfl, 0, t, rfl, by simp [encode], by omega, fun j hj => ?_, ?_⟩
          · rw [Nat.le_zero.1 hj]
            exact ⟨[], t, rfl, by simp [encode]⟩
          rw [Nat.zero_add, Nat.one_mul]
          exact hb

theorem ascii_char (c : Char) : asciiOnly (encodeChar c) = if c.toNat < 0x80 then [c] else [] := by
  unfold encodeChar asciiOnly
  dsimp only
  by_cases h1 : c.toNat < 0x80
  · rw [if_pos h1, if_pos h1]
    simp [h1]
  · rw [if_neg h1, if_neg h1]
    split
    · rw [List.filter_cons_of_neg (by simp; omega), List.filter_cons_of_neg (by simp)]
      rfl
    · split
      · rw [List.filter_cons_of_neg (by simp; omega), List.filter_cons_of_neg (by simp), List.filter_cons_of_neg (by simp)]
        rfl
      · rw [List.filter_cons_of_neg (by simp; omega), List.filter_cons_of_neg (by simp), List.filter_cons_of_neg (by simp),
          List.filter_cons_of_neg (by simp)]
        rfl

theorem ascii_encode (t : Str) : asciiOnly (encode t) = t.filter fun c => decide (c.toNat < 0x80) := by
  induction t with
  | nil => rfl
  | cons c t ih =>
    have happ : ∀ a b, asciiOnly (a ++ b) = asciiOnly a ++ asciiOnly b := by intro a b; simp [asciiOnly]
    rw [encode_cons, happ, ih, ascii_char]
    by_cases h : c.toNat < 0x80 <;> simp [h]

theorem copy_mismatch {dest : Option Str} {enc : Str} (hm : mismatch dest enc = true) {n : Nat} (hn : 0 < n) (fuel : Nat) :
    ∀ bs : List Nat, bs.length ≤ fuel → copy dest enc (some n) fuel bs = (asciiOnly bs, true) := by
  induction fuel with
  | zero =>
    intro bs h
    have : bs = [] := List.length_eq_zero_iff.1 (by omega)
    subst this
    rfl
  | succ fuel ih =>
    intro bs h
    rw [copy]
    cases bs with
    | nil => rfl
    | cons b bs =>
      simp only [List.isEmpty_cons, Bool.false_eq_true, if_false, write, hm, if_true, Option.getD_some]
      rw [ih _ (by rw [List.length_drop]; simp only [List.length_cons] at *; omega)]
      have : asciiOnly (List.take n (b :: bs)) ++ asciiOnly (List.drop n (b :: bs)) = asciiOnly (b :: bs) := by
        unfold asciiOnly
        rw [← List.map_append, ← List.filter_append, List.take_append_drop]
      rw [this]

/-! ## C96 -/

/-- The stream takes UTF-8, or does not tell what it takes. -/
def Utf8 (dest : Option Str) : Prop :=
  dest = none ∨ dest = some [] ∨ ∃ d, dest = some d ∧ d.map Char.toLower = "utf-8".toList

/-- How many bytes are copied at a time. -/
def piece : Nat := 16384

theorem piece_eq : piece = defaultLength := rfl

theorem mismatch_iff (dest : Option Str) : mismatch dest "utf-8".toList = false ↔ Utf8 dest := by
  have hl : lower "utf-8".toList = "utf-8".toList := by decide
  unfold mismatch Utf8
  cases dest with
  | none => simp
  | some d =>
    simp only [hl, reduceCtorEq, false_or, Option.some.injEq, Bool.and_eq_false_iff, Bool.not_eq_false',
      List.isEmpty_iff, bne_eq_false_iff_eq]
    refine or_congr Iff.rfl ⟨fun h => ⟨d, rfl, h⟩, ?_⟩
    rintro ⟨d', rfl, h⟩
    exact h

instance (dest : Option Str) : Decidable (Utf8 dest) := decidable_of_iff _ (mismatch_iff dest)

/-- **C96, part 1.** Writing to the standard output, whose encoding is UTF-8 or not known, gives the text that was exported
just when no character of it lies across a multiple of the length that is copied at a time; else there is an exception, and
the text before the first such piece has been written. -/
theorem C96_stdout_partial (dest : Option Str) (hm : Utf8 dest) (t : Str) :
    ((toStdout dest (encode t)).2 = true ↔
      ∀ k, k * piece < (encode t).length → Boundary t (k * piece)) ∧
    ((toStdout dest (encode t)).2 = true → (toStdout dest (encode t)).1 = t) ∧
    ((toStdout dest (encode t)).2 = false → ∃ k r, t = (toStdout dest (encode t)).1 ++ r ∧
      (encode (toStdout dest (encode t)).1).length = k * piece ∧
      (k + 1) * piece < (encode t).length ∧ (∀ j, j ≤ k → Boundary t (j * piece)) ∧ ¬ Boundary t ((k + 1) * piece)) := by
  rw [piece_eq]
  replace hm := (mismatch_iff dest).2 hm
  unfold toStdout
  rcases copy_spec hm (n := defaultLength) (by decide) (encode t).length t (Nat.le_refl _) with
    ⟨h1, h2, h3⟩ | ⟨h1, k, r, h2, h3, h4, h6, h5⟩
  · exact ⟨⟨fun _ => h3, fun _ => h1⟩, fun _ => h2, fun h => by rw [h1] at h; cases h⟩
  · refine ⟨⟨fun h => ?_, fun h => absurd (h _ h4) h5⟩, fun h => ?_, fun _ => ⟨k, r, h2, h3, h4, h6, h5⟩⟩
    · rw [h1] at h; cases h
    · rw [h1] at h; cases h

/-- **C96, part 2.** So it gives short texts. -/
theorem C96_short (dest : Option Str) (hm : Utf8 dest) (t : Str)
    (h : (encode t).length ≤ piece) : toStdout dest (encode t) = (t, true) := by
  rw [piece_eq] at h
  obtain ⟨h1, h2, -⟩ := C96_stdout_partial dest hm t
  rw [piece_eq] at h1
  have : (toStdout dest (encode t)).2 = true := by
    rw [h1]
    intro k hk
    have : k = 0 := by
      rcases k with _ | k
      · rfl
      · exfalso
        have : defaultLength ≤ (k + 1) * defaultLength := Nat.le_mul_of_pos_left _ (by omega)
        omega
    subst this
    exact ⟨[], t, rfl, by simp [encode]⟩
  exact Prod.ext (h2 this) this

theorem encode_plain {t : Str} (h : Plain t) : encode t = t.map Char.toNat := by
  induction t with
  | nil => rfl
  | cons c t ih =>
    rw [encode_cons, ih fun d hd => h d (List.mem_cons_of_mem _ hd), encodeChar]
    simp [h c (by simp)]

/-- **C96, part 3.** And texts of ASCII characters, of any length and to streams of any encoding. -/
theorem C96_plain (dest : Option Str) (t : Str) (h : Plain t) : toStdout dest (encode t) = (t, true) := by
  by_cases hm : mismatch dest "utf-8".toList = true
  · unfold toStdout
    rw [copy_mismatch hm (by decide) _ _ (Nat.le_refl _), ascii_encode, List.filter_eq_self.2]
    intro c hc
    simpa using h c hc
  · replace hm := (mismatch_iff dest).1 (by simpa using hm)
    obtain ⟨h1, h2, -⟩ := C96_stdout_partial dest hm t
    rw [piece_eq] at h1
    have : (toStdout dest (encode t)).2 = true := by
      rw [h1]
      intro k hk
      rw [encode_plain h, List.length_map] at hk
      refine ⟨t.take (k * defaultLength), t.drop (k * defaultLength), (List.take_append_drop _ _).symm, ?_⟩
      rw [encode_plain fun c hc => h c (List.mem_of_mem_take hc), List.length_map, List.length_take]
      omega
    exact Prod.ext (h2 this) this

/-- **C96, part 4.** To a stream of another encoding just the ASCII characters are written. -/
theorem C96_other (dest : Option Str) (hm : ¬ Utf8 dest) (t : Str) :
    toStdout dest (encode t) = (t.filter fun c => decide (c.toNat < 0x80), true) := by
  replace hm : mismatch dest "utf-8".toList = true := by
    rw [← mismatch_iff] at hm
    simpa using hm
  unfold toStdout
  rw [copy_mismatch hm (by decide) _ _ (Nat.le_refl _), ascii_encode]

/-- **C96, part 5.** The transport to a stream writes every text. -/
theorem C96_send (t : Str) : send (encode t) = (t, true) := by
  unfold send
  generalize hf : (encode t).length = fuel
  cases fuel with
  | zero =>
    have : t = [] := (encode_nil_iff t).1 (List.length_eq_zero_iff.1 hf)
    subst this
    rfl
  | succ fuel =>
    rw [copy]
    have h0 : (encode t).isEmpty = false := by
      cases he : encode t with
      | nil => rw [he] at hf; cases hf
      | cons => rfl
    have hm : mismatch (some "utf-8".toList) "utf-8".toList = false := by decide +kernel
    simp only [h0, Bool.false_eq_true, if_false, Option.getD_none, List.take_length, List.drop_length, write, hm, decode_encode]
    have hc : copy (some "utf-8".toList) "utf-8".toList none fuel [] = ([], true) := by cases fuel <;> simp [copy]
    rw [hc]
    simp

theorem copyBytes_all {n : Nat} (hn : 0 < n) (fuel : Nat) : ∀ bs : List Nat, bs.length ≤ fuel → copyBytes n fuel bs = bs := by
  induction fuel with
  | zero => intro bs h; rw [List.length_eq_zero_iff.1 (by omega : bs.length = 0)]; rfl
  | succ fuel ih =>
    intro bs h
    rw [copyBytes]
    cases bs with
    | nil => rfl
    | cons b bs =>
      rw [if_neg (by simp), ih _ (by rw [List.length_drop]; simp only [List.length_cons] at *; omega), List.take_append_drop]

/-- **C96, part 6.** Files get the bytes that were exported, also those that are no text. -/
theorem C96_file (bs : List Nat) : toFile bs = bs := copyBytes_all (by decide) _ bs (Nat.le_refl _)

/-! ## Examples -/

example : encode "a€é😀".toList = [97, 226, 130, 172, 195, 169, 240, 159, 152, 128] ∧
    decode [97, 226, 130, 172] = some "a€".toList ∧ decode [97, 226, 130] = none ∧ decode [0xC0, 0x80] = none ∧
    decode [0xED, 0xA0, 0x80] = none := by decide +kernel

example : mismatch (some "UTF-8".toList) "utf-8".toList = false ∧ mismatch none "utf-8".toList = false ∧
    mismatch (some "ANSI_X3.4-1968".toList) "utf-8".toList = true := by decide +kernel

example : toStdout (some "UTF-8".toList) (encode "☑ disk/é\n".toList) = ("☑ disk/é\n".toList, true) :=
  C96_short _ (by decide +kernel) _ (by decide +kernel)

example : copy none "utf-8".toList (some 3) 9 (encode "ab€cd".toList) = ([], false) ∧
    copy none "utf-8".toList (some 5) 9 (encode "ab€cd".toList) = ("ab€cd".toList, true) := by decide +kernel

example : toStdout (some "ascii".toList) (encode "☑ disk".toList) = (" disk".toList, true) :=
  C96_other _ (by decide +kernel) _

/-! ## Where it fails -/

/-- A text in which a character lies across the end of the first piece is not written, whatever comes later. -/
theorem C96_long_violated (dest : Option Str) (hm : Utf8 dest) (r : Str) :
    toStdout dest (encode (List.replicate (piece - 1) 'a' ++ 'é' :: r)) = ([], false) := by
  rw [piece_eq]
  have hp : Plain (List.replicate (defaultLength - 1) 'a') := by
    intro c hc
    rw [(List.mem_replicate.1 hc).2]
    decide
  have hl : (encode (List.replicate (defaultLength - 1) 'a')).length = defaultLength - 1 := by
    rw [encode_plain hp, List.length_map, List.length_replicate]
  have hd : defaultLength = (defaultLength - 1) + 1 := by decide
  have h2 : (encodeChar 'é').length = 2 := by decide +kernel
  generalize hA : List.replicate (defaultLength - 1) 'a' = A at hl
  have hnb : ¬ Boundary (A ++ 'é' :: r) defaultLength := by
    have : defaultLength = (encode A).length + 1 := by omega
    rw [this, boundary_shift]
    rintro ⟨s, r', e, hs⟩
    cases s with
    | nil => simp [encode] at hs
    | cons c s =>
      cases e
      rw [encode_cons, List.length_append] at hs
      omega
  have hlen : defaultLength < (encode (A ++ 'é' :: r)).length := by
    rw [encode_append, List.length_append, encode_cons, List.length_append]
    omega
  obtain ⟨h3, -, h5⟩ := C96_stdout_partial dest hm (A ++ 'é' :: r)
  rw [piece_eq] at h3 h5
  have hf : (toStdout dest (encode (A ++ 'é' :: r))).2 = false := by
    rw [← Bool.not_eq_true, h3]
    intro h
    have := h 1 (by omega)
    rw [Nat.one_mul] at this
    exact hnb this
  obtain ⟨k, r', -, h6, -, h7, -⟩ := h5 hf
  have hk : k = 0 := by
    rcases k with _ | k
    · rfl
    · have := h7 1 (by omega)
      rw [Nat.one_mul] at this
      exact absurd this hnb
  subst hk
  rw [Nat.zero_mul] at h6
  exact Prod.ext ((encode_nil_iff _).1 (List.length_eq_zero_iff.1 h6)) hf

/-- A stream whose encoding is UTF-8 under another name loses all other characters. -/
theorem C96_name_violated : toStdout (some "utf8".toList) (encode "é".toList) = ([], true) := by decide +kernel

end Verif.Stream
