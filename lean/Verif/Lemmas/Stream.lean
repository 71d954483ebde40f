import Verif.Model.Stream

/-! # Lemmas about UTF-8 -/

namespace Verif.Stream

open Verif.Checksum (Str)

theorem char_some {least n : Nat} {c : Char} (h : char least n = some c) : least ≤ n ∧ c.toNat = n := by
  unfold char at h
  split at h
  · next hc =>
    cases h
    refine ⟨hc.1, ?_⟩
    rw [Char.ofNat, dif_pos hc.2]
    rfl
  · cases h

theorem char_toNat (c : Char) {least : Nat} (h : least ≤ c.toNat) : char least c.toNat = some c := by
  unfold char
  rw [if_pos ⟨h, c.valid⟩, Char.ofNat_toNat]

theorem toNat_lt (c : Char) : c.toNat < 0x110000 := by
  have := c.valid
  simp only [UInt32.isValidChar, Nat.isValidChar] at this
  have e : c.toNat = c.val.toNat := rfl
  omega

theorem ofNat_ascii {a : Nat} (h : a < 0x80) : (Char.ofNat a).toNat = a := by
  have hv : a.isValidChar := by simp only [Nat.isValidChar]; omega
  rw [Char.ofNat, dif_pos hv]
  rfl

/-- Decoding takes off an encoded character. -/
theorem decode_char (c : Char) (r : List Nat) : decode (encodeChar c ++ r) = (decode r).map (c :: ·) := by
  have hlt := toNat_lt c
  unfold encodeChar
  dsimp only
  by_cases h1 : c.toNat < 0x80
  · rw [if_pos h1]
    show decode (c.toNat :: r) = _
    rw [decode.eq_def]
    dsimp only
    rw [if_pos h1, Char.ofNat_toNat]
  · rw [if_neg h1]
    by_cases h2 : c.toNat < 0x800
    · rw [if_pos h2]
      show decode ((0xC0 + c.toNat / 64) :: (0x80 + c.toNat % 64) :: r) = _
      rw [decode.eq_def]
      dsimp only
      have e : (0xC0 + c.toNat / 64 - 0xC0) * 64 + (0x80 + c.toNat % 64 - 0x80) = c.toNat := by omega
      rw [if_neg (by omega), if_neg (by simp [cont]; omega), if_pos (by simp; omega), e, char_toNat c (by omega)]
      rfl
    · rw [if_neg h2]
      by_cases h3 : c.toNat < 0x10000
      · rw [if_pos h3]
        show decode ((0xE0 + c.toNat / 4096) :: (0x80 + c.toNat / 64 % 64) :: (0x80 + c.toNat % 64) :: r) = _
        rw [decode.eq_def]
        dsimp only
        have e : (0xE0 + c.toNat / 4096 - 0xE0) * 4096 + (0x80 + c.toNat / 64 % 64 - 0x80) * 64 +
            (0x80 + c.toNat % 64 - 0x80) = c.toNat := by omega
        rw [if_neg (by omega), if_neg (by simp [cont]; omega), if_neg (by simp; try omega), if_neg (by simp [cont]; omega),
          if_pos (by simp; omega), e, char_toNat c (by omega)]
        rfl
      · rw [if_neg h3]
        show decode ((0xF0 + c.toNat / 262144) :: (0x80 + c.toNat / 4096 % 64) :: (0x80 + c.toNat / 64 % 64) ::
          (0x80 + c.toNat % 64) :: r) = _
        rw [decode.eq_def]
        dsimp only
        have e : (0xF0 + c.toNat / 262144 - 0xF0) * 262144 + (0x80 + c.toNat / 4096 % 64 - 0x80) * 4096 +
            (0x80 + c.toNat / 64 % 64 - 0x80) * 64 + (0x80 + c.toNat % 64 - 0x80) = c.toNat := by omega
        rw [if_neg (by omega), if_neg (by simp [cont]; omega), if_neg (by simp; try omega), if_neg (by simp [cont]; omega),
          if_neg (by simp; try omega), if_neg (by simp [cont]; omega), if_pos (by simp; omega), e, char_toNat c (by omega)]
        rfl

theorem encode_cons (c : Char) (t : Str) : encode (c :: t) = encodeChar c ++ encode t := rfl

theorem encode_append (s t : Str) : encode (s ++ t) = encode s ++ encode t := by simp [encode]

/-- Decoding takes off an encoded text. -/
theorem decode_append (t : Str) (r : List Nat) : decode (encode t ++ r) = (decode r).map (t ++ ·) := by
  induction t with
  | nil => simp [encode]
  | cons c t ih =>
    rw [encode_cons, List.append_assoc, decode_char, ih]
    cases decode r <;> rfl

theorem decode_encode (t : Str) : decode (encode t) = some t := by
  have := decode_append t []
  simpa [decode] using this

theorem encode_inj {s t : Str} (h : encode s = encode t) : s = t := by
  have := decode_encode s
  rw [h, decode_encode] at this
  exact (Option.some.inj this).symm

theorem bind_some {o : Option Char} {d : Option Str} {t : Str} (h : (o.bind fun c => d.map (c :: ·)) = some t) :
    ∃ c t', o = some c ∧ d = some t' ∧ t = c :: t' := by
  cases o with
  | none => cases h
  | some c =>
    cases d with
    | none => cases h
    | some t' => exact ⟨c, t', rfl, rfl, (Option.some.inj h).symm⟩

theorem cont_iff {b : Nat} (h : ¬ (!cont b) = true) : 0x80 ≤ b ∧ b < 0xC0 := by
  simpa [cont] using h

/-- Only encodings of texts can be decoded. -/
theorem encode_decode : ∀ (bs : List Nat) (t : Str), decode bs = some t → encode t = bs := by
  intro bs
  induction bs using decode.induct with
  | case1 => intro t h; simp [decode] at h; subst h; rfl
  | case2 a l ha ih =>
    intro t h
    rw [decode.eq_def] at h
    dsimp only at h
    rw [if_pos ha] at h
    obtain ⟨c, t', hc, hd, rfl⟩ := bind_some (o := some (Char.ofNat a)) h
    cases hc
    rw [encode_cons, ih t' hd]
    unfold encodeChar
    rw [ofNat_ascii ha]
    simp [ha]
  | case3 a ha => intro t h; rw [decode.eq_def] at h; simp [ha] at h
  | case4 a ha b l hb => intro t h; rw [decode.eq_def] at h; dsimp only at h; rw [if_neg ha, if_pos hb] at h; cases h
  | case5 a ha b l hb h2 ih =>
    intro t h
    rw [decode.eq_def] at h
    dsimp only at h
    rw [if_neg ha, if_neg hb, if_pos h2] at h
    obtain ⟨c, t', hc, hd, rfl⟩ := bind_some h
    obtain ⟨h3, h4⟩ := char_some hc
    have hb := cont_iff hb
    simp only [Bool.and_eq_true, decide_eq_true_eq] at h2
    rw [encode_cons, ih t' hd]
    unfold encodeChar
    dsimp only
    rw [if_neg (by omega), if_pos (by omega)]
    simp only [List.cons_append, List.nil_append, List.cons.injEq, and_true]
    omega
  | case6 a ha b hb h2 =>
    intro t h
    rw [decode.eq_def] at h
    dsimp only at h
    rw [if_neg ha, if_neg hb, if_neg h2] at h
    cases h
  | case7 a ha b hb h2 d l hd =>
    intro t h
    rw [decode.eq_def] at h
    dsimp only at h
    rw [if_neg ha, if_neg hb, if_neg h2, if_pos hd] at h
    cases h
  | case8 a ha b hb h2 d l hd h3 ih =>
    intro t h
    rw [decode.eq_def] at h
    dsimp only at h
    rw [if_neg ha, if_neg hb, if_neg h2, if_neg hd, if_pos h3] at h
    obtain ⟨c, t', hc, hdl, rfl⟩ := bind_some h
    obtain ⟨h4, h5⟩ := char_some hc
    have hb := cont_iff hb
    have hd := cont_iff hd
    simp only [Bool.and_eq_true, decide_eq_true_eq] at h3
    rw [encode_cons, ih t' hdl]
    unfold encodeChar
    dsimp only
    rw [if_neg (by omega), if_neg (by omega), if_pos (by omega)]
    simp only [List.cons_append, List.nil_append, List.cons.injEq, and_true]
    omega
  | case9 a ha b hb h2 d hd h3 =>
    intro t h
    rw [decode.eq_def] at h
    dsimp only at h
    rw [if_neg ha, if_neg hb, if_neg h2, if_neg hd, if_neg h3] at h
    cases h
  | case10 a ha b hb h2 d hd h3 e l he =>
    intro t h
    rw [decode.eq_def] at h
    dsimp only at h
    rw [if_neg ha, if_neg hb, if_neg h2, if_neg hd, if_neg h3, if_pos he] at h
    cases h
  | case11 a ha b hb h2 d hd h3 e l he h4 ih =>
    intro t h
    rw [decode.eq_def] at h
    dsimp only at h
    rw [if_neg ha, if_neg hb, if_neg h2, if_neg hd, if_neg h3, if_neg he, if_pos h4] at h
    obtain ⟨c, t', hc, hdl, rfl⟩ := bind_some h
    obtain ⟨h5, h6⟩ := char_some hc
    have hb := cont_iff hb
    have hd := cont_iff hd
    have he := cont_iff he
    simp only [Bool.and_eq_true, decide_eq_true_eq] at h4
    rw [encode_cons, ih t' hdl]
    unfold encodeChar
    dsimp only
    rw [if_neg (by omega), if_neg (by omega), if_neg (by omega)]
    simp only [List.cons_append, List.nil_append, List.cons.injEq, and_true]
    omega
  | case12 a ha b hb h2 d hd h3 e l he h4 =>
    intro t h
    rw [decode.eq_def] at h
    dsimp only at h
    rw [if_neg ha, if_neg hb, if_neg h2, if_neg hd, if_neg h3, if_neg he, if_neg h4] at h
    cases h

theorem encodeChar_ne (c : Char) : encodeChar c ≠ [] := by
  unfold encodeChar
  dsimp only
  repeat' split
  all_goals simp

end Verif.Stream
