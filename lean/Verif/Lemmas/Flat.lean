import Verif.Model.Flat
import Verif.Lemmas.Stream

/-! # Lemmas about the incremental UTF-8 decoder -/

namespace Verif.Flat

open Verif.Checksum (Str)
open Verif.Stream (cont encodeChar toNat_lt encodeChar_ne)

theorem toNat_ofNat {n : Nat} (h : n < 0xD800 ∨ (0xDFFF < n ∧ n < 0x110000)) : (Char.ofNat n).toNat = n := by
  have hv : n.isValidChar := by simp only [Nat.isValidChar]; omega
  rw [Char.ofNat, dif_pos hv]
  rfl

theorem enc1 {a : Nat} (h : a < 0x80) : encodeChar (Char.ofNat a) = [a] := by
  unfold encodeChar
  dsimp only
  rw [toNat_ofNat (by omega), if_pos h]

theorem enc2 {a b : Nat} (ha : 0xC2 ≤ a) (ha' : a < 0xE0) (hb : 0x80 ≤ b) (hb' : b < 0xC0) :
    encodeChar (Char.ofNat ((a - 0xC0) * 64 + (b - 0x80))) = [a, b] := by
  unfold encodeChar
  dsimp only
  rw [toNat_ofNat (by omega), if_neg (by omega), if_pos (by omega)]
  simp only [List.cons.injEq, and_true]
  omega

theorem enc3 {a b d : Nat} (ha : 0xE0 ≤ a) (ha' : a < 0xF0) (hb : 0x80 ≤ b) (hb' : b < 0xC0) (hd : 0x80 ≤ d)
    (hd' : d < 0xC0) (h0 : a = 0xE0 → 0xA0 ≤ b) (hs : a = 0xED → b < 0xA0) :
    encodeChar (Char.ofNat ((a - 0xE0) * 4096 + (b - 0x80) * 64 + (d - 0x80))) = [a, b, d] := by
  unfold encodeChar
  dsimp only
  rw [toNat_ofNat (by omega), if_neg (by omega), if_neg (by omega), if_pos (by omega)]
  simp only [List.cons.injEq, and_true]
  omega

theorem enc4 {a b d e : Nat} (ha : 0xF0 ≤ a) (ha' : a < 0xF5) (hb : 0x80 ≤ b) (hb' : b < 0xC0) (hd : 0x80 ≤ d)
    (hd' : d < 0xC0) (he : 0x80 ≤ e) (he' : e < 0xC0) (h0 : a = 0xF0 → 0x90 ≤ b) (hs : a = 0xF4 → b < 0x90) :
    encodeChar (Char.ofNat ((a - 0xF0) * 262144 + (b - 0x80) * 4096 + (d - 0x80) * 64 + (e - 0x80))) = [a, b, d, e] := by
  unfold encodeChar
  dsimp only
  rw [toNat_ofNat (by omega), if_neg (by omega), if_neg (by omega), if_neg (by omega)]
  simp only [List.cons.injEq, and_true]
  omega

/-- The forms of encoded characters. -/
theorem shape (c : Char) :
    (∃ a, encodeChar c = [a] ∧ a < 0x80) ∨
    (∃ a b, encodeChar c = [a, b] ∧ 0xC2 ≤ a ∧ a < 0xE0 ∧ 0x80 ≤ b ∧ b < 0xC0) ∨
    (∃ a b d, encodeChar c = [a, b, d] ∧ 0xE0 ≤ a ∧ a < 0xF0 ∧ 0x80 ≤ b ∧ b < 0xC0 ∧ 0x80 ≤ d ∧ d < 0xC0 ∧
      (a = 0xE0 → 0xA0 ≤ b) ∧ (a = 0xED → b < 0xA0)) ∨
    (∃ a b d e, encodeChar c = [a, b, d, e] ∧ 0xF0 ≤ a ∧ a < 0xF5 ∧ 0x80 ≤ b ∧ b < 0xC0 ∧ 0x80 ≤ d ∧ d < 0xC0 ∧
      0x80 ≤ e ∧ e < 0xC0 ∧ (a = 0xF0 → 0x90 ≤ b) ∧ (a = 0xF4 → b < 0x90)) := by
  have hlt := toNat_lt c
  have hv := c.valid
  simp only [UInt32.isValidChar, Nat.isValidChar] at hv
  have e : c.toNat = c.val.toNat := rfl
  rw [← e] at hv
  unfold encodeChar
  dsimp only
  by_cases h1 : c.toNat < 0x80
  · rw [if_pos h1]
    exact Or.inl ⟨_, rfl, h1⟩
  · rw [if_neg h1]
    by_cases h2 : c.toNat < 0x800
    · rw [if_pos h2]
      refine Or.inr (Or.inl ⟨_, _, rfl, ?_⟩)
      omega
    · rw [if_neg h2]
      by_cases h3 : c.toNat < 0x10000
      · rw [if_pos h3]
        refine Or.inr (Or.inr (Or.inl ⟨_, _, _, rfl, ?_⟩))
        omega
      · rw [if_neg h3]
        refine Or.inr (Or.inr (Or.inr ⟨_, _, _, _, rfl, ?_⟩))
        omega

/-- No encoded character is the beginning of another. -/
theorem prefix_free {c d : Char} {s : List Nat} (h : encodeChar d = encodeChar c ++ s) : c = d ∧ s = [] := by
  have h1 := Stream.decode_char d []
  rw [List.append_nil, h, Stream.decode_char] at h1
  simp only [Stream.decode, Option.map_some] at h1
  cases hs : Stream.decode s with
  | none => rw [hs] at h1; cases h1
  | some t =>
    rw [hs] at h1
    simp only [Option.map_some, Option.some.injEq, List.cons.injEq] at h1
    refine ⟨h1.1, ?_⟩
    have := Stream.encode_decode s t hs
    rw [← this, h1.2]; rfl

theorem cont_true {b : Nat} : cont b = true ↔ 0x80 ≤ b ∧ b < 0xC0 := by simp [cont]

/-- Bytes that no encoded character begins with. -/
theorem not_start {m : List Nat}
    (h1 : ∀ a, a < 0x80 → ¬ m <+: [a])
    (h2 : ∀ a b, 0xC2 ≤ a → a < 0xE0 → 0x80 ≤ b → b < 0xC0 → ¬ m <+: [a, b])
    (h3 : ∀ a b d, 0xE0 ≤ a → a < 0xF0 → 0x80 ≤ b → b < 0xC0 → 0x80 ≤ d → d < 0xC0 → (a = 0xE0 → 0xA0 ≤ b) →
      (a = 0xED → b < 0xA0) → ¬ m <+: [a, b, d])
    (h4 : ∀ a b d e, 0xF0 ≤ a → a < 0xF5 → 0x80 ≤ b → b < 0xC0 → 0x80 ≤ d → d < 0xC0 → 0x80 ≤ e → e < 0xC0 →
      (a = 0xF0 → 0x90 ≤ b) → (a = 0xF4 → b < 0x90) → ¬ m <+: [a, b, d, e]) (c : Char) : ¬ m <+: encodeChar c := by
  rcases shape c with ⟨a, h, p⟩ | ⟨a, b, h, p1, p2, p3, p4⟩ | ⟨a, b, d, h, p1, p2, p3, p4, p5, p6, p7, p8⟩ |
    ⟨a, b, d, e, h, p1, p2, p3, p4, p5, p6, p7, p8, p9, p10⟩
  · rw [h]; exact h1 a p
  · rw [h]; exact h2 a b p1 p2 p3 p4
  · rw [h]; exact h3 a b d p1 p2 p3 p4 p5 p6 p7 p8
  · rw [h]; exact h4 a b d e p1 p2 p3 p4 p5 p6 p7 p8 p9 p10

/-- Bytes that are no encoded character. -/
theorem not_whole {m : List Nat}
    (h1 : ∀ a, a < 0x80 → m ≠ [a])
    (h2 : ∀ a b, 0xC2 ≤ a → a < 0xE0 → m ≠ [a, b])
    (h3 : ∀ a b d, 0xE0 ≤ a → a < 0xF0 → m ≠ [a, b, d])
    (h4 : ∀ a b d e, 0xF0 ≤ a → a < 0xF5 → m ≠ [a, b, d, e]) (c : Char) : m ≠ encodeChar c := by
  rcases shape c with ⟨a, h, p⟩ | ⟨a, b, h, p1, p2, p3, p4⟩ | ⟨a, b, d, h, p1, p2, p3, p4, p5, p6, p7, p8⟩ |
    ⟨a, b, d, e, h, p1, p2, p3, p4, p5, p6, p7, p8, p9, p10⟩
  · rw [h]; exact h1 a p
  · rw [h]; exact h2 a b p1 p2
  · rw [h]; exact h3 a b d p1 p2
  · rw [h]; exact h4 a b d e p1 p2

/-- What the first step says about the bytes. -/
def FirstSpec (bs : List Nat) : Option (Option Char × Nat) → Prop
  | none => bs = [] ∨ ((∃ c, bs <+: encodeChar c) ∧ ∀ c, bs ≠ encodeChar c)
  | some (some c, n) => ∃ r, bs = encodeChar c ++ r ∧ n = (encodeChar c).length
  | some (none, n) =>
    (n = 1 ∧ ∃ b r, bs = b :: r ∧ ∀ c, ¬ [b] <+: encodeChar c) ∨
    (∃ m b r, bs = m ++ b :: r ∧ n = m.length ∧ m ≠ [] ∧ (∃ c, m <+: encodeChar c) ∧ (∀ c, m ≠ encodeChar c) ∧
      ∀ c, ¬ (m ++ [b]) <+: encodeChar c)

theorem ok3 {a b : Nat} (h : ¬(!cont b || if b < 0xA0 then a == 0xE0 else a == 0xED) = true) :
    (0x80 ≤ b ∧ b < 0xC0) ∧ (a = 0xE0 → 0xA0 ≤ b) ∧ (a = 0xED → b < 0xA0) := by
  rw [← cont_true]
  cases hc : cont b <;> simp only [hc] at h
  · exact absurd rfl h
  · split at h <;> simp at h <;> refine ⟨rfl, ?_, ?_⟩ <;> omega

theorem bad3 {a b : Nat} (h : (!cont b || if b < 0xA0 then a == 0xE0 else a == 0xED) = true) :
    ¬ ((0x80 ≤ b ∧ b < 0xC0) ∧ (a = 0xE0 → 0xA0 ≤ b) ∧ (a = 0xED → b < 0xA0)) := by
  rw [← cont_true]
  rintro ⟨hc, h1, h2⟩
  simp only [hc] at h
  split at h <;> simp at h <;> omega

theorem ok4 {a b : Nat} (h : ¬(!cont b || if b < 0x90 then a == 0xF0 else a == 0xF4) = true) :
    (0x80 ≤ b ∧ b < 0xC0) ∧ (a = 0xF0 → 0x90 ≤ b) ∧ (a = 0xF4 → b < 0x90) := by
  rw [← cont_true]
  cases hc : cont b <;> simp only [hc] at h
  · exact absurd rfl h
  · split at h <;> simp at h <;> refine ⟨rfl, ?_, ?_⟩ <;> omega

theorem bad4 {a b : Nat} (h : (!cont b || if b < 0x90 then a == 0xF0 else a == 0xF4) = true) :
    ¬ ((0x80 ≤ b ∧ b < 0xC0) ∧ (a = 0xF0 → 0x90 ≤ b) ∧ (a = 0xF4 → b < 0x90)) := by
  rw [← cont_true]
  rintro ⟨hc, h1, h2⟩
  simp only [hc] at h
  split at h <;> simp at h <;> omega

theorem start2 {a : Nat} (ha : 0xC2 ≤ a) (ha' : a < 0xE0) : ∃ c, [a] <+: encodeChar c :=
  ⟨_, by rw [enc2 (b := 0x80) ha ha' (by omega) (by omega)]; exact ⟨[0x80], rfl⟩⟩

theorem start3' {a b : Nat} (ha : 0xE0 ≤ a) (ha' : a < 0xF0)
    (h : (0x80 ≤ b ∧ b < 0xC0) ∧ (a = 0xE0 → 0xA0 ≤ b) ∧ (a = 0xED → b < 0xA0)) : ∃ c, [a, b] <+: encodeChar c :=
  ⟨_, by rw [enc3 (d := 0x80) ha ha' h.1.1 h.1.2 (by omega) (by omega) h.2.1 h.2.2]; exact ⟨[0x80], rfl⟩⟩

theorem start3 {a : Nat} (ha : 0xE0 ≤ a) (ha' : a < 0xF0) : ∃ c, [a] <+: encodeChar c := by
  have : ∃ b, (0x80 ≤ b ∧ b < 0xC0) ∧ (a = 0xE0 → 0xA0 ≤ b) ∧ (a = 0xED → b < 0xA0) := by
    by_cases h : a = 0xE0
    · exact ⟨0xA0, by omega⟩
    · exact ⟨0x80, by omega⟩
  obtain ⟨b, hb⟩ := this
  obtain ⟨c, hc⟩ := start3' ha ha' hb
  exact ⟨c, List.IsPrefix.trans ⟨[b], rfl⟩ hc⟩

theorem start4'' {a b d : Nat} (ha : 0xF0 ≤ a) (ha' : a < 0xF5)
    (h : (0x80 ≤ b ∧ b < 0xC0) ∧ (a = 0xF0 → 0x90 ≤ b) ∧ (a = 0xF4 → b < 0x90)) (hd : 0x80 ≤ d ∧ d < 0xC0) :
    ∃ c, [a, b, d] <+: encodeChar c :=
  ⟨_, by rw [enc4 (e := 0x80) ha ha' h.1.1 h.1.2 hd.1 hd.2 (by omega) (by omega) h.2.1 h.2.2]; exact ⟨[0x80], rfl⟩⟩

theorem start4' {a b : Nat} (ha : 0xF0 ≤ a) (ha' : a < 0xF5)
    (h : (0x80 ≤ b ∧ b < 0xC0) ∧ (a = 0xF0 → 0x90 ≤ b) ∧ (a = 0xF4 → b < 0x90)) : ∃ c, [a, b] <+: encodeChar c := by
  obtain ⟨c, hc⟩ := start4'' (d := 0x80) ha ha' h (by omega)
  exact ⟨c, List.IsPrefix.trans ⟨[0x80], rfl⟩ hc⟩

theorem start4 {a : Nat} (ha : 0xF0 ≤ a) (ha' : a < 0xF5) : ∃ c, [a] <+: encodeChar c := by
  have : ∃ b, (0x80 ≤ b ∧ b < 0xC0) ∧ (a = 0xF0 → 0x90 ≤ b) ∧ (a = 0xF4 → b < 0x90) := by
    by_cases h : a = 0xF0
    · exact ⟨0x90, by omega⟩
    · exact ⟨0x80, by omega⟩
  obtain ⟨b, hb⟩ := this
  obtain ⟨c, hc⟩ := start4' ha ha' hb
  exact ⟨c, List.IsPrefix.trans ⟨[b], rfl⟩ hc⟩

local macro "no_start" : tactic => `(tactic| (
  refine not_start ?_ ?_ ?_ ?_ <;> intros <;> intro hp <;>
    simp only [List.cons_append, List.nil_append, List.cons_prefix_cons, List.prefix_nil, reduceCtorEq, and_false] at hp <;>
    omega))

local macro "no_whole" : tactic => `(tactic| (
  refine not_whole ?_ ?_ ?_ ?_ <;> intros <;> intro hp <;>
    simp only [List.cons.injEq, reduceCtorEq, and_false, and_true] at hp <;> omega))

theorem first_spec (bs : List Nat) : FirstSpec bs (first bs) := by
  fun_cases first bs
  case case1 => exact Or.inl rfl
  case case2 a l h => exact ⟨l, by rw [enc1 h]; exact ⟨rfl, rfl⟩⟩
  case case3 a l _ h => exact Or.inl ⟨rfl, a, l, rfl, by no_start⟩
  case case4 a _ h1 h2 => exact Or.inr ⟨start2 (by omega) h2, by no_whole⟩
  case case5 a _ h1 h2 b l h3 =>
    have hb := cont_true.1 h3
    exact ⟨l, by rw [enc2 (by omega) h2 hb.1 hb.2]; exact ⟨rfl, rfl⟩⟩
  case case6 a _ h1 h2 b l h3 =>
    rw [cont_true] at h3
    exact Or.inr ⟨[a], b, l, rfl, rfl, by simp, start2 (by omega) h2, by no_whole, by no_start⟩
  case case7 a _ _ h1 h2 => exact Or.inr ⟨start3 (by omega) h2, by no_whole⟩
  case case8 a _ _ h1 h2 b l h3 =>
    have := bad3 h3
    exact Or.inr ⟨[a], b, l, rfl, rfl, by simp, start3 (by omega) h2, by no_whole, by no_start⟩
  case case9 a _ _ h1 h2 b h3 => exact Or.inr ⟨start3' (by omega) h2 (ok3 h3), by no_whole⟩
  case case10 a _ _ h1 h2 b h3 d l h4 =>
    have hb := ok3 h3
    have hd := cont_true.1 h4
    exact ⟨l, by rw [enc3 (by omega) h2 hb.1.1 hb.1.2 hd.1 hd.2 hb.2.1 hb.2.2]; exact ⟨rfl, rfl⟩⟩
  case case11 a _ _ h1 h2 b h3 d l h4 =>
    rw [cont_true] at h4
    exact Or.inr ⟨[a, b], d, l, rfl, rfl, by simp, start3' (by omega) h2 (ok3 h3), by no_whole, by no_start⟩
  case case12 a _ _ _ h1 h2 => exact Or.inr ⟨start4 (by omega) h2, by no_whole⟩
  case case13 a _ _ _ h1 h2 b l h3 =>
    have := bad4 h3
    exact Or.inr ⟨[a], b, l, rfl, rfl, by simp, start4 (by omega) h2, by no_whole, by no_start⟩
  case case14 a _ _ _ h1 h2 b h3 => exact Or.inr ⟨start4' (by omega) h2 (ok4 h3), by no_whole⟩
  case case15 a _ _ _ h1 h2 b h3 d l h4 =>
    have h4' : ¬ cont d = true := by simpa using h4
    rw [cont_true] at h4'
    exact Or.inr ⟨[a, b], d, l, rfl, rfl, by simp, start4' (by omega) h2 (ok4 h3), by no_whole, by no_start⟩
  case case16 a _ _ _ h1 h2 b h3 d h4 =>
    have h4' : cont d = true := by simpa using h4
    exact Or.inr ⟨start4'' (by omega) h2 (ok4 h3) (cont_true.1 h4'), by no_whole⟩
  case case17 a _ _ _ h1 h2 b h3 d h4 e l h5 =>
    have h4' : cont d = true := by simpa using h4
    have hb := ok4 h3
    have hd := cont_true.1 h4'
    have he := cont_true.1 h5
    exact ⟨l, by rw [enc4 (by omega) h2 hb.1.1 hb.1.2 hd.1 hd.2 he.1 he.2 hb.2.1 hb.2.2]; exact ⟨rfl, rfl⟩⟩
  case case18 a _ _ _ h1 h2 b h3 d h4 e l h5 =>
    have h4' : cont d = true := by simpa using h4
    rw [cont_true] at h5
    exact Or.inr ⟨[a, b, d], e, l, rfl, rfl, by simp, start4'' (by omega) h2 (ok4 h3) (cont_true.1 h4'), by no_whole,
      by no_start⟩
  case case19 a l _ _ _ h1 h2 => exact Or.inl ⟨rfl, a, l, rfl, by no_start⟩

/-- More bytes do not change the first step. -/
theorem first_append {a : List Nat} {o : Option Char} {n : Nat} (h : first a = some (o, n)) (b : List Nat) :
    first (a ++ b) = some (o, n) ∧ 1 ≤ n ∧ n ≤ a.length := by
  revert h
  fun_cases first a <;> intro h <;> cases h <;> refine ⟨?_, by omega, by simp⟩ <;>
    simp only [List.cons_append, first, *, if_true, if_false, Bool.false_eq_true] <;> rfl

theorem first_nil : first [] = none := rfl

theorem scan_step (strict : Bool) (fuel : Nat) (bs : List Nat) :
    scan strict (fuel + 1) bs =
      match first bs with
      | none => some ([], bs)
      | some (none, n) =>
        if strict then none else (scan strict fuel (bs.drop n)).map fun p => (replacement :: p.1, p.2)
      | some (some c, n) => (scan strict fuel (bs.drop n)).map fun p => (c :: p.1, p.2) := by
  rw [scan.eq_def]
  dsimp only
  rcases first bs with _ | ⟨_ | c, n⟩ <;> rfl

theorem scan_fuel (strict : Bool) : ∀ (f g : Nat) (bs : List Nat), bs.length ≤ f → bs.length ≤ g →
    scan strict f bs = scan strict g bs := by
  intro f
  induction f with
  | zero =>
    intro g bs hf _
    have : bs = [] := List.length_eq_zero_iff.1 (by omega)
    subst this
    cases g with
    | zero => rfl
    | succ g => rw [scan_step, first_nil]; rfl
  | succ f ih =>
    intro g bs hf hg
    cases g with
    | zero =>
      have : bs = [] := List.length_eq_zero_iff.1 (by omega)
      subst this
      rw [scan_step, first_nil]; rfl
    | succ g =>
      rw [scan_step, scan_step]
      rcases ho : first bs with _ | ⟨_ | c, n⟩
      · rfl
      · have := first_append ho []
        dsimp only
        rw [ih g (bs.drop n) (by rw [List.length_drop]; omega) (by rw [List.length_drop]; omega)]
      · have := first_append ho []
        dsimp only
        rw [ih g (bs.drop n) (by rw [List.length_drop]; omega) (by rw [List.length_drop]; omega)]

/-- Decode all whole characters. -/
def all (strict : Bool) (bs : List Nat) : Option (Str × List Nat) := scan strict bs.length bs

theorem all_eq (strict : Bool) (bs : List Nat) :
    all strict bs =
      match first bs with
      | none => some ([], bs)
      | some (none, n) => if strict then none else (all strict (bs.drop n)).map fun p => (replacement :: p.1, p.2)
      | some (some c, n) => (all strict (bs.drop n)).map fun p => (c :: p.1, p.2) := by
  unfold all
  rw [scan_fuel strict bs.length (bs.length + 1) bs (by omega) (by omega), scan_step]
  rcases ho : first bs with _ | ⟨_ | c, n⟩
  · rfl
  · dsimp only
    rw [scan_fuel strict bs.length (bs.drop n).length (bs.drop n) (by rw [List.length_drop]; omega) (by omega)]
  · dsimp only
    rw [scan_fuel strict bs.length (bs.drop n).length (bs.drop n) (by rw [List.length_drop]; omega) (by omega)]

/-- Induction over the steps of the decoder. -/
theorem steps {P : List Nat → Prop} (h0 : ∀ bs, first bs = none → P bs)
    (h1 : ∀ bs o n, first bs = some (o, n) → P (bs.drop n) → P bs) (bs : List Nat) : P bs := by
  suffices ∀ k bs, bs.length ≤ k → P bs from this bs.length bs (by omega)
  intro k
  induction k with
  | zero =>
    intro bs hk
    have : bs = [] := List.length_eq_zero_iff.1 (by omega)
    subst this
    exact h0 _ rfl
  | succ k ih =>
    intro bs hk
    rcases ho : first bs with _ | ⟨o, n⟩
    · exact h0 bs ho
    · have := first_append ho []
      exact h1 bs o n ho (ih _ (by rw [List.length_drop]; omega))

theorem all_none {strict : Bool} {bs : List Nat} (h : first bs = none) : all strict bs = some ([], bs) := by
  rw [all_eq, h]

theorem all_bad {strict : Bool} {bs : List Nat} {n : Nat} (h : first bs = some (none, n)) :
    all strict bs = if strict then none else (all strict (bs.drop n)).map fun p => (replacement :: p.1, p.2) := by
  rw [all_eq, h]

theorem all_char {strict : Bool} {bs : List Nat} {n : Nat} {c : Char} (h : first bs = some (some c, n)) :
    all strict bs = (all strict (bs.drop n)).map fun p => (c :: p.1, p.2) := by
  rw [all_eq, h]

/-- What is left over is not enough for a step. -/
theorem all_rest {strict : Bool} {bs : List Nat} : ∀ {t r}, all strict bs = some (t, r) → first r = none := by
  induction bs using steps with
  | h0 bs h =>
    intro t r h'
    rw [all_none h] at h'
    cases h'
    exact h
  | h1 bs o n h ih =>
    intro t r h'
    cases o with
    | none =>
      rw [all_bad h] at h'
      cases strict with
      | true => cases h'
      | false =>
        simp only [Bool.false_eq_true, if_false, Option.map_eq_some_iff] at h'
        obtain ⟨p, hp, he⟩ := h'
        cases he
        exact ih hp
    | some c =>
      rw [all_char h] at h'
      simp only [Option.map_eq_some_iff] at h'
      obtain ⟨p, hp, he⟩ := h'
      cases he
      exact ih hp

/-- Decoding goes on where it stopped. -/
theorem all_append (strict : Bool) (a b : List Nat) :
    all strict (a ++ b) = (all strict a).bind fun p => (all strict (p.2 ++ b)).map fun q => (p.1 ++ q.1, q.2) := by
  induction a using steps with
  | h0 a h =>
    rw [all_none h]
    simp only [Option.bind_some, List.nil_append]
    cases all strict (a ++ b) <;> rfl
  | h1 a o n h ih =>
    have hs := first_append h b
    have hd : (a ++ b).drop n = a.drop n ++ b := List.drop_append_of_le_length hs.2.2
    cases o with
    | none =>
      rw [all_bad h, all_bad hs.1]
      cases strict with
      | true => rfl
      | false =>
        simp only [Bool.false_eq_true, if_false]
        rw [hd, ih]
        cases all false (a.drop n) with
        | none => rfl
        | some p =>
          simp only [Option.bind_some, Option.map_some]
          cases all false (p.2 ++ b) <;> rfl
    | some c =>
      rw [all_char h, all_char hs.1, hd, ih]
      cases all strict (a.drop n) with
      | none => rfl
      | some p =>
        simp only [Option.bind_some, Option.map_some]
        cases all strict (p.2 ++ b) <;> rfl

/-- Decode all bytes. -/
def whole (strict : Bool) (bs : List Nat) : Option Str :=
  (all strict bs).bind fun p => (finish strict p.2).map fun t => p.1 ++ t

/-- The texts of the chunks, put together, are the text of the chunks put together. -/
theorem iterdecode_whole (strict : Bool) (chunks : List (List Nat)) : ∀ buffer, first buffer = none →
    (iterdecode strict buffer chunks).map List.flatten = whole strict (buffer ++ chunks.flatten) := by
  induction chunks with
  | nil =>
    intro buffer h
    rw [iterdecode, whole, List.flatten_nil, List.append_nil, all_none h]
    simp only [Option.bind_some, List.nil_append]
    cases finish strict buffer <;> simp
  | cons chunk chunks ih =>
    intro buffer _
    rw [iterdecode, whole, List.flatten_cons, ← List.append_assoc, all_append]
    have he : scan strict (buffer ++ chunk).length (buffer ++ chunk) = all strict (buffer ++ chunk) := rfl
    rw [he]
    cases ha : all strict (buffer ++ chunk) with
    | none => rfl
    | some p =>
      have hi := ih p.2 (all_rest (t := p.1) (by rw [ha]))
      simp only [Option.bind_some]
      rw [whole] at hi
      cases hb : iterdecode strict p.2 chunks with
      | none =>
        rw [hb] at hi
        cases hq : all strict (p.2 ++ chunks.flatten) with
        | none => rfl
        | some q =>
          rw [hq] at hi
          simp only [Option.bind_some, Option.map_none] at hi ⊢
          cases hf : finish strict q.2 with
          | none => rw [Option.map_some]; simp [hf]
          | some u => rw [hf] at hi; cases hi
      | some ts =>
        rw [hb] at hi
        cases hq : all strict (p.2 ++ chunks.flatten) with
        | none => rw [hq] at hi; cases hi
        | some q =>
          rw [hq] at hi
          simp only [Option.bind_some, Option.map_some] at hi ⊢
          cases hf : finish strict q.2 with
          | none => rw [hf] at hi; cases hi
          | some u =>
            rw [hf] at hi
            simp only [Option.map_some, Option.some.injEq] at hi
            simp [hi]

theorem sub_flatten (ts : List Str) : (ts.map sub).flatten = sub ts.flatten := by
  induction ts with
  | nil => rfl
  | cons t ts ih =>
    rw [List.map_cons, List.flatten_cons, List.flatten_cons, ih]
    simp [sub]

/-- Nothing is ever wrong for the decoder that replaces. -/
theorem whole_lenient (bs : List Nat) : ∃ t, whole false bs = some t := by
  have h : ∀ bs, ∃ p, all false bs = some p := by
    intro bs
    induction bs using steps with
    | h0 bs h => exact ⟨_, all_none h⟩
    | h1 bs o n h ih =>
      obtain ⟨p, hp⟩ := ih
      cases o with
      | none => exact ⟨_, by rw [all_bad h]; simp only [Bool.false_eq_true, if_false]; rw [hp]; rfl⟩
      | some c => exact ⟨_, by rw [all_char h, hp]; rfl⟩
  obtain ⟨p, hp⟩ := h bs
  have : ∃ t, finish false p.2 = some t := by
    unfold finish
    cases p.2.isEmpty <;> exact ⟨_, rfl⟩
  obtain ⟨t, ht⟩ := this
  exact ⟨p.1 ++ t, by rw [whole, hp]; simp [ht]⟩

/-- The first step takes off an encoded character. -/
theorem first_char (c : Char) (r : List Nat) : first (encodeChar c ++ r) = some (some c, (encodeChar c).length) := by
  have h := first_spec (encodeChar c ++ r)
  rcases ho : first (encodeChar c ++ r) with _ | ⟨_ | d, n⟩
  · rw [ho] at h
    rcases h with h | ⟨⟨d, s, hd⟩, hne⟩
    · exact absurd (List.append_eq_nil_iff.1 h).1 (encodeChar_ne c)
    · have := prefix_free (c := c) (d := d) (s := r ++ s) (by rw [← hd, List.append_assoc])
      exact absurd (by rw [(List.append_eq_nil_iff.1 this.2).1, List.append_nil]) (hne c)
  · rw [ho] at h
    rcases h with ⟨_, b, r', hb, hn⟩ | ⟨m, b, r', hb, _, _, ⟨d, s, hd⟩, hne, hn⟩
    · cases he : encodeChar c with
      | nil => exact absurd he (encodeChar_ne c)
      | cons x xs =>
        rw [he, List.cons_append] at hb
        cases hb
        exact absurd ⟨xs, he.symm⟩ (hn c)
    · rcases List.append_eq_append_iff.1 hb with ⟨u, hu, _⟩ | ⟨u, hu, hr⟩
      · have := prefix_free (c := c) (d := d) (s := u ++ s) (by rw [← hd, hu, List.append_assoc])
        rw [(List.append_eq_nil_iff.1 this.2).1, List.append_nil] at hu
        exact absurd hu (hne c)
      · cases u with
        | nil => exact absurd (by rw [hu, List.append_nil]) (hne c)
        | cons x xs =>
          simp only [List.cons_append, List.cons.injEq] at hr
          exact absurd ⟨xs, by rw [hu, hr.1]; simp⟩ (hn c)
  · rw [ho] at h
    obtain ⟨r', hb, hn⟩ := h
    have : c = d := by
      rcases List.append_eq_append_iff.1 hb with ⟨u, hu, _⟩ | ⟨u, hu, _⟩
      · exact (prefix_free hu).1
      · exact (prefix_free hu).1.symm
    subst this
    rw [hn]

theorem whole_encode (t : Str) : whole true (Stream.encode t) = some t := by
  have h : all true (Stream.encode t) = some (t, []) := by
    induction t with
    | nil => rfl
    | cons c t ih =>
      rw [Stream.encode_cons, all_char (first_char c _), List.drop_left, ih]
      rfl
  rw [whole, h]
  simp [finish]

/-- The strict decoder accepts encoded texts only. -/
theorem whole_strict {bs : List Nat} : ∀ {t}, whole true bs = some t → bs = Stream.encode t := by
  intro t h
  rw [whole] at h
  have ha : ∀ bs t r, all true bs = some (t, r) → bs = Stream.encode t ++ r := by
    intro bs
    induction bs using steps with
    | h0 bs h => intro t r h'; rw [all_none h] at h'; cases h'; rfl
    | h1 bs o n h ih =>
      intro t r h'
      cases o with
      | none => rw [all_bad h] at h'; cases h'
      | some c =>
        rw [all_char h] at h'
        simp only [Option.map_eq_some_iff] at h'
        obtain ⟨p, hp, he⟩ := h'
        cases he
        have hs := first_spec bs
        rw [h] at hs
        obtain ⟨r', hb, hn⟩ := hs
        rw [Stream.encode_cons, List.append_assoc, ← ih _ _ hp, hn, hb, List.drop_left]
  cases hp : all true bs with
  | none => rw [hp] at h; cases h
  | some p =>
    rw [hp] at h
    simp only [Option.bind_some, Option.map_eq_some_iff] at h
    obtain ⟨u, hu, he⟩ := h
    have h2 := ha bs p.1 p.2 (by rw [hp])
    unfold finish at hu
    split at hu
    · next hr =>
      cases hu
      rw [List.isEmpty_iff.1 hr, List.append_nil] at h2
      rw [h2, ← he, List.append_nil]
    · cases hu

end Verif.Flat
