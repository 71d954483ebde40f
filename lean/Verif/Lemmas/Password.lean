import Mathlib.FieldTheory.Finite.Basic
import Verif.Model.Password
import Verif.Lemmas.Stream
import Verif.Lemmas.Flat

namespace Verif.Password

open Verif.Checksum (Str)

theorem pow_mod_prime {p m k : Nat} (hp : p.Prime) : m ^ (k * (p - 1) + 1) ≡ m [MOD p] := by
  have := Fact.mk hp
  rw [← ZMod.natCast_eq_natCast_iff]
  push_cast
  by_cases h : (m : ZMod p) = 0
  · rw [h, zero_pow (by omega)]
  · rw [pow_succ, mul_comm k, pow_mul, ZMod.pow_card_sub_one_eq_one h, one_pow, one_mul]

theorem rsa {p q n e d k m : Nat} (hp : p.Prime) (hq : q.Prime) (hpq : p ≠ q) (hn : n = p * q)
    (hk : e * d = k * ((p - 1) * (q - 1)) + 1) (hm : m < n) : (m ^ e % n) ^ d % n = m := by
  have h : m ^ (e * d) ≡ m [MOD n] := by
    rw [hn, ← Nat.modEq_and_modEq_iff_modEq_mul ((Nat.coprime_primes hp hq).2 hpq), hk]
    constructor
    · rw [show k * ((p - 1) * (q - 1)) = (k * (q - 1)) * (p - 1) by ring]
      exact pow_mod_prime hp
    · rw [show k * ((p - 1) * (q - 1)) = (k * (p - 1)) * (q - 1) by ring]
      exact pow_mod_prime hq
  rw [← Nat.pow_mod, ← pow_mul]
  rw [Nat.ModEq, Nat.mod_eq_of_lt hm] at h
  exact h

theorem toNum_append (a b : List Nat) : toNum (a ++ b) = b.foldl (fun a b => a * 256 + b) (toNum a) := by
  rw [toNum, List.foldl_append]
  rfl

theorem toNum_snoc (a : List Nat) (b : Nat) : toNum (a ++ [b]) = toNum a * 256 + b := by rw [toNum_append]; rfl

theorem digits_acc (n : Nat) : ∀ acc, digits n acc = digits n [] ++ acc := by
  induction n using Nat.strongRecOn with
  | ind n ih =>
    intro acc
    rw [digits, digits.eq_def n []]
    by_cases h : n = 0
    · rw [if_pos h, if_pos h, List.nil_append]
    · rw [if_neg h, if_neg h, ih (n / 256) (by omega), ih (n / 256) (by omega) [n % 256], List.append_assoc]
      rfl

theorem toNum_digits (n : Nat) : toNum (digits n []) = n := by
  induction n using Nat.strongRecOn with
  | ind n ih =>
    rw [digits]
    by_cases h : n = 0
    · rw [if_pos h, h]; rfl
    · rw [if_neg h, digits_acc, toNum_snoc, ih (n / 256) (by omega)]
      omega

theorem toNum_fromNum (n : Nat) : toNum (fromNum n) = n := by
  unfold fromNum
  split
  · rename_i h; rw [h]; rfl
  · exact toNum_digits n

theorem toNum_pos {b : Nat} (hb : b ≠ 0) (bs : List Nat) : 0 < toNum (b :: bs) := by
  induction bs using List.reverseRecOn with
  | nil => simp [toNum]; omega
  | append_singleton l x ih =>
    have := toNum_snoc (b :: l) x
    rw [List.cons_append] at this
    omega

theorem digits_toNum (b : Nat) (hb : b ≠ 0) (bs : List Nat) : (∀ x ∈ b :: bs, x < 256) →
    digits (toNum (b :: bs)) [] = b :: bs := by
  induction bs using List.reverseRecOn with
  | nil =>
    intro h
    have h1 : b < 256 := h b (by simp)
    have e : toNum [b] = b := by simp [toNum]
    rw [e, digits, if_neg hb, digits, if_pos (by omega), Nat.mod_eq_of_lt h1]
  | append_singleton l x ih =>
    intro h
    have hx : x < 256 := h x (by simp)
    have e := toNum_snoc (b :: l) x
    rw [List.cons_append] at e
    have hp := toNum_pos hb l
    rw [digits, if_neg (by omega), e, digits_acc]
    rw [show (toNum (b :: l) * 256 + x) / 256 = toNum (b :: l) by omega,
      show (toNum (b :: l) * 256 + x) % 256 = x by omega,
      ih fun y hy => h y (by
        rcases List.mem_cons.1 hy with rfl | hy
        · simp
        · simp [hy])]
    rfl

theorem toNum_lt (bs : List Nat) : (∀ x ∈ bs, x < 256) → toNum bs < 256 ^ bs.length := by
  induction bs using List.reverseRecOn with
  | nil => intro _; simp [toNum]
  | append_singleton l x ih =>
    intro h
    have hx : x < 256 := h x (by simp)
    have hl := ih fun y hy => h y (by simp [hy])
    rw [toNum_snoc, List.length_append, List.length_singleton, pow_succ]
    omega

/-- Bytes of UTF-8. -/
theorem encode_lt (t : Str) : ∀ x ∈ Stream.encode t, x < 256 := by
  intro x hx
  obtain ⟨c, _, hc⟩ := List.mem_flatMap.1 hx
  rcases Flat.shape c with ⟨a, ha, _⟩ | ⟨a, b, ha, _⟩ | ⟨a, b, d, ha, _⟩ | ⟨a, b, d, e, ha, _⟩ <;> rw [ha] at hc <;>
    simp only [List.mem_cons, List.not_mem_nil, or_false] at hc <;> omega

/-- UTF-8 begins with a zero only if the text does. -/
theorem encode_head {c : Char} (hc : c ≠ '\x00') (t : Str) : ∃ b bs, Stream.encode (c :: t) = b :: bs ∧ b ≠ 0 := by
  have hz : c.toNat ≠ 0 := fun h => hc (Char.toNat_inj.1 h)
  rw [Stream.encode_cons]
  rcases Flat.shape c with ⟨a, ha, _⟩ | ⟨a, b, ha, _⟩ | ⟨a, b, d, ha, _⟩ | ⟨a, b, d, e, ha, _⟩
  · refine ⟨a, _, by rw [ha]; rfl, ?_⟩
    intro h0
    rw [h0] at ha
    unfold Stream.encodeChar at ha
    dsimp only at ha
    split at ha
    · simp only [List.cons.injEq, and_true] at ha; exact hz ha
    · split at ha
      · simp at ha
      · split at ha <;> simp at ha
  all_goals exact ⟨a, _, by rw [ha]; rfl, by omega⟩

end Verif.Password
