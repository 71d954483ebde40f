import Verif.Model.Brine

namespace Verif.Brine

/-! ## Numbers -/

theorem ofNat_toNat {n : Nat} (h : n < 256) : (UInt8.ofNat n).toNat = n := by
  simp only [UInt8.toNat_ofNat']; omega

theorem be_length (n k : Nat) : (be n k).length = n := by
  induction n generalizing k with
  | zero => rfl
  | succ n ih => simp [be, ih]

theorem unbe_be (n k : Nat) (h : k < 256 ^ n) : unbe (be n k) = k := by
  induction n generalizing k with
  | zero => simp [be, unbe] at *; omega
  | succ n ih =>
    have h1 : k / 256 < 256 ^ n := by
      rw [Nat.div_lt_iff_lt_mul (by decide)]; rw [Nat.pow_succ] at h; exact h
    have := ih _ h1
    simp only [unbe] at this
    simp only [be, unbe, List.foldl_append, List.foldl_cons, List.foldl_nil, this]
    rw [ofNat_toNat (by omega)]
    omega

theorem pack_ok {n k : Nat} {b : Bytes} (h : pack n k = .ok b) : b = be n k ∧ k < 256 ^ n := by
  unfold pack at h
  split at h
  · cases h; exact ⟨rfl, by assumption⟩
  · cases h

theorem unpack_be {n k : Nat} (h : k < 256 ^ n) (r : Bytes) : unpack n ((be n k ++ r).take n) = .ok k := by
  have : (be n k ++ r).take n = be n k := by
    rw [List.take_append_of_le_length (by rw [be_length]; exact Nat.le_refl _),
      List.take_of_length_le (by rw [be_length]; exact Nat.le_refl _)]
  rw [this, unpack, if_pos (be_length n k), unbe_be n k h]

theorem drop_be {n k : Nat} (r : Bytes) : (be n k ++ r).drop n = r := by
  rw [List.drop_append_of_le_length (by rw [be_length]; exact Nat.le_refl _),
    List.drop_of_length_le (by rw [be_length]; exact Nat.le_refl _)]; rfl

theorem sized_be {α : Type} {n k : Nat} (h : k < 256 ^ n) (r : Bytes) (g : Nat → Bytes → Except Err α) :
    sized n (be n k ++ r) g = g k r := by
  unfold sized
  rw [unpack_be h, drop_be]

/-! ## UTF-8 -/

theorem decode_encode1 {c : Nat} {b : Bytes} (h : encode1 c = some b) {l : List Nat} {r : Bytes}
    (hr : decode r = .ok l) : decode (b ++ r) = .ok (c :: l) := by
  unfold encode1 at h
  split at h
  · rename_i h0
    cases h
    simp only [List.cons_append, List.nil_append]
    rw [decode.eq_def]
    simp only []
    rw [ofNat_toNat (by omega), if_pos h0, hr]
  split at h
  · rename_i h0 h1
    cases h
    simp only [List.cons_append, List.nil_append]
    rw [decode.eq_def]
    simp only [cont]
    rw [ofNat_toNat (n := 0xC0 + c / 64) (by omega), ofNat_toNat (n := 0x80 + c % 64) (by omega), if_neg (by omega)]
    rw [decide_eq_true (show 0x80 ≤ 0x80 + c % 64 ∧ 0x80 + c % 64 < 0xC0 by omega)]
    simp only [Bool.not_true, Bool.false_eq_true, if_false]
    rw [if_pos (by omega), hr]
    have hv : (0xC0 + c / 64 - 0xC0) * 64 + (0x80 + c % 64 - 0x80) = c := by omega
    simp only [hv]
  split at h
  · cases h
  split at h
  · rename_i h0 h1 h2 h3
    cases h
    simp only [List.cons_append, List.nil_append]
    rw [decode.eq_def]
    simp only [cont]
    rw [ofNat_toNat (n := 0xE0 + c / 4096) (by omega), ofNat_toNat (n := 0x80 + c / 64 % 64) (by omega),
      ofNat_toNat (n := 0x80 + c % 64) (by omega), if_neg (by omega)]
    rw [decide_eq_true (show 0x80 ≤ 0x80 + c % 64 ∧ 0x80 + c % 64 < 0xC0 by omega),
      decide_eq_true (show 0x80 ≤ 0x80 + c / 64 % 64 ∧ 0x80 + c / 64 % 64 < 0xC0 by omega)]
    simp only [Bool.not_true, Bool.false_eq_true, if_false]
    rw [if_neg (by omega), if_pos (by omega)]
    have hv : (0xE0 + c / 4096 - 0xE0) * 4096 + (0x80 + c / 64 % 64 - 0x80) * 64 + (0x80 + c % 64 - 0x80) = c := by omega
    rw [hv, if_neg (by omega), hr]
  split at h
  · rename_i h0 h1 h2 h3 h4
    cases h
    simp only [List.cons_append, List.nil_append]
    rw [decode.eq_def]
    simp only [cont]
    rw [ofNat_toNat (n := 0xF0 + c / 262144) (by omega), ofNat_toNat (n := 0x80 + c / 4096 % 64) (by omega),
      ofNat_toNat (n := 0x80 + c / 64 % 64) (by omega),
      ofNat_toNat (n := 0x80 + c % 64) (by omega), if_neg (by omega)]
    rw [decide_eq_true (show 0x80 ≤ 0x80 + c % 64 ∧ 0x80 + c % 64 < 0xC0 by omega),
      decide_eq_true (show 0x80 ≤ 0x80 + c / 64 % 64 ∧ 0x80 + c / 64 % 64 < 0xC0 by omega),
      decide_eq_true (show 0x80 ≤ 0x80 + c / 4096 % 64 ∧ 0x80 + c / 4096 % 64 < 0xC0 by omega)]
    simp only [Bool.not_true, Bool.false_eq_true, if_false]
    rw [if_neg (by omega), if_neg (by omega), if_pos (by omega)]
    have hv : (0xF0 + c / 262144 - 0xF0) * 262144 + (0x80 + c / 4096 % 64 - 0x80) * 4096 + (0x80 + c / 64 % 64 - 0x80) * 64 +
      (0x80 + c % 64 - 0x80) = c := by omega
    rw [hv, if_neg (by omega), hr]
  · cases h

theorem decode_encode (l : List Nat) (b : Bytes) (h : encode l = .ok b) : decode b = .ok l := by
  induction l generalizing b with
  | nil => cases h; rfl
  | cons c l ih =>
    unfold encode at h
    split at h
    · rename_i x r hx hr
      cases h
      exact decode_encode1 hx (ih _ hr)
    · cases h
    · cases h

/-- Code points that UTF-8 can encode. -/
def Scalar (c : Nat) : Prop := c < 0x110000 ∧ ¬ (0xD800 ≤ c ∧ c < 0xE000)

theorem encode1_some {c : Nat} : (encode1 c).isSome ↔ Scalar c := by
  unfold encode1 Scalar
  repeat' split
  all_goals first | (simp; omega) | skip

theorem encode_ok (l : List Nat) : (∃ b, encode l = .ok b) ↔ ∀ c ∈ l, Scalar c := by
  induction l with
  | nil => simp [encode]
  | cons c l ih =>
    rw [List.forall_mem_cons, ← ih, ← encode1_some]
    simp only [encode]
    constructor
    · rintro ⟨b, h⟩
      split at h
      · rename_i x r hx hr
        exact ⟨by rw [hx]; rfl, r, hr⟩
      · cases h
      · cases h
    · rintro ⟨h1, r, hr⟩
      obtain ⟨x, hx⟩ := Option.isSome_iff_exists.1 h1
      rw [hx, hr]
      exact ⟨_, rfl⟩

/-! ## Decimal numbers -/

theorem digits_ne (f n : Nat) : digits (f + 1) n ≠ [] := by
  unfold digits; split <;> simp

theorem digits_digit (f n : Nat) : ∀ b ∈ digits f n, isDigit b = true := by
  induction f generalizing n with
  | zero => simp [digits]
  | succ f ih =>
    unfold digits
    split
    · intro b hb
      rw [List.mem_singleton] at hb
      subst hb
      rw [isDigit, ofNat_toNat (by omega)]
      exact decide_eq_true (by omega)
    · intro b hb
      rcases List.mem_append.1 hb with hb | hb
      · exact ih _ b hb
      · rw [List.mem_singleton] at hb
        subst hb
        rw [isDigit, ofNat_toNat (by omega)]
        exact decide_eq_true (by omega)

theorem digits_value (f n : Nat) (h : n < f) : (digits f n).foldl (fun a b => a * 10 + (b.toNat - 48)) 0 = n := by
  induction f generalizing n with
  | zero => omega
  | succ f ih =>
    unfold digits
    split
    · simp only [List.foldl_cons, List.foldl_nil]
      rw [ofNat_toNat (by omega)]; omega
    · rw [List.foldl_append, ih _ (by omega)]
      simp only [List.foldl_cons, List.foldl_nil]
      rw [ofNat_toNat (by omega)]; omega

theorem natOf_digits (n : Nat) : natOf (digits (n + 1) n) = some n := by
  rw [natOf, if_pos ⟨digits_ne n n, List.all_eq_true.2 (digits_digit _ _)⟩, digits_value _ _ (by omega)]

theorem dropWhile_none {l : Bytes} (h : ∀ b ∈ l, isSpace b = false) : l.dropWhile isSpace = l := by
  cases l with
  | nil => rfl
  | cons a l => rw [List.dropWhile_cons, h a (List.mem_cons_self ..)]; rfl

theorem digit_not_space {b : UInt8} (h : isDigit b = true) : isSpace b = false := by
  have := of_decide_eq_true h
  exact decide_eq_false (by omega)

theorem intOf_decimal (i : Int) : intOf (decimal i) = .ok i := by
  have hd := digits_digit (i.natAbs + 1) i.natAbs
  have hs : ∀ b ∈ decimal i, isSpace b = false := by
    intro b hb
    unfold decimal at hb
    split at hb
    · rcases List.mem_cons.1 hb with hb | hb
      · subst hb; decide
      · exact digit_not_space (hd b hb)
    · exact digit_not_space (hd b hb)
  unfold intOf
  rw [dropWhile_none hs, dropWhile_none (by simpa using hs), List.reverse_reverse]
  unfold decimal
  by_cases hn : i < 0
  · rw [if_pos hn]
    simp only [if_true]
    rw [natOf_digits]
    show Except.ok _ = _
    congr 1
    omega
  · rw [if_neg hn]
    cases hc : digits (i.natAbs + 1) i.natAbs with
    | nil => exact absurd hc (digits_ne _ _)
    | cons a r =>
      have ha := of_decide_eq_true (hd a (by rw [hc]; exact List.mem_cons_self ..))
      have h45 : a ≠ 45 := by rintro rfl; revert ha; decide
      have h43 : a ≠ 43 := by rintro rfl; revert ha; decide
      simp only [if_neg h45, if_neg h43]
      rw [← hc, natOf_digits]
      show Except.ok _ = _
      congr 1
      omega

/-! ## Round trip -/

theorem take_app {α : Type} (l r : List α) : (l ++ r).take l.length = l := by simp
theorem drop_app {α : Type} (l r : List α) : (l ++ r).drop l.length = r := by simp

theorem take_app' {α : Type} {l : List α} {n : Nat} (h : l.length = n) (r : List α) : (l ++ r).take n = l := by
  subst h; simp
theorem drop_app' {α : Type} {l : List α} {n : Nat} (h : l.length = n) (r : List α) : (l ++ r).drop n = r := by
  subst h; simp

theorem load_bytes (env : Env) (l b : Bytes) (h : dumpBytes l = .ok b) (f : Nat) (r : Bytes) :
    load env (f + 1) (b ++ r) = .ok (.bytes l, r) := by
  unfold dumpBytes at h
  split at h
  · cases h
    rename_i hl
    rw [List.length_eq_zero_iff.1 hl]; rfl
  split at h
  · rename_i h0; cases h
    show Except.ok (Val.bytes ((l ++ r).take 1), (l ++ r).drop 1) = _
    rw [take_app' h0, drop_app' h0]
  split at h
  · rename_i h0; cases h
    show Except.ok (Val.bytes ((l ++ r).take 2), (l ++ r).drop 2) = _
    rw [take_app' h0, drop_app' h0]
  split at h
  · rename_i h0; cases h
    show Except.ok (Val.bytes ((l ++ r).take 3), (l ++ r).drop 3) = _
    rw [take_app' h0, drop_app' h0]
  split at h
  · rename_i h0; cases h
    show Except.ok (Val.bytes ((l ++ r).take 4), (l ++ r).drop 4) = _
    rw [take_app' h0, drop_app' h0]
  split at h
  · cases hp : pack 1 l.length with
    | error e => rw [hp] at h; cases h
    | ok x =>
      rw [hp] at h; cases h
      obtain ⟨rfl, hk⟩ := pack_ok hp
      show sized 1 (be 1 l.length ++ l ++ r) (fun l s => Except.ok (Val.bytes (s.take l), s.drop l)) = _
      rw [List.append_assoc, sized_be hk, take_app, drop_app]
  · cases hp : pack 4 l.length with
    | error e => rw [hp] at h; cases h
    | ok x =>
      rw [hp] at h; cases h
      obtain ⟨rfl, hk⟩ := pack_ok hp
      show sized 4 (be 4 l.length ++ l ++ r) (fun l s => Except.ok (Val.bytes (s.take l), s.drop l)) = _
      rw [List.append_assoc, sized_be hk, take_app, drop_app]

theorem load_int (env : Env) (i : Int) (b : Bytes) (h : dumpInt i = .ok b) (f : Nat) (r : Bytes) :
    load env (f + 1) (b ++ r) = .ok (.int i, r) := by
  unfold dumpInt at h
  split at h
  · rename_i hi
    cases h
    simp only [List.cons_append, List.nil_append, load]
    rw [ofNat_toNat (by omega), if_pos (by omega)]
    congr 3
    omega
  split at h
  · cases hp : pack 1 (decimal i).length with
    | error e => rw [hp] at h; cases h
    | ok x =>
      rw [hp] at h; cases h
      obtain ⟨rfl, hk⟩ := pack_ok hp
      show sized 1 (be 1 (decimal i).length ++ decimal i ++ r)
        (fun l s => (intOf (s.take l)).map fun i => (Val.int i, s.drop l)) = _
      rw [List.append_assoc, sized_be hk, take_app, drop_app, intOf_decimal]; rfl
  · cases hp : pack 4 (decimal i).length with
    | error e => rw [hp] at h; cases h
    | ok x =>
      rw [hp] at h; cases h
      obtain ⟨rfl, hk⟩ := pack_ok hp
      show sized 4 (be 4 (decimal i).length ++ decimal i ++ r)
        (fun l s => (intOf (s.take l)).map fun i => (Val.int i, s.drop l)) = _
      rw [List.append_assoc, sized_be hk, take_app, drop_app, intOf_decimal]; rfl

theorem load_tup (env : Env) (n : Nat) (b : Bytes) (h : tupHead n = .ok b) (f : Nat) (r : Bytes) :
    load env (f + 1) (b ++ r) = tuple (load env f) n r := by
  unfold tupHead at h
  split at h
  · rename_i h0; cases h; subst h0; rfl
  split at h
  · rename_i h0; cases h; subst h0; rfl
  split at h
  · rename_i h0; cases h; subst h0; rfl
  split at h
  · rename_i h0; cases h; subst h0; rfl
  split at h
  · rename_i h0; cases h; subst h0; rfl
  split at h
  · cases hp : pack 1 n with
    | error e => rw [hp] at h; cases h
    | ok x =>
      rw [hp] at h; cases h
      obtain ⟨rfl, hk⟩ := pack_ok hp
      show sized 1 (be 1 n ++ r) (fun l s => tuple (load env f) l s) = _
      rw [sized_be hk]
  · cases hp : pack 4 n with
    | error e => rw [hp] at h; cases h
    | ok x =>
      rw [hp] at h; cases h
      obtain ⟨rfl, hk⟩ := pack_ok hp
      show sized 4 (be 4 n ++ r) (fun l s => tuple (load env f) l s) = _
      rw [sized_be hk]

theorem tupHead_length {n : Nat} {b : Bytes} (h : tupHead n = .ok b) : 1 ≤ b.length := by
  unfold tupHead at h
  repeat' split at h
  all_goals first | (cases h; simp; done) | cases h

theorem dumpBytes_length {l b : Bytes} (h : dumpBytes l = .ok b) : 1 ≤ b.length := by
  unfold dumpBytes at h
  repeat' split at h
  all_goals first | (cases h; simp; done) | cases h

theorem dumpInt_length {i : Int} {b : Bytes} (h : dumpInt i = .ok b) : 1 ≤ b.length := by
  unfold dumpInt at h
  repeat' split at h
  all_goals first | (cases h; simp; done) | cases h

mutual

/-- A value with a slice in it, itself or through tuples: it cannot be in a set. -/
def Sliced : Val → Prop
  | .slice _ _ _ => True
  | .tup l => SlicedAny l
  | .none | .notImplemented | .ellipsis | .bool _ | .int _ | .float _ | .complex _ _ | .bytes _ | .str _ | .fset _
  | .other => False

/-- One of them. -/
def SlicedAny : List Val → Prop
  | [] => False
  | v :: l => Sliced v ∨ SlicedAny l

end

mutual

theorem hashable_of (v : Val) (h : ¬ Sliced v) : hashable v = true := by
  cases v with
  | slice a b c => exact absurd trivial h
  | tup l => exact hashableAll_of l h
  | _ => rfl

theorem hashableAll_of (l : List Val) (h : ¬ SlicedAny l) : hashableAll l = true := by
  cases l with
  | nil => rfl
  | cons v l =>
    have h' : ¬ (Sliced v ∨ SlicedAny l) := h
    show (hashable v && hashableAll l) = true
    rw [hashable_of v fun x => h' (.inl x), hashableAll_of l fun x => h' (.inr x)]
    rfl

end

mutual

/-- A frozen set has only hashable elements, at every level. -/
def Proper : Val → Prop
  | .tup l => ProperAll l
  | .fset l => ProperAll l ∧ ¬ SlicedAny l
  | .slice a b c => Proper a ∧ Proper b ∧ Proper c
  | _ => True

/-- All of them. -/
def ProperAll : List Val → Prop
  | [] => True
  | v :: l => Proper v ∧ ProperAll l

end

theorem u64 (x : UInt64) : UInt64.ofNat (x.toNat) = x := UInt64.ofNat_toNat ..

mutual

theorem load_dump (env : Env) (v : Val) (hv : Proper v) (b : Bytes) (h : dump v = .ok b) :
    1 ≤ b.length ∧ ∀ f r, b.length ≤ f → load env f (b ++ r) = .ok (v, r) := by
  cases v with
  | none => cases h; exact ⟨by simp, fun f r hf => by cases f with | zero => simp at hf | succ f => rfl⟩
  | notImplemented => cases h; exact ⟨by simp, fun f r hf => by cases f with | zero => simp at hf | succ f => rfl⟩
  | ellipsis => cases h; exact ⟨by simp, fun f r hf => by cases f with | zero => simp at hf | succ f => rfl⟩
  | bool x =>
    cases h
    cases x <;> exact ⟨by simp, fun f r hf => by cases f with | zero => simp at hf | succ f => rfl⟩
  | int i =>
    have hb : dumpInt i = .ok b := h
    have h1 := dumpInt_length hb
    refine ⟨h1, fun f r hf => ?_⟩
    cases f with
    | zero => omega
    | succ f => exact load_int env i b hb f r
  | float x =>
    cases h
    refine ⟨by simp, fun f r hf => ?_⟩
    cases f with
    | zero => simp at hf
    | succ f =>
      show (unpack 8 ((be 8 x.toNat ++ r).take 8)).map
        (fun y => (Val.float (UInt64.ofNat y), (be 8 x.toNat ++ r).drop 8)) = _
      rw [unpack_be (by have := x.toNat_lt; exact this), drop_be]
      simp only [Except.map, u64]
  | complex x y =>
    cases h
    refine ⟨by simp, fun f r hf => ?_⟩
    cases f with
    | zero => simp at hf
    | succ f =>
      have e : (0x1b : UInt8) :: (be 8 x.toNat ++ be 8 y.toNat) ++ r = 0x1b :: (be 8 x.toNat ++ (be 8 y.toNat ++ r)) := by
        simp
      rw [e]
      show (match unpack 8 ((be 8 x.toNat ++ (be 8 y.toNat ++ r)).take 8),
          unpack 8 (((be 8 x.toNat ++ (be 8 y.toNat ++ r)).drop 8).take 8) with
        | .ok a, .ok b => Except.ok (Val.complex (UInt64.ofNat a) (UInt64.ofNat b),
            (be 8 x.toNat ++ (be 8 y.toNat ++ r)).drop 16)
        | _, _ => Except.error Err.struct) = _
      rw [unpack_be (by have := x.toNat_lt; exact this), drop_be, unpack_be (by have := y.toNat_lt; exact this)]
      have : (be 8 x.toNat ++ (be 8 y.toNat ++ r)).drop 16 = r := by
        rw [← List.append_assoc]
        exact drop_app' (by rw [List.length_append, be_length, be_length]) _
      simp only [this, u64]
  | bytes l =>
    have hb : dumpBytes l = .ok b := h
    have h1 := dumpBytes_length hb
    refine ⟨h1, fun f r hf => ?_⟩
    cases f with
    | zero => omega
    | succ f => exact load_bytes env l b hb f r
  | str l =>
    unfold dump at h
    cases he : encode l with
    | error e => rw [he] at h; cases h
    | ok u =>
      rw [he] at h
      simp only at h
      cases hd : dumpBytes u with
      | error e => rw [hd] at h; cases h
      | ok x =>
        rw [hd] at h; cases h
        have h1 := dumpBytes_length hd
        refine ⟨by simp, fun f r hf => ?_⟩
        cases f with
        | zero => simp at hf
        | succ f =>
          cases f with
          | zero => simp at hf; subst hf; simp at h1
          | succ f =>
            show after (load env (f + 1)) text (x ++ r) = _
            rw [after, load_bytes env u x hd f r]
            simp only [text, decode_encode l u he, Except.map]
  | tup l =>
    unfold dump at h
    cases ht : tupHead l.length with
    | error e => rw [ht] at h; cases h
    | ok x =>
      cases hd : dumpAll l with
      | error e => rw [ht, hd] at h; cases h
      | ok y =>
        rw [ht, hd] at h; cases h
        have h1 := tupHead_length ht
        refine ⟨by rw [List.length_append]; omega, fun f r hf => ?_⟩
        rw [List.length_append] at hf
        cases f with
        | zero => omega
        | succ f =>
          rw [List.append_assoc, load_tup env _ x ht f, tuple, times_dump env l hv y hd f r (by omega)]
  | fset l =>
    unfold dump at h
    cases ht : tupHead l.length with
    | error e => rw [ht] at h; cases h
    | ok x =>
      cases hd : dumpAll l with
      | error e => rw [ht, hd] at h; cases h
      | ok y =>
        rw [ht, hd] at h; cases h
        have h1 := tupHead_length ht
        refine ⟨by simp, fun f r hf => ?_⟩
        rw [List.length_cons, List.length_append] at hf
        cases f with
        | zero => omega
        | succ f =>
          cases f with
          | zero => omega
          | succ f =>
            show after (load env (f + 1)) toSet (x ++ y ++ r) = _
            rw [after, List.append_assoc, load_tup env _ x ht f, tuple, times_dump env l hv.1 y hd f r (by omega)]
            simp only [toSet, items, hashableAll_of l hv.2, if_true]
  | slice p q s =>
    unfold dump at h
    cases hp : dump p with
    | error e => rw [hp] at h; cases h
    | ok x =>
      cases hq : dump q with
      | error e => rw [hp, hq] at h; cases h
      | ok y =>
        cases hs : dump s with
        | error e => rw [hp, hq, hs] at h; cases h
        | ok w =>
          rw [hp, hq, hs] at h; cases h
          obtain ⟨hx1, hx⟩ := load_dump env p hv.1 x hp
          obtain ⟨hy1, hy⟩ := load_dump env q hv.2.1 y hq
          obtain ⟨hw1, hw⟩ := load_dump env s hv.2.2 w hs
          refine ⟨by simp, fun f r hf => ?_⟩
          simp only [List.length_cons, List.length_append] at hf
          cases f with
          | zero => omega
          | succ f =>
            cases f with
            | zero => omega
            | succ f =>
              show after (load env (f + 1)) toSlice (0x12 :: (x ++ y ++ w ++ r)) = _
              have e : load env (f + 1) (0x12 :: (x ++ y ++ w ++ r)) = .ok (.tup [p, q, s], r) := by
                show tuple (load env f) 3 (x ++ y ++ w ++ r) = _
                rw [List.append_assoc, List.append_assoc]
                simp only [tuple, times, hx f _ (show x.length ≤ f by omega), hy f _ (show y.length ≤ f by omega),
                  hw f _ (show w.length ≤ f by omega)]
              rw [after, e]
              simp only [toSlice, items]
  | other => cases h

theorem times_dump (env : Env) (l : List Val) (hl : ProperAll l) (b : Bytes) (h : dumpAll l = .ok b) (f : Nat) (r : Bytes)
    (hf : b.length ≤ f) : times (load env f) l.length (b ++ r) = .ok (l, r) := by
  cases l with
  | nil => cases h; rfl
  | cons v l =>
    unfold dumpAll at h
    cases hd : dump v with
    | error e => rw [hd] at h; cases h
    | ok x =>
      cases ha : dumpAll l with
      | error e => rw [hd, ha] at h; cases h
      | ok y =>
        rw [hd, ha] at h; cases h
        rw [List.length_append] at hf
        have h1 := (load_dump env v hl.1 x hd).2 f (y ++ r) (by omega)
        have h2 := times_dump env l hl.2 y ha f r (by omega)
        rw [List.append_assoc, List.length_cons, times, h1]
        simp only [h2]

end

theorem loads_dump (env : Env) (v : Val) (hv : Proper v) (b : Bytes) (h : dump v = .ok b) : loads env b = .ok v := by
  have := (load_dump env v hv b h).2 (b.length + 1) [] (by omega)
  rw [List.append_nil] at this
  rw [loads, this]; rfl

/-! ## What loading gives -/

theorem dumpableAll_iff (l : List Val) : dumpableAll l = true ↔ ∀ v ∈ l, dumpable v = true := by
  induction l with
  | nil => simp [dumpableAll]
  | cons v l ih => simp [dumpableAll, ih]

theorem items_dumpable {v : Val} {l : List Val} (hv : dumpable v = true) (h : items v = .ok l) :
    dumpableAll l = true := by
  rw [dumpableAll_iff]
  cases v <;> simp only [items] at h
  all_goals try (cases h; done)
  · cases h; intro w hw; obtain ⟨b, -, rfl⟩ := List.mem_map.1 hw; rfl
  · cases h; intro w hw; obtain ⟨b, -, rfl⟩ := List.mem_map.1 hw; rfl
  · cases h; exact (dumpableAll_iff _).1 hv
  · cases h; exact (dumpableAll_iff _).1 hv

theorem times_dumpable {f : Bytes → Except Err (Val × Bytes)} (hf : ∀ s v r, f s = .ok (v, r) → dumpable v = true) :
    ∀ n s l r, times f n s = .ok (l, r) → dumpableAll l = true
  | 0, s, l, r, h => by cases h; rfl
  | n + 1, s, l, r, h => by
    unfold times at h
    cases h1 : f s with
    | error e => rw [h1] at h; cases h
    | ok p =>
      obtain ⟨v, s'⟩ := p
      rw [h1] at h
      simp only at h
      cases h2 : times f n s' with
      | error e => rw [h2] at h; cases h
      | ok q =>
        rw [h2] at h; cases h
        simp only [dumpableAll, hf _ _ _ h1, times_dumpable hf n s' q.1 q.2 h2, Bool.and_true]

theorem tuple_dumpable {f : Bytes → Except Err (Val × Bytes)} (hf : ∀ s v r, f s = .ok (v, r) → dumpable v = true)
    {n : Nat} {s r : Bytes} {v : Val} (h : tuple f n s = .ok (v, r)) : dumpable v = true := by
  unfold tuple at h
  cases h1 : times f n s with
  | error e => rw [h1] at h; cases h
  | ok p => rw [h1] at h; cases h; exact times_dumpable hf _ _ p.1 p.2 h1

theorem after_dumpable {f : Bytes → Except Err (Val × Bytes)} (hf : ∀ s v r, f s = .ok (v, r) → dumpable v = true)
    {g : Val → Except Err Val} (hg : ∀ v w, dumpable v = true → g v = .ok w → dumpable w = true)
    {s r : Bytes} {v : Val} (h : after f g s = .ok (v, r)) : dumpable v = true := by
  unfold after at h
  cases h1 : f s with
  | error e => rw [h1] at h; cases h
  | ok p =>
    rw [h1] at h
    simp only at h
    cases h2 : g p.1 with
    | error e => rw [h2] at h; cases h
    | ok w => rw [h2] at h; cases h; exact hg _ _ (hf _ p.1 p.2 h1) h2

theorem sized_ok {α : Type} {n : Nat} {s : Bytes} {k : Nat → Bytes → Except Err α} {a : α}
    (h : sized n s k = .ok a) : ∃ l s', k l s' = .ok a := by
  unfold sized at h
  split at h
  · cases h
  · exact ⟨_, _, h⟩

theorem map_ok {α β : Type} {x : Except Err α} {g : α → β} {b : β} (h : x.map g = .ok b) : ∃ a, x = .ok a ∧ g a = b := by
  cases x with
  | error e => cases h
  | ok a => cases h; exact ⟨a, rfl, rfl⟩

theorem text_dumpable (v w : Val) (_ : dumpable v = true) (h : text v = .ok w) : dumpable w = true := by
  cases v <;> simp only [text] at h <;> try (exact absurd h (by simp))
  obtain ⟨a, -, rfl⟩ := map_ok h; rfl

theorem toInt_dumpable (env : Env) (v w : Val) (_ : dumpable v = true) (h : toInt env v = .ok w) : dumpable w = true := by
  cases v <;> simp only [toInt] at h <;> first | (cases h; rfl) | (obtain ⟨a, -, rfl⟩ := map_ok h; rfl) | exact absurd h (by simp)

theorem toSet_dumpable (v w : Val) (hv : dumpable v = true) (h : toSet v = .ok w) : dumpable w = true := by
  unfold toSet at h
  split at h
  · cases h
  · rename_i l hl
    split at h
    · cases h; exact items_dumpable hv hl
    · cases h

theorem toSlice_dumpable (v w : Val) (hv : dumpable v = true) (h : toSlice v = .ok w) : dumpable w = true := by
  unfold toSlice at h
  split at h
  · cases h
  · rename_i a b c hl
    cases h
    have := (dumpableAll_iff _).1 (items_dumpable hv hl)
    simp only [dumpable, this a (by simp), this b (by simp), this c (by simp), Bool.and_true]
  · cases h

theorem load_dumpable (env : Env) : ∀ f s v r, load env f s = .ok (v, r) → dumpable v = true
  | 0, s, v, r, h => by cases h
  | f + 1, [], v, r, h => by cases h
  | f + 1, t :: s, v, r, h => by
    have ih := load_dumpable env f
    unfold load at h
    split at h
    · cases h; rfl
    split at h
    all_goals first
      | (cases h; done)
      | (cases h; rfl)
      | exact after_dumpable ih text_dumpable h
      | exact after_dumpable ih (toInt_dumpable env) h
      | exact after_dumpable ih toSet_dumpable h
      | exact after_dumpable ih toSlice_dumpable h
      | exact tuple_dumpable ih h
      | (obtain ⟨l, s', h⟩ := sized_ok h; cases h; rfl)
      | (obtain ⟨l, s', h⟩ := sized_ok h; exact tuple_dumpable ih h)
      | (obtain ⟨l, s', h⟩ := sized_ok h; obtain ⟨a, -, h⟩ := map_ok h; cases h; rfl)
      | (obtain ⟨a, -, h⟩ := map_ok h; cases h; rfl)
      | skip
    split at h
    · cases h; rfl
    · cases h

/-! ## When dumping works -/

theorem pack_fits {n k : Nat} (h : k < 256 ^ n) : pack n k = .ok (be n k) := if_pos h

theorem dumpBytes_fits {l : Bytes} : (∃ b, dumpBytes l = .ok b) ↔ l.length < 2 ^ 32 := by
  unfold dumpBytes
  repeat' split
  all_goals try (constructor <;> intro _ <;> first | omega | exact ⟨_, rfl⟩)
  all_goals
    rename_i hp
    unfold pack at hp
    split at hp <;> cases hp
  all_goals first
    | (constructor <;> intro _ <;> first | omega | exact ⟨_, rfl⟩)
    | (constructor
       · rintro ⟨_, h⟩; cases h
       · intro _; omega)

theorem dumpInt_fits {i : Int} : (∃ b, dumpInt i = .ok b) ↔ (-0x30 ≤ i ∧ i < 0xa0) ∨ (decimal i).length < 2 ^ 32 := by
  unfold dumpInt
  by_cases h0 : -0x30 ≤ i ∧ i < 0xa0
  · rw [if_pos h0]; exact ⟨fun _ => Or.inl h0, fun _ => ⟨_, rfl⟩⟩
  rw [if_neg h0]
  by_cases h1 : (decimal i).length < 256
  · rw [if_pos h1, pack_fits (by omega)]
    exact ⟨fun _ => Or.inr (by omega), fun _ => ⟨_, rfl⟩⟩
  rw [if_neg h1]
  by_cases h2 : (decimal i).length < 256 ^ 4
  · rw [pack_fits h2]
    exact ⟨fun _ => Or.inr (by omega), fun _ => ⟨_, rfl⟩⟩
  · rw [pack, if_neg h2]
    refine ⟨fun ⟨_, h⟩ => (by cases h), fun h => ?_⟩
    rcases h with h | h
    · exact absurd h h0
    · omega

theorem tupHead_fits {n : Nat} : (∃ b, tupHead n = .ok b) ↔ n < 2 ^ 32 := by
  unfold tupHead
  by_cases h4 : n < 256 ^ 4
  · rw [pack_fits h4]
    by_cases h1 : n < 256
    · rw [pack_fits (by omega : n < 256 ^ 1)]
      constructor
      · intro _; omega
      · intro _
        simp only [if_pos h1]
        repeat' split
        all_goals exact ⟨_, rfl⟩
    · rw [if_neg (by omega), if_neg (by omega), if_neg (by omega), if_neg (by omega), if_neg (by omega), if_neg h1]
      exact ⟨fun _ => by omega, fun _ => ⟨_, rfl⟩⟩
  · rw [if_neg (by omega), if_neg (by omega), if_neg (by omega), if_neg (by omega), if_neg (by omega), if_neg (by omega),
      show pack 4 n = .error .struct from if_neg h4]
    exact ⟨fun ⟨_, h⟩ => (by cases h), fun h => by omega⟩

/-! ## Reading and writing -/

/-- The bytes that arrive before the connection breaks. -/
def flat : List In → Bytes
  | [] => []
  | .again :: i => flat i
  | .data l :: i => if l = [] then [] else l ++ flat i
  | .fail :: _ => []
  | .eof :: _ => []

theorem read_spec : ∀ f n i, n + i.length < f →
    (n ≤ (flat i).length → ∃ i', read f n i = (.ok ((flat i).take n), some i') ∧ flat i' = (flat i).drop n) ∧
    ((flat i).length < n → (read f n i).1 = .eof ∨ (read f n i).1 = .blocked)
  | 0, n, i, h => by omega
  | f + 1, n, i, h => by
    by_cases h0 : n = 0
    · subst h0
      refine ⟨fun _ => ⟨i, ?_, rfl⟩, fun h => by omega⟩
      rw [read.eq_def]
      rfl
    cases i with
    | nil =>
      refine ⟨fun h => by simp [flat] at h; omega, fun _ => ?_⟩
      rw [read.eq_def]
      simp only [if_neg h0]
      exact Or.inr trivial
    | cons e i =>
      rw [List.length_cons] at h
      cases e with
      | again =>
        have := read_spec f n i (by omega)
        have e : read (f + 1) n (.again :: i) = read f n i := by
          rw [read.eq_def]; simp only [if_neg h0]
        rw [e]; exact this
      | fail =>
        refine ⟨fun h => by simp [flat] at h; omega, fun _ => ?_⟩
        rw [read.eq_def]
        simp only [if_neg h0]
        exact Or.inl trivial
      | eof =>
        refine ⟨fun h => by simp [flat] at h; omega, fun _ => ?_⟩
        rw [read.eq_def]
        simp only [if_neg h0]
        exact Or.inl trivial
      | data l =>
        by_cases hl : l = []
        · subst hl
          refine ⟨fun h => by simp [flat] at h; omega, fun _ => ?_⟩
          rw [read.eq_def]
          simp only [if_neg h0]
          exact Or.inl rfl
        have hpos : 0 < l.length := List.length_pos_iff.2 hl
        have hfl : flat (.data l :: i) = l ++ flat i := by simp only [flat, if_neg hl]
        have e : read (f + 1) n (.data l :: i) =
            (match (read f (n - min (min 8000 n) l.length)
                (if l.length ≤ min 8000 n then i else .data (l.drop (min 8000 n)) :: i)).1 with
              | .ok d => (.ok (l.take (min 8000 n) ++ d), (read f (n - min (min 8000 n) l.length)
                (if l.length ≤ min 8000 n then i else .data (l.drop (min 8000 n)) :: i)).2)
              | g => (g, (read f (n - min (min 8000 n) l.length)
                (if l.length ≤ min 8000 n then i else .data (l.drop (min 8000 n)) :: i)).2)) := by
          rw [read.eq_def]; simp only [if_neg h0, if_neg hl]; rfl
        have hx : ∃ m j, m = n - min (min 8000 n) l.length ∧
            j = (if l.length ≤ min 8000 n then i else .data (l.drop (min 8000 n)) :: i) ∧ m + j.length < f ∧
            flat (.data l :: i) = l.take (min 8000 n) ++ flat j ∧ (l.take (min 8000 n)).length = min (min 8000 n) l.length := by
          refine ⟨_, _, rfl, rfl, ?_, ?_, by rw [List.length_take]⟩
          · split
            · omega
            · rw [List.length_cons]; omega
          · rw [hfl]
            by_cases hk : l.length ≤ min 8000 n
            · rw [if_pos hk, List.take_of_length_le hk]
            · rw [if_neg hk]
              have hd : l.drop (min 8000 n) ≠ [] := by
                intro h; rw [List.drop_eq_nil_iff] at h; omega
              simp only [flat, if_neg hd]
              rw [← List.append_assoc, List.take_append_drop]
        obtain ⟨m, j, hm, hj, hmj, hfj, hlen⟩ := hx
        rw [← hm, ← hj] at e
        clear hj
        have hmn : n = (l.take (min 8000 n)).length + m := by rw [hlen]; omega
        generalize l.take (min 8000 n) = p at e hfj hlen hmn
        have ih := read_spec f m j hmj
        refine ⟨fun hn => ?_, fun hn => ?_⟩
        · rw [hfj, List.length_append] at hn
          obtain ⟨i', h1, h2⟩ := ih.1 (by omega)
          refine ⟨i', ?_, ?_⟩
          · rw [e, h1, hfj]
            simp only
            rw [hmn, List.take_length_add_append]
          · rw [h2, hfj, hmn, List.drop_length_add_append]
        · rw [hfj, List.length_append] at hn
          rw [e]
          rcases ih.2 (by omega) with h | h <;> rw [h]
          · exact Or.inl rfl
          · exact Or.inr rfl

theorem readN_spec (n : Nat) (i : List In) :
    (n ≤ (flat i).length → ∃ i', readN n (some i) = (.ok ((flat i).take n), some i') ∧ flat i' = (flat i).drop n) ∧
    ((flat i).length < n → (readN n (some i)).1 = .eof ∨ (readN n (some i)).1 = .blocked) :=
  read_spec _ n i (by omega)

theorem unbe_one (b : UInt8) : unbe [b] = b.toNat := by simp [unbe]

theorem recv_frame {z : Zlib} (hz : ∀ d, z.decompress (z.compress d) = some d) {c : Bool} {d b : Bytes}
    (h : frame z c d = .ok b) {i : List In} :
    (∀ r, flat i = b ++ r → ∃ i', recv z (some i) = (.ok d, some i') ∧ flat i' = r) ∧
    (flat i <+: b → flat i ≠ b → (recv z (some i)).1 = .eof ∨ (recv z (some i)).1 = .blocked) := by
  unfold frame at h
  generalize hc : (c && decide (3000 < d.length)) = k at h
  simp only at h
  generalize hd : (if k = true then z.compress d else d) = d' at h
  cases hp : pack 4 d'.length with
  | error e => rw [hp] at h; cases h
  | ok x =>
    rw [hp] at h
    simp only [Except.ok.injEq] at h
    obtain ⟨rfl, hk⟩ := pack_ok hp
    have hlen : (be 4 d'.length).length = 4 := be_length _ _
    have hb : b = (be 4 d'.length ++ [if k = true then 1 else 0]) ++ (d' ++ [10]) := by rw [← h]; simp
    have h5 : (be 4 d'.length ++ [if k = true then (1 : UInt8) else 0]).length = 5 := by simp [hlen]
    have hh : ∀ hd : Bytes, hd = be 4 d'.length ++ [if k = true then 1 else 0] →
        unbe (hd.take 4) = d'.length ∧ unbe (hd.drop 4) = if k = true then 1 else 0 := by
      rintro _ rfl
      rw [take_app' hlen, drop_app' hlen, unbe_be _ _ hk]
      refine ⟨rfl, ?_⟩
      rw [unbe_one]
      cases k <;> rfl
    constructor
    · intro r hr
      rw [hb, List.append_assoc] at hr
      obtain ⟨i1, h1, h2⟩ := (readN_spec 5 i).1 (by rw [hr, List.length_append, h5]; omega)
      rw [hr, take_app' h5] at h1
      rw [hr, drop_app' h5] at h2
      obtain ⟨hu, hv⟩ := hh _ rfl
      have hl' : (d' ++ [(10 : UInt8)]).length = d'.length + 1 := by simp
      obtain ⟨i2, h3, h4⟩ := (readN_spec (d'.length + 1) i1).1 (by rw [h2, List.length_append, hl']; omega)
      rw [h2, take_app' hl'] at h3
      rw [h2, drop_app' hl'] at h4
      refine ⟨i2, ?_, h4⟩
      rw [recv, h1]
      simp only [hu, h3, hv]
      cases k with
      | false => simp at hd ⊢; exact hd.symm
      | true =>
        simp only [if_true] at hd ⊢
        rw [if_neg (by decide), List.dropLast_concat, ← hd, hz]
    · intro hpre hne
      by_cases hs : (flat i).length < 5
      · rcases (readN_spec 5 i).2 hs with h | h <;>
          (rw [recv]; generalize readN 5 (some i) = q at h ⊢; obtain ⟨q1, q2⟩ := q; cases h)
        · exact Or.inl rfl
        · exact Or.inr rfl
      · obtain ⟨i1, h1, h2⟩ := (readN_spec 5 i).1 (by omega)
        obtain ⟨t, ht⟩ := hpre
        have htk : (flat i).take 5 = be 4 d'.length ++ [if k = true then 1 else 0] := by
          have : (flat i).take 5 = b.take 5 := by
            rw [← ht, List.take_append_of_le_length (by omega)]
          rw [this, hb, take_app' h5]
        obtain ⟨hu, hv⟩ := hh _ htk
        have hl2 : (flat i).length < b.length := by
          rw [← ht, List.length_append]
          cases t with
          | nil => rw [List.append_nil] at ht; exact absurd ht hne
          | cons => simp
        have hl3 : b.length = 5 + (d'.length + 1) := by rw [hb, List.length_append, h5]; simp
        rcases (readN_spec (d'.length + 1) i1).2 (by rw [h2, List.length_drop]; omega) with h | h <;>
          (rw [recv, h1]; simp only [hu]; generalize readN _ (some i1) = q at h ⊢; obtain ⟨q1, q2⟩ := q; cases h)
        · exact Or.inl rfl
        · exact Or.inr rfl

theorem write_spec : ∀ f d o, o.length < f →
    (write f d o).1 <+: d ∧ ((write f d o).2.1 = .ok ↔ (write f d o).1 = d)
  | 0, d, o, h => by omega
  | f + 1, d, o, h => by
    by_cases hd : d = []
    · subst hd
      rw [write.eq_def]; simp
    cases o with
    | nil =>
      rw [write.eq_def]; simp only [if_neg hd]
      exact ⟨List.nil_prefix, by simp, fun h => absurd h.symm hd⟩
    | cons e o =>
      rw [List.length_cons] at h
      cases e with
      | fail =>
        rw [write.eq_def]; simp only [if_neg hd]
        exact ⟨List.nil_prefix, by simp, fun h => absurd h.symm hd⟩
      | sent n =>
        rw [write.eq_def]; simp only [if_neg hd]
        have ih := write_spec f (d.drop (min n (min 8000 d.length))) o (by omega)
        obtain ⟨⟨t, ht⟩, h2⟩ := ih
        generalize (write f (d.drop (min n (min 8000 d.length))) o) = q at ht h2 ⊢
        refine ⟨⟨t, ?_⟩, ?_⟩
        · rw [List.append_assoc, ht, List.take_append_drop]
        · rw [h2]
          constructor
          · intro h; rw [h, List.take_append_drop]
          · intro h
            have := List.take_append_drop (min n (min 8000 d.length)) d
            exact List.append_cancel_left (h.trans this.symm)

/-- The bytes that were accepted by the socket belong to the messages that were sent, in this order, and to at
most one more. -/
inductive Wire (z : Zlib) (c : Bool) : List Val → Bytes → Prop
  | part {d b w : Bytes} : frame z c d = .ok b → w <+: b → w ≠ b → Wire z c [] w
  | empty : Wire z c [] []
  | cons {v : Val} {d b w : Bytes} {vs : List Val} : dump v = .ok d → frame z c d = .ok b → Wire z c vs w →
      Wire z c (v :: vs) (b ++ w)

/-- The messages that were sent. -/
def went (vs : List Val) (fs : List Bool) : List Val :=
  (vs.zip fs).filterMap fun p => if p.2 then some p.1 else none

theorem went_false (vs : List Val) : went vs (vs.map fun _ => false) = [] := by
  induction vs with
  | nil => rfl
  | cons v vs ih => simp only [went, List.map_cons, List.zip_cons_cons, List.filterMap_cons] at ih ⊢; simpa using ih

theorem sendAll_closed (z : Zlib) (c : Bool) (vs : List Val) :
    sendAll z c vs none = ([], vs.map fun _ => false) := by
  induction vs with
  | nil => rfl
  | cons v vs ih =>
    unfold sendAll
    rw [ih]
    cases dump v with
    | error e => rfl
    | ok d =>
      simp only
      cases frame z c d <;> rfl

theorem sendAll_wire (z : Zlib) (c : Bool) (vs : List Val) (o : List Out) :
    Wire z c (went vs (sendAll z c vs (some o)).2) (sendAll z c vs (some o)).1 := by
  induction vs generalizing o with
  | nil => exact .empty
  | cons v vs ih =>
    unfold sendAll
    cases hd : dump v with
    | error e => exact ih o
    | ok d =>
      simp only
      cases hf : frame z c d with
      | error e => exact ih o
      | ok b =>
        simp only
        obtain ⟨h1, h2⟩ := write_spec (b.length + o.length + 1) b o (by omega)
        generalize write (b.length + o.length + 1) b o = q at h1 h2
        obtain ⟨w, s, o'⟩ := q
        cases s with
        | ok =>
          have : w = b := h2.1 rfl
          subst this
          exact .cons hd hf (ih o')
        | eof =>
          simp only [sendAll_closed, List.append_nil]
          have hw : went (v :: vs) (false :: vs.map fun _ => false) = [] := went_false (v :: vs)
          rw [hw]
          exact .part hf h1 (fun h => by cases h2.2 h)
        | blocked =>
          simp only
          have hw : went (v :: vs) (false :: vs.map fun _ => false) = [] := went_false (v :: vs)
          rw [hw]
          exact .part hf h1 (fun h => by cases h2.2 h)

theorem frame_nil (z : Zlib) (c : Bool) : frame z c [] = .ok [0, 0, 0, 0, 0, 10] := by
  cases c <;> simp [frame, pack, be]

theorem recvAll_wire {z : Zlib} (hz : ∀ d, z.decompress (z.compress d) = some d) (env : Env) {c : Bool} {vs : List Val}
    {w : Bytes} (hw : Wire z c vs w) (hv : ∀ v ∈ vs, Proper v) : ∀ (n : Nat) (i : List In), flat i <+: w →
    ∃ k t, k ≤ vs.length ∧ (t = [] ∨ t = [.eof] ∨ t = [.blocked]) ∧
      recvAll z env n (some i) = (vs.take k).map .ok ++ t ∧ (flat i = w → k = min n vs.length) := by
  have stop : ∀ (vs : List Val) (n : Nat) (i : List In) (w : Bytes),
      ((recv z (some i)).1 = .eof ∨ (recv z (some i)).1 = .blocked) → (flat i = w → vs = []) →
      ∃ k t, k ≤ vs.length ∧ (t = [] ∨ t = [.eof] ∨ t = [.blocked]) ∧
      recvAll z env n (some i) = (vs.take k).map .ok ++ t ∧ (flat i = w → k = min n vs.length) := by
    intro vs n i w h hvs
    cases n with
    | zero => exact ⟨0, [], by omega, Or.inl rfl, rfl, fun _ => by omega⟩
    | succ n =>
      rw [recvAll]
      generalize recv z (some i) = q at h
      obtain ⟨q1, q2⟩ := q
      rcases h with h | h <;> cases h
      · exact ⟨0, [.eof], by omega, Or.inr (Or.inl rfl), rfl, fun h => by rw [hvs h]; simp⟩
      · exact ⟨0, [.blocked], by omega, Or.inr (Or.inr rfl), rfl, fun h => by rw [hvs h]; simp⟩
  induction hw with
  | part hf hp hne =>
    intro n i hi
    refine stop [] n i _ ((recv_frame hz hf).2 (hi.trans hp) fun h => ?_) (fun _ => rfl)
    rw [h] at hi
    exact hne (hp.eq_of_length_le hi.length_le)
  | empty =>
    intro n i hi
    have h0 : flat i = [] := List.prefix_nil.1 hi
    exact stop [] n i _ ((recv_frame hz (frame_nil z c)).2 (by rw [h0]; exact List.nil_prefix) (by rw [h0]; simp)) (fun _ => rfl)
  | @cons v d b w vs hd hf hw ih =>
    intro n i hi
    by_cases hlt : (flat i).length < b.length
    · refine stop _ n i _ ((recv_frame hz hf).2 (List.prefix_of_prefix_length_le hi (List.prefix_append ..) (by omega))
        fun h => by rw [h] at hlt; omega) fun h => ?_
      rw [h, List.length_append] at hlt
      omega
    · obtain ⟨r, hr⟩ := List.prefix_of_prefix_length_le (List.prefix_append b w) hi (by omega)
      have hrw : r <+: w := by rw [← hr] at hi; exact (List.prefix_append_right_inj b).1 hi
      obtain ⟨i', h1, h2⟩ := (recv_frame hz hf).1 r hr.symm
      cases n with
      | zero => exact ⟨0, [], by omega, Or.inl rfl, rfl, fun _ => by omega⟩
      | succ n =>
        obtain ⟨k, t, hk, ht, he, hl⟩ := ih (fun v hv' => hv v (List.mem_cons_of_mem _ hv')) n i' (by rw [h2]; exact hrw)
        refine ⟨k + 1, t, by rw [List.length_cons]; omega, ht, ?_, ?_⟩
        · rw [recvAll, h1]
          simp only [loads_dump env v (hv v (List.mem_cons_self ..)) d hd, he, List.take_succ_cons, List.map_cons, List.cons_append]
        · intro h
          rw [← hr] at h
          have := hl (by rw [h2]; exact List.append_cancel_left h)
          rw [List.length_cons]
          omega

theorem write_all : ∀ f d o, o.length < f → (∀ x ∈ o, ∃ n, 0 < n ∧ x = Out.sent n) → d.length ≤ o.length →
    ∃ o', write f d o = (d, .ok, o') ∧ (∀ x ∈ o', x ∈ o) ∧ o.length ≤ o'.length + d.length
  | 0, d, o, h, _, _ => by omega
  | f + 1, d, o, h, ho, hl => by
    by_cases hd : d = []
    · subst hd
      exact ⟨o, by rw [write.eq_def]; simp, fun x hx => hx, by simp⟩
    have hp : 0 < d.length := List.length_pos_iff.2 hd
    cases o with
    | nil => rw [List.length_nil] at hl; omega
    | cons e o =>
      rw [List.length_cons] at h hl
      obtain ⟨n, hn, rfl⟩ := ho e (List.mem_cons_self ..)
      rw [write.eq_def]; simp only [if_neg hd]
      obtain ⟨o', h1, h2, h3⟩ := write_all f (d.drop (min n (min 8000 d.length))) o (by omega)
        (fun x hx => ho x (List.mem_cons_of_mem _ hx)) (by rw [List.length_drop]; omega)
      refine ⟨o', ?_, fun x hx => List.mem_cons_of_mem _ (h2 x hx), ?_⟩
      · rw [h1]; simp only [List.take_append_drop]
      · rw [List.length_drop] at h3
        rw [List.length_cons]
        omega

theorem sendAll_all (z : Zlib) (c : Bool) (B : Nat) (vs : List Val) :
    ∀ (o : List Out), (∀ v ∈ vs, ∃ d b, dump v = .ok d ∧ frame z c d = .ok b ∧ b.length ≤ B) →
    (∀ x ∈ o, ∃ n, 0 < n ∧ x = Out.sent n) → vs.length * B ≤ o.length →
    (sendAll z c vs (some o)).2 = vs.map fun _ => true := by
  induction vs with
  | nil => intro o _ _ _; rfl
  | cons v vs ih =>
    intro o hv ho hl
    obtain ⟨d, b, hd, hf, hb⟩ := hv v (List.mem_cons_self ..)
    have hm : vs.length * B + B ≤ o.length := by rw [List.length_cons, Nat.succ_mul] at hl; exact hl
    obtain ⟨o', h1, h2, h3⟩ := write_all (b.length + o.length + 1) b o (by omega) ho (by omega)
    unfold sendAll
    rw [hd]
    simp only [hf, h1]
    rw [ih o' (fun v hv' => hv v (List.mem_cons_of_mem _ hv')) (fun x hx => ho x (h2 x hx)) (by omega)]
    rfl

theorem digits_length : ∀ (f n k : Nat), 1 ≤ k → n < 10 ^ k → (digits f n).length ≤ k
  | 0, n, k, h, _ => by simp [digits]
  | f + 1, n, k, hk, h => by
    unfold digits
    split
    · simpa using hk
    · rw [List.length_append, List.length_singleton]
      obtain ⟨k, rfl⟩ : ∃ j, k = j + 1 := ⟨k - 1, by omega⟩
      have h1 : n / 10 < 10 ^ k := by
        rw [Nat.div_lt_iff_lt_mul (by decide), ← Nat.pow_succ]; exact h
      cases k with
      | zero => simp at h1; omega
      | succ k =>
        have := digits_length f (n / 10) (k + 1) (by omega) h1
        omega

theorem decimal_length (i : Int) (k : Nat) (hk : 1 ≤ k) (h : i.natAbs < 10 ^ k) : (decimal i).length ≤ k + 1 := by
  have := digits_length (i.natAbs + 1) i.natAbs k hk h
  unfold decimal
  split
  · rw [List.length_cons]; omega
  · omega

end Verif.Brine
