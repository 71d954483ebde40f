import Verif.Model.Transport

/-! # Lemmas about UTF-8 and copying -/

set_option linter.unusedSimpArgs false

namespace Verif.Transport

/-! ## Specification of UTF-8 -/

/-- A character that UTF-8 can encode: not a surrogate. -/
def Scalar (c : Nat) : Prop := c < 0xD800 ∨ (0xE000 ≤ c ∧ c < 0x110000)

/-- The bytes of one character (RFC 3629). -/
def encodeChar (c : Nat) : Bytes :=
  if c < 0x80 then [c]
  else if c < 0x800 then [0xC0 + c / 64, 0x80 + c % 64]
  else if c < 0x10000 then [0xE0 + c / 4096, 0x80 + c / 64 % 64, 0x80 + c % 64]
  else [0xF0 + c / 262144, 0x80 + c / 4096 % 64, 0x80 + c / 64 % 64, 0x80 + c % 64]

/-- The bytes of a text. -/
def encode (s : Text) : Bytes := s.flatMap encodeChar

theorem encode_cons (c : Nat) (s : Text) : encode (c :: s) = encodeChar c ++ encode s := rfl
theorem encode_append (s t : Text) : encode (s ++ t) = encode s ++ encode t := by
  unfold encode; rw [List.flatMap_append]

theorem encodeChar_ne_nil (c : Nat) : encodeChar c ≠ [] := by
  unfold encodeChar
  split
  · simp
  split
  · simp
  split <;> simp

/-! ## Decoding what was encoded -/

theorem decodeFrom_cons (d : Dec) (a : Nat) (r : Bytes) :
    decodeFrom d (a :: r) = match step d a with
      | none => none
      | some (d', t) => (decodeFrom d' r).map (t ++ ·) := by
  cases d <;> rfl

theorem decodeFrom_of_step {d d' : Dec} {a : Nat} {t : Text} {r : Bytes} (h : step d a = some (d', t)) :
    decodeFrom d (a :: r) = (decodeFrom d' r).map (t ++ ·) := by rw [decodeFrom_cons, h]

theorem step_last {acc lo hi b : Nat} (h1 : lo ≤ b) (h2 : b ≤ hi) :
    step (.more 0 acc lo hi) b = some (.start, [acc * 64 + (b - 0x80)]) := by
  show (if lo ≤ b ∧ b ≤ hi then _ else _) = _
  rw [if_pos ⟨h1, h2⟩]

theorem step_more {k acc lo hi b : Nat} (h1 : lo ≤ b) (h2 : b ≤ hi) :
    step (.more (k + 1) acc lo hi) b = some (.more k (acc * 64 + (b - 0x80)) 0x80 0xBF, []) := by
  show (if lo ≤ b ∧ b ≤ hi then _ else _) = _
  rw [if_pos ⟨h1, h2⟩]

theorem map_nil_append (o : Option Text) : o.map (([] : Text) ++ ·) = o := by cases o <;> rfl

/-- The lead bytes of the encoding. -/
theorem lead_one {a : Nat} (h : a < 0x80) : lead a = some (.start, [a]) := by
  unfold lead; rw [if_pos h]

theorem lead_two {a : Nat} (h1 : 0xC2 ≤ a) (h2 : a < 0xE0) :
    lead a = some (.more 0 (a - 0xC0) 0x80 0xBF, []) := by
  unfold lead; rw [if_neg (by omega), if_neg (by omega), if_pos h2]

theorem lead_three {a : Nat} (h1 : 0xE0 ≤ a) (h2 : a < 0xF0) :
    lead a = some (.more 1 (a - 0xE0) (if a = 0xE0 then 0xA0 else 0x80) (if a = 0xED then 0x9F else 0xBF), []) := by
  unfold lead; rw [if_neg (by omega), if_neg (by omega), if_neg (by omega)]
  by_cases h3 : a = 0xE0
  · subst h3; rfl
  · by_cases h4 : a = 0xED
    · subst h4; rfl
    · rw [if_neg h3, if_neg h4, if_pos h2, if_neg h3, if_neg h4]

theorem lead_four {a : Nat} (h1 : 0xF0 ≤ a) (h2 : a < 0xF5) :
    lead a = some (.more 2 (a - 0xF0) (if a = 0xF0 then 0x90 else 0x80) (if a = 0xF4 then 0x8F else 0xBF), []) := by
  unfold lead
  rw [if_neg (by omega), if_neg (by omega), if_neg (by omega), if_neg (by omega), if_neg (by omega),
    if_neg (by omega)]
  by_cases h3 : a = 0xF0
  · subst h3; rfl
  · by_cases h4 : a = 0xF4
    · subst h4; rfl
    · rw [if_neg h3, if_pos (by omega), if_neg h3, if_neg h4]

theorem lead_none {a : Nat} (h : (0x80 ≤ a ∧ a < 0xC2) ∨ 0xF5 ≤ a) : lead a = none := by
  unfold lead
  rw [if_neg (by omega)]
  rcases h with h | h
  · rw [if_pos (by omega)]
  · rw [if_neg (by omega), if_neg (by omega), if_neg (by omega), if_neg (by omega), if_neg (by omega),
      if_neg (by omega), if_neg (by omega), if_neg (by omega)]

theorem decode_char {c : Nat} (h : Scalar c) (r : Bytes) :
    decodeFrom .start (encodeChar c ++ r) = (decodeFrom .start r).map (c :: ·) := by
  unfold Scalar at h
  unfold encodeChar
  by_cases h1 : c < 0x80
  · rw [if_pos h1]
    exact decodeFrom_of_step (show step .start c = _ from lead_one h1)
  by_cases h2 : c < 0x800
  · rw [if_neg h1, if_pos h2]
    show decodeFrom .start (_ :: _ :: r) = _
    rw [decodeFrom_of_step (show step .start (0xC0 + c / 64) = _ from lead_two (by omega) (by omega)), map_nil_append,
      decodeFrom_of_step (step_last (by omega) (by omega)),
      show (0xC0 + c / 64 - 0xC0) * 64 + (0x80 + c % 64 - 0x80) = c by omega]
    rfl
  by_cases h3 : c < 0x10000
  · rw [if_neg h1, if_neg h2, if_pos h3]
    show decodeFrom .start (_ :: _ :: _ :: r) = _
    rw [decodeFrom_of_step (show step .start (0xE0 + c / 4096) = _ from lead_three (by omega) (by omega)), map_nil_append,
      decodeFrom_of_step (step_more (by split <;> omega) (by split <;> omega)), map_nil_append,
      decodeFrom_of_step (step_last (by omega) (by omega)),
      show ((0xE0 + c / 4096 - 0xE0) * 64 + (0x80 + c / 64 % 64 - 0x80)) * 64 + (0x80 + c % 64 - 0x80) = c
        by omega]
    rfl
  · rw [if_neg h1, if_neg h2, if_neg h3]
    show decodeFrom .start (_ :: _ :: _ :: _ :: r) = _
    rw [decodeFrom_of_step (show step .start (0xF0 + c / 262144) = _ from lead_four (by omega) (by omega)), map_nil_append,
      decodeFrom_of_step (step_more (by split <;> omega) (by split <;> omega)), map_nil_append,
      decodeFrom_of_step (step_more (by omega) (by omega)), map_nil_append,
      decodeFrom_of_step (step_last (by omega) (by omega)),
      show (((0xF0 + c / 262144 - 0xF0) * 64 + (0x80 + c / 4096 % 64 - 0x80)) * 64
        + (0x80 + c / 64 % 64 - 0x80)) * 64 + (0x80 + c % 64 - 0x80) = c by omega]
    rfl

theorem decode_text {s : Text} (h : ∀ c ∈ s, Scalar c) (r : Bytes) :
    decodeFrom .start (encode s ++ r) = (decodeFrom .start r).map (s ++ ·) := by
  induction s with
  | nil => exact (map_nil_append _).symm
  | cons c s ih =>
    rw [encode_cons, List.append_assoc, decode_char (h c List.mem_cons_self),
      ih fun c hc => h c (List.mem_cons_of_mem _ hc), Option.map_map]
    rfl

theorem decode_encode {s : Text} (h : ∀ c ∈ s, Scalar c) : decode (encode s) = some s := by
  have := decode_text h []
  rw [List.append_nil] at this
  unfold decode
  rw [this]
  show some (s ++ []) = some s
  rw [List.append_nil]

/-! ## What can be decoded was encoded -/

theorem list2 {a b x y : Nat} (h1 : a = x) (h2 : b = y) : [a, b] = [x, y] := by rw [h1, h2]
theorem list3 {a b c x y z : Nat} (h1 : a = x) (h2 : b = y) (h3 : c = z) : [a, b, c] = [x, y, z] := by
  rw [h1, h2, h3]
theorem list4 {a b c d x y z w : Nat} (h1 : a = x) (h2 : b = y) (h3 : c = z) (h4 : d = w) :
    [a, b, c, d] = [x, y, z, w] := by rw [h1, h2, h3, h4]

theorem last_inv {acc lo hi : Nat} {bs : Bytes} {t : Text} (h : decodeFrom (.more 0 acc lo hi) bs = some t) :
    ∃ b r t', bs = b :: r ∧ lo ≤ b ∧ b ≤ hi ∧ t = (acc * 64 + (b - 0x80)) :: t' ∧
      decodeFrom .start r = some t' := by
  cases bs with
  | nil => exact absurd h (by intro h; cases h)
  | cons b r =>
    by_cases hb : lo ≤ b ∧ b ≤ hi
    · rw [decodeFrom_of_step (step_last hb.1 hb.2)] at h
      obtain ⟨t', h1, h2⟩ := Option.map_eq_some_iff.mp h
      exact ⟨b, r, t', rfl, hb.1, hb.2, h2.symm, h1⟩
    · rw [decodeFrom_cons, show step (.more 0 acc lo hi) b = none from if_neg hb] at h
      cases h

theorem more_inv {k acc lo hi : Nat} {bs : Bytes} {t : Text}
    (h : decodeFrom (.more (k + 1) acc lo hi) bs = some t) :
    ∃ b r, bs = b :: r ∧ lo ≤ b ∧ b ≤ hi ∧
      decodeFrom (.more k (acc * 64 + (b - 0x80)) 0x80 0xBF) r = some t := by
  cases bs with
  | nil => exact absurd h (by intro h; cases h)
  | cons b r =>
    by_cases hb : lo ≤ b ∧ b ≤ hi
    · rw [decodeFrom_of_step (step_more hb.1 hb.2), map_nil_append] at h
      exact ⟨b, r, rfl, hb.1, hb.2, h⟩
    · rw [decodeFrom_cons, show step (.more (k + 1) acc lo hi) b = none from if_neg hb] at h
      cases h

theorem decode_inv : ∀ (n : Nat) (bs : Bytes) (t : Text), bs.length ≤ n → decodeFrom .start bs = some t →
    (∀ c ∈ t, Scalar c) ∧ bs = encode t
  | _, [], t, _, h => by
    cases h
    exact ⟨fun c hc => absurd hc List.not_mem_nil, rfl⟩
  | 0, a :: bs, t, hn, _ => absurd hn (by simp)
  | n + 1, a :: bs, t, hn, h => by
    have hn : bs.length ≤ n := by simpa using hn
    have fin : ∀ (c : Nat) (p r : Bytes) (t' : Text), Scalar c → p = encodeChar c → a :: bs = p ++ r →
        r.length ≤ n → t = c :: t' → decodeFrom .start r = some t' →
        (∀ c ∈ t, Scalar c) ∧ a :: bs = encode t := by
      intro c p r t' hc hp hbs hr ht hd
      obtain ⟨h1, h2⟩ := decode_inv n r t' hr hd
      rw [ht]
      refine ⟨fun x hx => ?_, ?_⟩
      · rcases List.mem_cons.mp hx with rfl | hx
        · exact hc
        · exact h1 x hx
      · rw [hbs, encode_cons, ← hp, ← h2]
    by_cases h1 : a < 0x80
    · rw [decodeFrom_of_step (show step .start a = _ from lead_one h1)] at h
      obtain ⟨t', h3, h4⟩ := Option.map_eq_some_iff.mp h
      refine fin a [a] bs t' (Or.inl (by omega)) ?_ rfl hn h4.symm h3
      unfold encodeChar; rw [if_pos h1]
    by_cases h2 : (0x80 ≤ a ∧ a < 0xC2) ∨ 0xF5 ≤ a
    · rw [decodeFrom_cons, show step .start a = none from lead_none h2] at h
      cases h
    by_cases h3 : a < 0xE0
    · rw [decodeFrom_of_step (show step .start a = _ from lead_two (by omega) h3), map_nil_append] at h
      obtain ⟨b, r, t', rfl, hb1, hb2, ht, hd⟩ := last_inv h
      refine fin _ [a, b] r t' ?_ ?_ rfl (by simp at hn; omega) ht hd
      · unfold Scalar; omega
      · unfold encodeChar
        rw [if_neg (by omega), if_pos (by omega)]
        exact list2 (by omega) (by omega)
    by_cases h4 : a < 0xF0
    · rw [decodeFrom_of_step (show step .start a = _ from lead_three (by omega) h4), map_nil_append] at h
      obtain ⟨b, r, rfl, hb1, hb2, h⟩ := more_inv h
      obtain ⟨c, r, t', rfl, hc1, hc2, ht, hd⟩ := last_inv h
      have hb3 : 0x80 ≤ b ∧ b ≤ 0xBF ∧ (a = 0xE0 → 0xA0 ≤ b) ∧ (a = 0xED → b ≤ 0x9F) := by
        split at hb1 <;> split at hb2 <;> omega
      refine fin _ [a, b, c] r t' ?_ ?_ rfl (by simp at hn; omega) ht hd
      · unfold Scalar; omega
      · unfold encodeChar
        rw [if_neg (by omega), if_neg (by omega), if_pos (by omega)]
        exact list3 (by omega) (by omega) (by omega)
    · rw [decodeFrom_of_step (show step .start a = _ from lead_four (by omega) (by omega)), map_nil_append] at h
      obtain ⟨b, r, rfl, hb1, hb2, h⟩ := more_inv h
      obtain ⟨c, r, rfl, hc1, hc2, h⟩ := more_inv h
      obtain ⟨d, r, t', rfl, hd1, hd2, ht, hd⟩ := last_inv h
      have hb3 : 0x80 ≤ b ∧ b ≤ 0xBF ∧ (a = 0xF0 → 0x90 ≤ b) ∧ (a = 0xF4 → b ≤ 0x8F) := by
        split at hb1 <;> split at hb2 <;> omega
      refine fin _ [a, b, c, d] r t' ?_ ?_ rfl (by simp at hn; omega) ht hd
      · unfold Scalar; omega
      · unfold encodeChar
        rw [if_neg (by omega), if_neg (by omega), if_neg (by omega)]
        exact list4 (by omega) (by omega) (by omega) (by omega)

/-- Strict decoding accepts exactly the encodings. -/
theorem decode_iff (bs : Bytes) (t : Text) :
    decode bs = some t ↔ (∀ c ∈ t, Scalar c) ∧ bs = encode t := by
  constructor
  · exact decode_inv _ bs t (Nat.le_refl _)
  · rintro ⟨h, rfl⟩
    exact decode_encode h

/-- Encodings are uniquely decodable, from the left. -/
theorem encode_prefix {t s : Text} {r : Bytes} (ht : ∀ c ∈ t, Scalar c) (hs : ∀ c ∈ s, Scalar c)
    (h : encode t ++ r = encode s) : ∃ s', s = t ++ s' ∧ r = encode s' ∧ ∀ c ∈ s', Scalar c := by
  have h1 := decode_encode hs
  unfold decode at h1
  rw [← h, decode_text ht] at h1
  obtain ⟨s', h2, h3⟩ := Option.map_eq_some_iff.mp h1
  exact ⟨s', h3.symm, ((decode_iff r s').mp h2).2, ((decode_iff r s').mp h2).1⟩

theorem encode_inj {t s : Text} (ht : ∀ c ∈ t, Scalar c) (hs : ∀ c ∈ s, Scalar c) (h : encode t = encode s) :
    t = s := by
  have h1 := decode_encode ht
  rw [h, decode_encode hs] at h1
  exact (Option.some.inj h1).symm

/-- The ASCII characters are the bytes below 128. -/
theorem ascii_char (c : Nat) : decodeAscii (encodeChar c) = if c < 0x80 then [c] else [] := by
  unfold encodeChar decodeAscii
  split
  · rename_i h
    rw [List.filter_cons, if_pos (decide_eq_true h)]
    rfl
  · apply List.filter_eq_nil_iff.mpr
    intro x hx
    simp only [decide_eq_true_eq]
    split at hx
    · simp only [List.mem_cons, List.not_mem_nil, or_false] at hx
      omega
    split at hx
    · simp only [List.mem_cons, List.not_mem_nil, or_false] at hx
      omega
    · simp only [List.mem_cons, List.not_mem_nil, or_false] at hx
      omega

theorem ascii_encode (s : Text) : decodeAscii (encode s) = s.filter (· < 0x80) := by
  induction s with
  | nil => rfl
  | cons c s ih =>
    rw [encode_cons]
    show (encodeChar c ++ encode s).filter _ = _
    rw [List.filter_append]
    show decodeAscii (encodeChar c) ++ decodeAscii (encode s) = _
    rw [ascii_char, ih, List.filter_cons]
    by_cases h : c < 0x80
    · rw [if_pos h, if_pos (decide_eq_true h)]; rfl
    · rw [if_neg h, if_neg (by simpa using h)]; rfl

/-! ## Chunks -/

theorem chunks_none (f : Nat) (bs : Bytes) : chunks none (f + 1) bs = if bs = [] then [] else [bs] := rfl

theorem chunks_some (n f : Nat) (bs : Bytes) : chunks (some n) (f + 1) bs =
    if bs.take n = [] then [] else bs.take n :: chunks (some n) f (bs.drop n) := rfl

/-- The chunks: all of `n` bytes but for the last, which is not empty. -/
theorem chunks_spec {n : Nat} (hn : 0 < n) : ∀ (f : Nat) (bs : Bytes), bs.length < f →
    (chunks (some n) f bs).flatten = bs ∧
    ∀ k, ((chunks (some n) f bs).take k).flatten = bs.take (k * n)
  | 0, bs, h => absurd h (by omega)
  | f + 1, bs, h => by
    rw [chunks_some]
    by_cases hb : bs.take n = []
    · rw [if_pos hb]
      have : bs = [] := by
        cases bs with
        | nil => rfl
        | cons a r =>
          cases n with
          | zero => omega
          | succ n => simp at hb
      rw [this]
      refine ⟨rfl, fun k => ?_⟩
      simp
    · rw [if_neg hb]
      have hl : 0 < bs.length := by
        cases bs with
        | nil => exact absurd (by simp) hb
        | cons a r => simp
      have hd : (bs.drop n).length < f := by simp; omega
      obtain ⟨h1, h2⟩ := chunks_spec hn f (bs.drop n) hd
      refine ⟨?_, ?_⟩
      · rw [List.flatten_cons, h1, List.take_append_drop]
      · intro k
        cases k with
        | zero => simp
        | succ k =>
          rw [List.take_succ_cons, List.flatten_cons, h2 k, Nat.add_mul, Nat.one_mul, Nat.add_comm (k * n) n,
            List.take_add]

theorem chunks_ne_nil {n : Nat} : ∀ (f : Nat) (bs : Bytes), ∀ c ∈ chunks (some n) f bs, c ≠ []
  | 0, _, c, h => absurd h List.not_mem_nil
  | f + 1, bs, c, h => by
    rw [chunks_some] at h
    by_cases hb : bs.take n = []
    · rw [if_pos hb] at h; exact absurd h List.not_mem_nil
    · rw [if_neg hb] at h
      rcases List.mem_cons.mp h with rfl | h
      · exact hb
      · exact chunks_ne_nil f _ c h

/-! ## Writing chunks -/

theorem copyLoop_ok {S : Type} {w : S → Bytes → S × Option Err} {c : Bytes} {s s' : S}
    (h : w s c = (s', none)) (cs : List Bytes) : copyLoop w (c :: cs) s = copyLoop w cs s' := by
  rw [copyLoop, h]

theorem copyLoop_err {S : Type} {w : S → Bytes → S × Option Err} {c : Bytes} {s s' : S} {e : Err}
    (h : w s c = (s', some e)) (cs : List Bytes) : copyLoop w (c :: cs) s = (s', some e) := by
  rw [copyLoop, h]

theorem copyLoop_append : ∀ (cs : List Bytes) (f : Bytes), copyLoop append cs f = (f ++ cs.flatten, none)
  | [], f => by simp [copyLoop]
  | c :: cs, f => by
    show copyLoop append cs (f ++ c) = _
    rw [copyLoop_append cs, List.flatten_cons, List.append_assoc]

/-- A stream to which the text is written in its own encoding. -/
def Matching (s : Stream) : Prop :=
  s.encoding = none ∨ s.encoding = some [] ∨ ∃ e, s.encoding = some e ∧ lower e = "utf-8".toList

theorem translate_match {s : Stream} (h : Matching s) (data : Bytes) :
    translate s data = match decode data with
      | some t => ({ s with text := s.text ++ t }, none)
      | none => (s, some .unicode) := by
  unfold translate
  obtain ⟨enc, text⟩ := s
  rcases h with h | h | ⟨e, h, he⟩
  · dsimp only at h; subst h; rfl
  · dsimp only at h; subst h; rfl
  · dsimp only at h; subst h
    cases e with
    | nil => rfl
    | cons c e =>
      dsimp only
      rw [if_neg (show ¬ lower (c :: e) ≠ lower utf8 from fun hne => hne (he.trans (by decide +kernel)))]
      rfl

theorem translate_other {s : Stream} (h : ¬ Matching s) (data : Bytes) :
    translate s data = ({ s with text := s.text ++ decodeAscii data }, none) := by
  unfold translate
  obtain ⟨enc, text⟩ := s
  cases enc with
  | none => exact absurd (Or.inl rfl) h
  | some e =>
    cases e with
    | nil => exact absurd (Or.inr (Or.inl rfl)) h
    | cons c e =>
      dsimp only
      rw [if_pos]
      intro he
      exact h (Or.inr (Or.inr ⟨_, rfl, he.trans (by decide +kernel)⟩))

theorem matching_text (s : Stream) (t : Text) : Matching { s with text := t } ↔ Matching s := Iff.rfl

theorem copyLoop_other : ∀ (cs : List Bytes) (s : Stream), ¬ Matching s →
    copyLoop translate cs s = ({ s with text := s.text ++ decodeAscii cs.flatten }, none)
  | [], s, _ => by simp [copyLoop, decodeAscii]
  | c :: cs, s, h => by
    rw [copyLoop_ok (translate_other h c), copyLoop_other cs _ (fun h' => h ((matching_text s _).mp h'))]
    dsimp only
    rw [List.flatten_cons, List.append_assoc]
    unfold decodeAscii
    rw [List.filter_append]

/-- The decoded text of the chunks before the first that cannot be decoded, and whether there is one. -/
theorem copyLoop_match : ∀ (cs : List Bytes) (s : Stream) (txt : Text), Matching s →
    (∀ c ∈ txt, Scalar c) → cs.flatten = encode txt →
    ∃ k t, t <+: txt ∧ encode t = (cs.take k).flatten ∧
      (copyLoop translate cs s).1 = { s with text := s.text ++ t } ∧
      (((copyLoop translate cs s).2 = none ∧ t = txt ∧
          ∀ j, ∃ u, u <+: txt ∧ encode u = (cs.take j).flatten) ∨
        ((copyLoop translate cs s).2 = some .unicode ∧ k < cs.length ∧
          ¬ ∃ u, u <+: txt ∧ encode u = (cs.take (k + 1)).flatten))
  | [], s, txt, _, hs, hf => by
    have : txt = [] := encode_inj hs (fun c hc => absurd hc List.not_mem_nil) (by rw [← hf]; rfl)
    subst this
    refine ⟨0, [], List.prefix_rfl, rfl, ?_, Or.inl ⟨rfl, rfl, fun j => ⟨[], List.prefix_rfl, ?_⟩⟩⟩
    · simp [copyLoop]
    · simp [encode]
  | c :: cs, s, txt, hm, hs, hf => by
    rw [List.flatten_cons] at hf
    have htr := translate_match hm c
    cases hd : decode c with
    | none =>
      rw [hd] at htr
      rw [copyLoop_err htr]
      refine ⟨0, [], List.nil_prefix, rfl, by rw [List.append_nil], Or.inr ⟨rfl, by simp, ?_⟩⟩
      rintro ⟨u, hu, he⟩
      have hu' : ∀ c ∈ u, Scalar c := fun c hc => hs c (hu.subset hc)
      have he : c = encode u := by simpa using he.symm
      rw [he, decode_encode hu'] at hd
      cases hd
    | some t =>
      rw [hd] at htr
      rw [copyLoop_ok htr]
      obtain ⟨ht, hc⟩ := (decode_iff c t).mp hd
      rw [hc] at hf
      obtain ⟨txt', h1, h2, h3⟩ := encode_prefix ht hs hf
      obtain ⟨k, u, hu1, hu2, hu3, hu4⟩ :=
        copyLoop_match cs { s with text := s.text ++ t } txt' hm h3 h2
      have lift : ∀ v, v <+: txt' → ∀ j, encode v = (cs.take j).flatten →
          (t ++ v) <+: txt ∧ encode (t ++ v) = ((c :: cs).take (j + 1)).flatten := by
        intro v hv j hj
        refine ⟨?_, ?_⟩
        · rw [h1]; exact (List.prefix_append_right_inj t).mpr hv
        · rw [encode_append, hj, List.take_succ_cons, List.flatten_cons, hc]
      refine ⟨k + 1, t ++ u, (lift u hu1 k hu2).1, (lift u hu1 k hu2).2, ?_, ?_⟩
      · rw [hu3]
        dsimp only
        rw [List.append_assoc]
      · rcases hu4 with ⟨h4, h5, h6⟩ | ⟨h4, h5, h6⟩
        · refine Or.inl ⟨h4, by rw [h1, h5], fun j => ?_⟩
          cases j with
          | zero => exact ⟨[], List.nil_prefix, rfl⟩
          | succ j =>
            obtain ⟨v, hv1, hv2⟩ := h6 j
            exact ⟨t ++ v, lift v hv1 j hv2⟩
        · refine Or.inr ⟨h4, by simpa using h5, ?_⟩
          rintro ⟨v, hv1, hv2⟩
          rw [List.take_succ_cons, List.flatten_cons, hc] at hv2
          have hvs : ∀ c ∈ v, Scalar c := fun c hc => hs c (hv1.subset hc)
          obtain ⟨w, hw1, hw2, hw3⟩ := encode_prefix ht hvs hv2.symm
          refine h6 ⟨w, ?_, hw2.symm⟩
          rw [h1, hw1] at hv1
          exact (List.prefix_append_right_inj t).mp hv1

end Verif.Transport
