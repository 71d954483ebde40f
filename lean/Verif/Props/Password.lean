import Mathlib.NumberTheory.LucasLehmer
import Verif.Lemmas.Password

/-!
# C130: the password that the user types is the one that sudo gets
-/

namespace Verif.Password

open Verif.Checksum (Str)

/-- A key as `RSA.generate(2048)` makes it: two different primes, and exponents that undo each other. -/
def Proper (k : Key) : Prop :=
  2 ^ 2047 ≤ k.n ∧ ∃ p q j, p.Prime ∧ q.Prime ∧ p ≠ q ∧ k.n = p * q ∧ k.e * k.d = j * ((p - 1) * (q - 1)) + 1

theorem proper_fits {k : Key} (hk : Proper k) {bs : List Nat} (h : ∀ x ∈ bs, x < 256) (hlen : bs.length ≤ 255) :
    toNum bs < k.n := by
  have h1 := toNum_lt bs h
  have h2 : 256 ^ bs.length ≤ 256 ^ 255 := Nat.pow_le_pow_right (by decide) hlen
  have h3 : (256 : Nat) ^ 255 ≤ 2 ^ 2047 := by decide +kernel
  have h4 := hk.1
  omega

/-- What was encrypted is decrypted to the number that it was. -/
theorem crypt {k : Key} (hk : Proper k) {bs : List Nat} (h : toNum bs < k.n) :
    ∃ c, encrypt k.public bs = .ok c ∧ k.decrypt c = .ok (fromNum (toNum bs)) := by
  obtain ⟨hb, p, q, j, hp, hq, hpq, hn, hj⟩ := hk
  refine ⟨fromNum (toNum bs ^ k.e % k.n), ?_, ?_⟩
  · unfold encrypt Key.public
    rw [if_neg (Nat.not_le.2 h)]
  · unfold Key.decrypt
    rw [toNum_fromNum, if_neg (Nat.not_le.2 (Nat.mod_lt _ (by omega))), rsa hp hq hpq hn hj h]

theorem crypt_bytes {k : Key} (hk : Proper k) {b : Nat} {bs : List Nat} (hb : b ≠ 0) (h : ∀ x ∈ b :: bs, x < 256)
    (hlen : (b :: bs).length ≤ 255) :
    ∃ c, encrypt k.public (b :: bs) = .ok c ∧ k.decrypt c = .ok (b :: bs) := by
  obtain ⟨c, h1, h2⟩ := crypt hk (proper_fits hk h hlen)
  refine ⟨c, h1, h2.trans ?_⟩
  have := toNum_pos hb bs
  unfold fromNum
  rw [if_neg (by omega), digits_toNum b hb bs h]

theorem encode_ascii (t : Str) : (∀ x ∈ t, x.toNat < 128) → Stream.encode t = t.map Char.toNat := by
  induction t with
  | nil => intro _; rfl
  | cons c t ih =>
    intro h
    have hc : c.toNat < 0x80 := h c (by simp)
    rw [Stream.encode_cons, ih fun x hx => h x (by simp [hx])]
    unfold Stream.encodeChar
    dsimp only
    rw [if_pos hc]
    rfl

theorem enc_utf8 {enc : Enc} {t : Str} (h : enc = .utf8 ∨ ∀ x ∈ t, x.toNat < 128) :
    enc.encode t = .ok (Stream.encode t) := by
  rcases h with rfl | h
  · rfl
  · rw [encode_ascii t h]
    cases enc with
    | utf8 => exact congrArg _ (encode_ascii t h)
    | latin1 =>
      refine if_pos ?_
      rw [List.all_eq_true]
      intro x hx
      have := h x hx
      exact decide_eq_true (by omega)
    | ascii =>
      refine if_pos ?_
      rw [List.all_eq_true]
      intro x hx
      exact decide_eq_true (h x hx)

theorem new_encrypted {l : Lib} {k : Nat × Nat} {enc : Enc} {t : Str} {bs c : List Nat} (h1 : enc.encode t = .ok bs)
    (h2 : encrypt k bs = .ok c) :
    (Provider.new k).encrypted l enc t = (.ok (some c), ⟨k, some c, some (l.sha bs), 1⟩) := by
  unfold Provider.encrypted Provider.ask Provider.new
  simp only [h1, h2]

/-- **C130, part 1.** A password that is not empty, has no NUL at the front and at most 255 bytes, and was typed on a terminal with
UTF-8 or has only ASCII characters, is asked for once, and reaches sudo as it was typed, with a newline, whatever the key is.

Missing: other passwords, see `C130_empty_violated`, `C130_encoding_violated` and `C130_long`. -/
theorem C130_delivered_partial (l : Lib) (k : Key) (hk : Proper k) (enc : Enc) (c : Char) (t : Str)
    (henc : enc = .utf8 ∨ ∀ x ∈ c :: t, x.toNat < 128) (hc : c ≠ '\x00') (hlen : (Stream.encode (c :: t)).length ≤ 255) :
    ∃ x p, (Provider.new k.public).encrypted l enc (c :: t) = (.ok (some x), p) ∧ p.asked = 1 ∧
      p.passphrase = some (l.sha (Stream.encode (c :: t))) ∧ decryptPassword k x = .ok (c :: t) ∧
      sudoInput k x = .ok (Stream.encode (c :: t) ++ [10]) := by
  obtain ⟨b, bs, hb, hz⟩ := encode_head hc t
  have hlt := encode_lt (c :: t)
  rw [hb] at hlt hlen
  obtain ⟨x, h1, h2⟩ := crypt_bytes hk hz hlt hlen
  rw [← hb] at h1 h2
  have h3 : decryptPassword k x = .ok (c :: t) := by
    unfold decryptPassword
    simp only [h2, Stream.decode_encode]
  refine ⟨x, _, new_encrypted (enc_utf8 henc) h1, rfl, rfl, h3, ?_⟩
  unfold sudoInput
  simp only [h3]
  rw [Stream.encode_append]
  rfl

/-- A hexadecimal digest of SHA-512. -/
def Digest (t : Str) : Prop := t.length = 128 ∧ ∀ x ∈ t, x ∈ "0123456789abcdef".toList

theorem digest_ascii {t : Str} (h : Digest t) : ∀ x ∈ t, x.toNat < 128 ∧ x ≠ '\x00' := by
  intro x hx
  have := h.2 x hx
  revert this
  revert x
  have : ∀ x ∈ "0123456789abcdef".toList, x.toNat < 128 ∧ x ≠ '\x00' := by decide
  intro x _ h
  exact this x h

/-- The passphrase gets to the one who has the temporary key. -/
theorem passed {p : Provider} {w : Str} (hp : p.passphrase = some w) (hw : Digest w) {t : Key} (ht : Proper t) :
    ∃ c, p.masterPassphrase t.public = .ok c ∧
      Ephemeral.decrypt (some t) c = (.ok (Stream.encode w), none) := by
  cases w with
  | nil => exact absurd hw.1 (by decide)
  | cons a w =>
    have ha := digest_ascii hw
    obtain ⟨b, bs, hb, hz⟩ := encode_head (ha a (by simp)).2 w
    have hlt := encode_lt (a :: w)
    have hlen : (Stream.encode (a :: w)).length ≤ 255 := by
      rw [encode_ascii _ fun x hx => (ha x hx).1, List.length_map, hw.1]
      decide
    rw [hb] at hlt hlen
    obtain ⟨c, h1, h2⟩ := crypt_bytes ht hz hlt hlen
    rw [← hb] at h1 h2
    refine ⟨c, ?_, ?_⟩
    · unfold Provider.masterPassphrase
      simp only [hp, h1]
    · unfold Ephemeral.decrypt
      simp only [h2]

/-- **C130, part 2.** A broker exports its key with the passphrase of a user. Another broker, made from what was exported and
the passphrase of a user who typed a password later, has the same key if the digest of the password is the same, and otherwise
cannot be made. Each passphrase travels under a temporary key. -/
theorem C130_restored (l : Lib) (hl : ∀ k w v, l.unlock (l.lock k w) v = if v = w then some k else none)
    (hs : ∀ bs, Digest (l.sha bs)) (k : Key) (p q : Provider) (a b : List Nat)
    (hp : p.passphrase = some (l.sha a)) (hq : q.passphrase = some (l.sha b)) (t u : Key) (ht : Proper t) (hu : Proper u) :
    ∃ x y v w, p.masterPassphrase t.public = .ok x ∧ Ephemeral.decrypt (some t) x = (.ok v, none) ∧
      q.masterPassphrase u.public = .ok y ∧ Ephemeral.decrypt (some u) y = (.ok w, none) ∧
      restore l (exportKey l k v) w = if l.sha b = l.sha a then .ok k else .error .passphrase := by
  obtain ⟨x, h1, h2⟩ := passed hp (hs a) ht
  obtain ⟨y, h3, h4⟩ := passed hq (hs b) hu
  refine ⟨x, y, _, _, h1, h2, h3, h4, ?_⟩
  unfold restore exportKey
  by_cases h : l.sha b = l.sha a
  · rw [hl, if_pos (by rw [h]), if_pos h]
  · rw [hl, if_neg (fun h' => h (Stream.encode_inj h')), if_neg h]

/-- What one can do with a temporary key. -/
inductive Use
  | «public» | decrypt (c : List Nat)

/-- Was it a use of the key, and did it work? -/
inductive Got
  | shown | plain (m : List Nat) | raised (e : Err)
deriving DecidableEq

/-- One use of a temporary key. -/
def use (x : Ephemeral) : Use → Got × Ephemeral
  | .public =>
    match Ephemeral.public x with
    | .ok _ => (.shown, x)
    | .error e => (.raised e, x)
  | .decrypt c =>
    match Ephemeral.decrypt x c with
    | (.ok m, y) => (.plain m, y)
    | (.error e, y) => (.raised e, y)

/-- Many uses of it. -/
def uses (x : Ephemeral) : List Use → List Got
  | [] => []
  | u :: us => (use x u).1 :: uses (use x u).2 us

theorem uses_none : ∀ us, uses none us = us.map fun _ => .raised .usedUp := by
  intro us
  induction us with
  | nil => rfl
  | cons u us ih => cases u <;> exact congrArg _ ih

theorem use_some (k : Key) (u : Use) :
    ((∃ m, (use (some k) u).1 = .plain m) ∧ (use (some k) u).2 = none) ∨
    ((¬ ∃ m, (use (some k) u).1 = .plain m) ∧ (use (some k) u).1 ≠ .raised .usedUp ∧ (use (some k) u).2 = some k) := by
  cases u with
  | «public» => right; exact ⟨(by rintro ⟨m, h⟩; cases h), (by intro h; cases h), rfl⟩
  | decrypt c =>
    by_cases h : k.n ≤ toNum c
    · have : k.decrypt c = .error .tooLarge := if_pos h
      right
      unfold use Ephemeral.decrypt
      simp only [this]
      exact ⟨(by rintro ⟨m, h⟩; cases h), (by intro h; cases h), trivial⟩
    · have : k.decrypt c = .ok (fromNum (toNum c ^ k.d % k.n)) := if_neg h
      left
      unfold use Ephemeral.decrypt
      simp only [this]
      exact ⟨⟨_, rfl⟩, trivial⟩

/-- **C130, part 3.** A temporary key decrypts once: in every sequence of uses, one is refused because the key is used up if and
only if something was decrypted before. -/
theorem C130_once (k : Key) (us : List Use) (i : Nat) (hi : i < us.length) :
    (uses (some k) us)[i]? = some (.raised .usedUp) ↔ ∃ j m, j < i ∧ (uses (some k) us)[j]? = some (.plain m) := by
  induction us generalizing i with
  | nil => exact absurd hi (by simp)
  | cons u us ih =>
    rw [uses]
    rcases use_some k u with ⟨⟨m, h1⟩, h2⟩ | ⟨h1, h2, h3⟩
    · rw [h2, uses_none, h1]
      cases i with
      | zero =>
        refine ⟨fun h => ?_, fun ⟨j, m, hj, _⟩ => absurd hj (by omega)⟩
        simp at h
      | succ i =>
        refine ⟨fun _ => ⟨0, m, by omega, rfl⟩, fun _ => ?_⟩
        rw [List.getElem?_cons_succ, List.getElem?_map, List.getElem?_eq_getElem (by simpa using hi)]
        rfl
    · rw [h3]
      cases i with
      | zero =>
        refine ⟨fun h => ?_, fun ⟨j, m, hj, _⟩ => absurd hj (by omega)⟩
        rw [List.getElem?_cons_zero, Option.some.injEq] at h
        exact absurd h h2
      | succ i =>
        rw [List.getElem?_cons_succ, ih i (by simpa using hi)]
        constructor
        · rintro ⟨j, m, hj, h⟩
          exact ⟨j + 1, m, by omega, by rw [List.getElem?_cons_succ]; exact h⟩
        · rintro ⟨j, m, hj, h⟩
          cases j with
          | zero =>
            rw [List.getElem?_cons_zero, Option.some.injEq] at h
            exact absurd ⟨m, h⟩ h1
          | succ j => exact ⟨j, m, by omega, by rw [List.getElem?_cons_succ] at h; exact h⟩

/-- The encrypted password, read again and again; the list says what the user would type each time. -/
def reads (l : Lib) (enc : Enc) (p : Provider) : List Str → List (Except Err (Option (List Nat))) × Provider
  | [] => ([], p)
  | t :: ts => ((p.encrypted l enc t).1 :: (reads l enc (p.encrypted l enc t).2 ts).1, (reads l enc (p.encrypted l enc t).2 ts).2)

/-- **C130, part 4.** Once there is an encrypted password, nobody is asked again, and it stays the same. -/
theorem C130_asked (l : Lib) (enc : Enc) (p q : Provider) (t : Str) (r : Option (List Nat))
    (h : p.encrypted l enc t = (.ok r, q)) :
    r.isSome ∧ q.asked ≤ p.asked + 1 ∧ (p.enc.isSome → q = p) ∧
      ∀ ts, reads l enc q ts = (ts.map fun _ => .ok r, q) := by
  have hq : r.isSome ∧ q.enc = r ∧ q.asked ≤ p.asked + 1 ∧ (p.enc.isSome → q = p) := by
    unfold Provider.encrypted at h
    cases hp : p.enc with
    | some c =>
      simp only [hp, Prod.mk.injEq, Except.ok.injEq] at h
      obtain ⟨rfl, rfl⟩ := h
      exact ⟨rfl, hp, by omega, fun _ => rfl⟩
    | none =>
      simp only [hp] at h
      unfold Provider.ask at h
      cases h1 : enc.encode t with
      | error e => simp only [h1] at h; cases h
      | ok bs =>
        simp only [h1] at h
        cases h2 : encrypt p.key bs with
        | error e => simp only [h2] at h; cases h
        | ok c =>
          simp only [h2, Prod.mk.injEq, Except.ok.injEq] at h
          obtain ⟨rfl, rfl⟩ := h
          exact ⟨rfl, rfl, Nat.le_refl _, fun h => by cases h⟩
  obtain ⟨h1, h2, h3, h4⟩ := hq
  refine ⟨h1, h3, h4, fun ts => ?_⟩
  obtain ⟨c, rfl⟩ := Option.isSome_iff_exists.1 h1
  have he : ∀ s, q.encrypted l enc s = (.ok (some c), q) := by
    intro s
    unfold Provider.encrypted
    simp only [h2]
  induction ts with
  | nil => rfl
  | cons s ts ih => rw [reads, he, ih]; rfl

/-- **C130, part 5.** A password that is too long for the key raises an exception, and the next time the user is asked again. -/
theorem C130_long (l : Lib) (k : Key) (enc : Enc) (t : Str) (b : Nat) (bs : List Nat) (h : enc.encode t = .ok (b :: bs))
    (hb : b ≠ 0) (hlen : k.n ≤ 256 ^ bs.length) :
    ∃ p, (Provider.new k.public).encrypted l enc t = (.error .tooLarge, p) ∧ p.asked = 1 ∧
      (p.encrypted l enc t).1 = .error .tooLarge ∧ (p.encrypted l enc t).2.asked = 2 := by
  have hbig : ∀ bs : List Nat, 256 ^ bs.length ≤ toNum (b :: bs) := by
    intro bs
    induction bs using List.reverseRecOn with
    | nil => simp [toNum]; omega
    | append_singleton m x ih =>
      have := toNum_snoc (b :: m) x
      rw [List.cons_append] at this
      rw [this, List.length_append, List.length_singleton, pow_succ]
      omega
  have he : encrypt k.public (b :: bs) = .error .tooLarge := if_pos (Nat.le_trans hlen (hbig bs))
  refine ⟨⟨k.public, none, some (l.sha (b :: bs)), 1⟩, ?_, rfl, ?_, ?_⟩
  all_goals
    unfold Provider.encrypted Provider.ask
    try unfold Provider.new
    simp only [h, he]

theorem toNum_pad (bs : List Nat) : toNum (0 :: bs) = toNum bs := by simp [toNum]

/-- **C130**, other characters: a password with a character that the encoding of the terminal does not have is asked for and
refused, and so it is the next time. -/
theorem C130_refused (l : Lib) (k : Key) (enc : Enc) (t : Str) (c : Char) (hc : c ∈ t)
    (h : enc = .ascii ∧ 128 ≤ c.toNat ∨ enc = .latin1 ∧ 256 ≤ c.toNat) :
    ∃ p, (Provider.new k.public).encrypted l enc t = (.error .unicode, p) ∧ p.asked = 1 ∧
      (p.encrypted l enc t).1 = .error .unicode ∧ (p.encrypted l enc t).2.asked = 2 := by
  have he : enc.encode t = .error .unicode := by
    rcases h with ⟨rfl, hb⟩ | ⟨rfl, hb⟩
    · have : ¬ (t.all fun c => decide (c.toNat < 128)) = true := by
        intro hall
        have := List.all_eq_true.mp hall c hc
        simp only [decide_eq_true_eq] at this
        omega
      simp only [Enc.encode, if_neg this]
    · have : ¬ (t.all fun c => decide (c.toNat < 256)) = true := by
        intro hall
        have := List.all_eq_true.mp hall c hc
        simp only [decide_eq_true_eq] at this
        omega
      simp only [Enc.encode, if_neg this]
  refine ⟨((Provider.new k.public).encrypted l enc t).2, ?_⟩
  simp [Provider.encrypted, Provider.new, Provider.ask, he]

example : 'é' ∈ "caffé".toList ∧ 128 ≤ 'é'.toNat := by decide

/-- **C130, violated.** The empty password reaches sudo as a NUL. -/
theorem C130_empty_violated (l : Lib) (k : Key) (hk : Proper k) (enc : Enc) :
    ∃ x p, (Provider.new k.public).encrypted l enc [] = (.ok (some x), p) ∧ sudoInput k x = .ok [0, 10] ∧
      [0, 10] ≠ Stream.encode [] ++ [10] := by
  obtain ⟨c, h1, h2⟩ := crypt hk (proper_fits hk (bs := []) (by simp) (by simp))
  have h0 : fromNum (toNum []) = [0] := by unfold fromNum toNum; rfl
  refine ⟨c, _, new_encrypted (bs := []) (by cases enc <;> rfl) h1, ?_, by decide⟩
  unfold sudoInput decryptPassword
  simp only [h2, h0]
  rfl

/-- **C130, violated.** On a terminal with Latin-1, a password that UTF-8 cannot be read from raises an exception when a command is
run, and another one is taken for a third one. -/
theorem C130_encoding_violated (l : Lib) (k : Key) (hk : Proper k) :
    (∃ x p, (Provider.new k.public).encrypted l .latin1 "é".toList = (.ok (some x), p) ∧ sudoInput k x = .error .unicode) ∧
    (∃ x p, (Provider.new k.public).encrypted l .latin1 "Ã©".toList = (.ok (some x), p) ∧
      sudoInput k x = .ok (Stream.encode "é".toList ++ [10])) := by
  constructor
  · obtain ⟨c, h1, h2⟩ := crypt_bytes hk (b := 233) (bs := []) (by decide) (by decide) (by decide)
    refine ⟨c, _, new_encrypted (bs := [233]) (by rfl) h1, ?_⟩
    unfold sudoInput decryptPassword
    simp only [h2]
    rfl
  · obtain ⟨c, h1, h2⟩ := crypt_bytes hk (b := 195) (bs := [169]) (by decide) (by decide) (by decide)
    refine ⟨c, _, new_encrypted (bs := [195, 169]) (by rfl) h1, ?_⟩
    unfold sudoInput decryptPassword
    simp only [h2]
    rfl

/-- **C130, violated.** The passphrase cannot be had before the user was asked for the password. -/
theorem C130_early_violated (k t : Key) : (Provider.new k.public).masterPassphrase t.public = .error .attribute := rfl

/-! ## Examples -/

/-- A key, from two Mersenne primes. -/
def exKey : Key :=
  ⟨(2 ^ 521 - 1) * (2 ^ 2203 - 1), 65537, (33256 * ((2 ^ 521 - 1 - 1) * (2 ^ 2203 - 1 - 1)) + 1) / 65537⟩

theorem exKey_proper : Proper exKey := by
  refine ⟨by decide +kernel, 2 ^ 521 - 1, 2 ^ 2203 - 1, 33256, ?_, ?_, by decide +kernel, rfl, by decide +kernel⟩
  · exact lucas_lehmer_sufficiency 521 (by norm_num) (by norm_num)
  · exact lucas_lehmer_sufficiency 2203 (by norm_num) (by norm_num)

/-- A library: a locked key is the key with the passphrase. -/
def exLib : Lib where
  Pem := Key × List Nat
  lock k w := (k, w)
  unlock x v := if v = x.2 then some x.1 else none
  sha bs := List.replicate 127 'a' ++ [if bs.length = 3 then 'b' else 'c']

theorem exLib_digest (bs : List Nat) : Digest (exLib.sha bs) := by
  unfold Digest exLib
  dsimp only
  split <;> decide +kernel

-- A password with a letter that is not ASCII.
example : ∃ x p, (Provider.new exKey.public).encrypted exLib .utf8 "zażółć".toList = (.ok (some x), p) ∧ p.asked = 1 ∧
    p.passphrase = some (exLib.sha (Stream.encode "zażółć".toList)) ∧ decryptPassword exKey x = .ok "zażółć".toList ∧
    sudoInput exKey x = .ok (Stream.encode "zażółć".toList ++ [10]) :=
  C130_delivered_partial exLib exKey exKey_proper .utf8 'z' "ażółć".toList (.inl rfl) (by decide) (by decide +kernel)

-- The same password later: the broker is restored; another password: it is not.
example : ∃ x y v w, Provider.masterPassphrase ⟨exKey.public, none, some (exLib.sha [1, 2, 3]), 1⟩ exKey.public = .ok x ∧
    Ephemeral.decrypt (some exKey) x = (.ok v, none) ∧
    Provider.masterPassphrase ⟨exKey.public, none, some (exLib.sha [1, 2]), 1⟩ exKey.public = .ok y ∧
    Ephemeral.decrypt (some exKey) y = (.ok w, none) ∧
    restore exLib (exportKey exLib exKey v) w =
      if exLib.sha [1, 2] = exLib.sha [1, 2, 3] then .ok exKey else .error .passphrase :=
  C130_restored exLib (fun _ _ _ => rfl) exLib_digest exKey _ _ [1, 2, 3] [1, 2] rfl rfl exKey exKey exKey_proper exKey_proper

example : exLib.sha [1, 2] ≠ exLib.sha [1, 2, 3] := by decide +kernel

-- The public key is shown, something that is too long is refused, something is decrypted, and that was it.
example : uses (some ⟨33, 3, 7⟩) [.public, .decrypt [200], .decrypt [8], .decrypt [8], .public] =
    [.shown, .raised .tooLarge, .plain [2], .raised .usedUp, .raised .usedUp] := by decide +kernel

-- A user who mistypes twice, with a small key: "é" is not ASCII, "zzzz" is too long.
example : reads exLib .ascii (Provider.new (251 * 241, 7)) ["é".toList, "zzzz".toList, "a".toList, "b".toList] =
    ([.error .unicode, .error .tooLarge, .ok (some [152, 7]), .ok (some [152, 7])],
      ⟨(251 * 241, 7), some [152, 7], some (exLib.sha [97]), 3⟩) := by
  decide +kernel

example : ∃ p, (Provider.new (Key.public ⟨33, 3, 7⟩)).encrypted exLib .utf8 "abc".toList = (.error .tooLarge, p) ∧ p.asked = 1 ∧
    (p.encrypted exLib .utf8 "abc".toList).1 = .error .tooLarge ∧ (p.encrypted exLib .utf8 "abc".toList).2.asked = 2 :=
  C130_long exLib ⟨33, 3, 7⟩ .utf8 "abc".toList 97 [98, 99] rfl (by decide) (by decide)

end Verif.Password
