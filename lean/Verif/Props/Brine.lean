import Verif.Lemmas.Brine

/-!
# C79: messages between a service and its clients arrive unchanged

For every value, every way in which the socket accepts and delivers bytes and every failure of the connection:
what is sent is what arrives, whole, in order and once.
-/

namespace Verif.Brine

/-- Numbers, texts and sequences of a size for which there is a length field, and texts without surrogates. -/
inductive Fits : Val → Prop
  | none : Fits .none
  | notImplemented : Fits .notImplemented
  | ellipsis : Fits .ellipsis
  | bool (b : Bool) : Fits (.bool b)
  | int (i : Int) (k : Nat) : i.natAbs < 10 ^ k → k + 2 ≤ 2 ^ 32 → Fits (.int i)
  | float (x : UInt64) : Fits (.float x)
  | complex (x y : UInt64) : Fits (.complex x y)
  | bytes (l : Bytes) : l.length < 2 ^ 32 → Fits (.bytes l)
  | str (l : List Nat) : (∀ c ∈ l, Scalar c) → 4 * l.length < 2 ^ 32 → Fits (.str l)
  | tup (l : List Val) : (∀ v ∈ l, Fits v) → l.length < 2 ^ 32 → Fits (.tup l)
  | fset (l : List Val) : (∀ v ∈ l, Fits v) → l.length < 2 ^ 32 → Fits (.fset l)
  | slice (a b c : Val) : Fits a → Fits b → Fits c → Fits (.slice a b c)

/-- A value for the examples: a request with a text of four kinds of characters, numbers of all sizes, a set. -/
def exVal : Val :=
  .tup [.int 1, .int 1000, .int (-70000), .str [0x61, 0xe9, 0x20ac, 0x1f600], .fset [.bool true, .none],
    .slice .none (.int 3) .none, .bytes [1, 2, 3, 4, 5], .float 4607182418800017408]

/-- Other types, for the examples. -/
def exEnv : Env := ⟨fun _ => .error .value, fun _ => .error .overflow⟩

/-- **C79 (round trip).** Whatever `dump` gives for a value, `load` gives the value back, and reads nothing of
what follows. -/
theorem C79_roundtrip (env : Env) (v : Val) (hv : Proper v) (b : Bytes) (h : dump v = .ok b) :
    loads env b = .ok v ∧ ∀ r f, b.length ≤ f → load env f (b ++ r) = .ok (v, r) :=
  ⟨loads_dump env v hv b h, fun r f hf => (load_dump env v hv b h).2 f r hf⟩

theorem exVal_proper : Proper exVal := by
  simp [exVal, Proper, ProperAll, SlicedAny, Sliced]

example : ∃ b, dump exVal = .ok b ∧ b.length = 55 ∧ loads exEnv b = .ok exVal := by
  have hl : (dump exVal).toOption.map List.length = some 55 := by decide +kernel
  cases h : dump exVal with
  | error e => rw [h] at hl; cases hl
  | ok b =>
    rw [h] at hl
    exact ⟨b, rfl, Option.some.inj hl, (C79_roundtrip exEnv exVal exVal_proper b h).1⟩

/-- **C79 (no confusion).** No dump is the beginning of another one: two values with the same bytes, or one
whose bytes begin with those of the other, are the same value. -/
theorem C79_prefix_free (v w : Val) (hv : Proper v) (hw : Proper w) (b r : Bytes) (h1 : dump v = .ok b)
    (h2 : dump w = .ok (b ++ r)) : v = w ∧ r = [] := by
  have e1 := (load_dump exEnv v hv b h1).2 (b.length + r.length) r (by omega)
  have e2 := (load_dump exEnv w hw _ h2).2 (b.length + r.length) [] (by rw [List.length_append]; omega)
  rw [List.append_nil, e1] at e2
  cases e2
  exact ⟨rfl, rfl⟩

example : dump (.int 1) = .ok [0x51] ∧ dump (.tup [.int 1]) = .ok [0x10, 0x51] ∧ dump (.bytes [0x31]) = .ok [0x0a, 0x31] ∧
    dump (.str [0x31]) = .ok [0x08, 0x0a, 0x31] := by decide +kernel

/-- **C79 (only plain values).** Whatever bytes are loaded, the result consists of plain values only: no bytes
that a peer sends make `load` give an object of another type. -/
theorem C79_plain (env : Env) (data : Bytes) (v : Val) (h : loads env data = .ok v) : dumpable v = true := by
  obtain ⟨⟨w, r⟩, h1, rfl⟩ := map_ok h
  exact load_dumpable env _ _ _ _ h1

example : loads exEnv [0x11, 0x08, 0x0a, 0x61, 0x16, 0x03, 0x31, 0x30, 0x30] = .ok (.tup [.str [0x61], .int 100]) := by
  rfl

theorem encode_length : ∀ (l : List Nat) (b : Bytes), encode l = .ok b → b.length ≤ 4 * l.length
  | [], b, h => by cases h; simp
  | c :: l, b, h => by
    unfold encode at h
    split at h
    · rename_i x r hx hr
      cases h
      have := encode_length l r hr
      have hx4 : x.length ≤ 4 := by
        unfold encode1 at hx
        repeat' split at hx
        all_goals first | (cases hx; simp; done) | cases hx
      rw [List.length_append, List.length_cons]
      omega
    · cases h
    · cases h

theorem dumpAll_ok : ∀ (l : List Val), (∀ v ∈ l, ∃ b, dump v = .ok b) → ∃ b, dumpAll l = .ok b
  | [], _ => ⟨_, rfl⟩
  | v :: l, h => by
    obtain ⟨x, hx⟩ := h v (List.mem_cons_self ..)
    obtain ⟨y, hy⟩ := dumpAll_ok l fun w hw => h w (List.mem_cons_of_mem _ hw)
    exact ⟨x ++ y, by unfold dumpAll; rw [hx, hy]⟩

/-- **C79 (`dumpable`), full statement.**  "`True` if the object is dumpable (e.g., `dump` would succeed), `False`
otherwise." -/
def DumpableStatement : Prop := ∀ v, dumpable v = true ↔ ∃ b, dump v = .ok b

/-- **C79 (`dumpable`), partial.** Plain values whose texts have no surrogates and whose sizes fit can be dumped.
Missing: other texts and larger values are declared dumpable, too. -/
theorem C79_dumpable_partial (v : Val) (h : Fits v) : dumpable v = true ∧ ∃ b, dump v = .ok b := by
  induction h with
  | none => exact ⟨rfl, _, rfl⟩
  | notImplemented => exact ⟨rfl, _, rfl⟩
  | ellipsis => exact ⟨rfl, _, rfl⟩
  | bool b => exact ⟨rfl, _, rfl⟩
  | int i k h1 h2 =>
    refine ⟨rfl, dumpInt_fits.2 (Or.inr ?_)⟩
    have hk : i.natAbs < 10 ^ (k + 1) := Nat.lt_of_lt_of_le h1 (Nat.pow_le_pow_right (by decide) (by omega))
    cases k with
    | zero =>
      have := decimal_length i 1 (by omega) hk
      omega
    | succ k =>
      have := decimal_length i (k + 1) (by omega) h1
      omega
  | float x => exact ⟨rfl, _, rfl⟩
  | complex x y => exact ⟨rfl, _, rfl⟩
  | bytes l h => exact ⟨rfl, dumpBytes_fits.2 h⟩
  | str l h1 h2 =>
    refine ⟨rfl, ?_⟩
    obtain ⟨u, hu⟩ := (encode_ok l).2 h1
    have := encode_length l u hu
    obtain ⟨b, hb⟩ := dumpBytes_fits.2 (show u.length < 2 ^ 32 by omega)
    exact ⟨0x08 :: b, by unfold dump; rw [hu]; simp only [hb]⟩
  | tup l _ h2 ih =>
    obtain ⟨x, hx⟩ := tupHead_fits.2 h2
    obtain ⟨y, hy⟩ := dumpAll_ok l fun v hv => (ih v hv).2
    exact ⟨(dumpableAll_iff l).2 fun v hv => (ih v hv).1, x ++ y, by unfold dump; rw [hx, hy]⟩
  | fset l _ h2 ih =>
    obtain ⟨x, hx⟩ := tupHead_fits.2 h2
    obtain ⟨y, hy⟩ := dumpAll_ok l fun v hv => (ih v hv).2
    exact ⟨(dumpableAll_iff l).2 fun v hv => (ih v hv).1, 0x1a :: (x ++ y), by unfold dump; rw [hx, hy]⟩
  | slice a b c _ _ _ ha hb hc =>
    obtain ⟨ha, x, hx⟩ := ha
    obtain ⟨hb, y, hy⟩ := hb
    obtain ⟨hc, w, hw⟩ := hc
    exact ⟨by simp only [dumpable, ha, hb, hc, Bool.and_true], _, by unfold dump; rw [hx, hy, hw]⟩

example : Fits exVal := by
  refine .tup _ ?_ (by decide)
  intro v hv
  simp only [List.mem_cons, List.not_mem_nil, or_false] at hv
  rcases hv with rfl | rfl | rfl | rfl | rfl | rfl | rfl | rfl
  · exact .int _ 1 (by decide) (by decide)
  · exact .int _ 4 (by decide) (by decide)
  · exact .int _ 5 (by decide) (by decide)
  · refine .str _ ?_ (by decide)
    intro c hc
    simp only [List.mem_cons, List.not_mem_nil, or_false] at hc
    unfold Scalar
    omega
  · refine .fset _ ?_ (by decide)
    intro v hv
    simp only [List.mem_cons, List.not_mem_nil, or_false] at hv
    rcases hv with rfl | rfl
    · exact .bool _
    · exact .none
  · exact .slice _ _ _ .none (.int _ 1 (by decide) (by decide)) .none
  · exact .bytes _ (by decide)
  · exact .float _

mutual

/-- **C79 (what is dumped is dumpable).** -/
theorem C79_dumpable_of_dump : ∀ (v : Val) (b : Bytes), dump v = .ok b → dumpable v = true
  | .none, _, _ => rfl
  | .notImplemented, _, _ => rfl
  | .ellipsis, _, _ => rfl
  | .bool _, _, _ => rfl
  | .int _, _, _ => rfl
  | .float _, _, _ => rfl
  | .complex _ _, _, _ => rfl
  | .bytes _, _, _ => rfl
  | .str _, _, _ => rfl
  | .tup l, b, h => by
    unfold dump at h
    split at h
    · rename_i y _ hy; exact dumpableAll_of_dump l y hy
    · cases h
    · cases h
  | .fset l, b, h => by
    unfold dump at h
    split at h
    · rename_i y _ hy; exact dumpableAll_of_dump l y hy
    · cases h
    · cases h
  | .slice p q s, b, h => by
    unfold dump at h
    split at h
    · rename_i x y w hx hy hw
      simp only [dumpable, C79_dumpable_of_dump p x hx, C79_dumpable_of_dump q y hy, C79_dumpable_of_dump s w hw, Bool.and_true]
    · cases h
    · cases h
    · cases h
  | .other, b, h => by cases h

theorem dumpableAll_of_dump : ∀ (l : List Val) (b : Bytes), dumpAll l = .ok b → dumpableAll l = true
  | [], _, _ => rfl
  | v :: l, b, h => by
    unfold dumpAll at h
    split at h
    · rename_i x y hx hy
      simp only [dumpableAll, C79_dumpable_of_dump v x hx, dumpableAll_of_dump l y hy, Bool.and_true]
    · cases h
    · cases h

end

example : dumpable (.tup [.int 1, .slice .none .other .none]) = false ∧ dumpable exVal = true := by decide

/-- **C79 (violation).** A text with a surrogate — such as the name of a file that is not valid UTF-8 — and every
sequence of four gigabytes are declared dumpable, but dumping them raises.  (`_box` then chooses to send them by
value, and the reply that contains them is never sent.) -/
theorem C79_dumpable_violated : ¬ DumpableStatement ∧
    (∀ l c, 0xD800 ≤ c → c < 0xE000 → c ∈ l → dumpable (.str l) = true ∧ dump (.str l) = .error .encode) ∧
    (∀ l : Bytes, 2 ^ 32 ≤ l.length → dumpable (.bytes l) = true ∧ ¬ ∃ b, dump (.bytes l) = .ok b) := by
  have hs : ∀ l c, 0xD800 ≤ c → c < 0xE000 → c ∈ l → dumpable (.str l) = true ∧ dump (.str l) = .error .encode := by
    intro l c h1 h2 hc
    refine ⟨rfl, ?_⟩
    have he : ∀ (l : List Nat) e, encode l = .error e → e = .encode := by
      intro l
      induction l with
      | nil => intro e h; cases h
      | cons d l ih =>
        intro e h
        unfold encode at h
        split at h
        · cases h
        · cases h; rfl
        · rename_i hl _; cases h; exact ih _ hl
    unfold dump
    cases hx : encode l with
    | error e => rw [he l e hx]
    | ok b => exact absurd ((encode_ok l).1 ⟨b, hx⟩ c hc) fun h => h.2 ⟨h1, h2⟩
  refine ⟨fun h => ?_, hs, fun l hl => ⟨rfl, fun h => ?_⟩⟩
  · obtain ⟨b, hb⟩ := (h (.str [0xDC80])).1 rfl
    rw [(hs [0xDC80] 0xDC80 (by omega) (by omega) (by simp)).2] at hb
    cases hb
  · have := dumpBytes_fits.1 h; omega

/-- **C79 (violation).** Bytes that end too early are not noticed: they are loaded as another value. -/
theorem C79_truncated_violated (env : Env) :
    (∃ b, dump (.bytes [1, 2, 3]) = .ok (b ++ [3]) ∧ loads env b = .ok (.bytes [1, 2])) ∧
    (∃ b, dump (.int 1234) = .ok (b ++ [0x34]) ∧ loads env b = .ok (.int 123)) :=
  ⟨⟨[0x0c, 1, 2], by decide +kernel, rfl⟩, ⟨[0x16, 4, 0x31, 0x32, 0x33], by decide +kernel, rfl⟩⟩

/-- **C79 (messages).** Some messages are sent, over a socket that accepts bytes as it likes and may fail at any
time.  Messages that cannot be dumped raise and leave no trace.  When the bytes, or a part of them because the
connection breaks, arrive in any pieces with any pauses between them, then exactly the first of the messages whose
sending returned are received, unchanged, in order and once; then nothing comes or `EOFError` is raised.  When
all bytes arrive these are all such messages. -/
theorem C79_messages (z : Zlib) (hz : ∀ d, z.decompress (z.compress d) = some d) (env : Env) (compress : Bool)
    (vs : List Val) (hv : ∀ v ∈ vs, Proper v) (o : List Out) (n : Nat) (i : List In)
    (hi : flat i <+: (sendAll z compress vs (some o)).1) :
    ∃ k t, k ≤ (went vs (sendAll z compress vs (some o)).2).length ∧ (t = [] ∨ t = [.eof] ∨ t = [.blocked]) ∧
      recvAll z env n (some i) = ((went vs (sendAll z compress vs (some o)).2).take k).map .ok ++ t ∧
      (flat i = (sendAll z compress vs (some o)).1 → k = min n (went vs (sendAll z compress vs (some o)).2).length) := by
  refine recvAll_wire hz env (sendAll_wire z compress vs o) (fun v h => hv v ?_) n i hi
  obtain ⟨p, hp, he⟩ := List.mem_filterMap.1 h
  split at he
  · cases he; exact (List.of_mem_zip hp).1
  · cases he

/-- Not compressing, for the examples. -/
def exZ : Zlib := ⟨fun d => d, some⟩

/-- The socket accepts two bytes and then six, nothing and five more and then fails; the second message cannot be
dumped, the fourth is sent in part; the receiver reads pieces with pauses. -/
example : (sendAll exZ true [.int 7, .other, .bool true, .str [0x61, 0x62]] (some [.sent 2, .sent 60, .sent 0, .sent 5, .sent 9, .sent 4, .fail])) =
      ([0, 0, 0, 1, 0, 0x57, 10, 0, 0, 0, 1, 0, 3, 10, 0, 0, 0, 4], [true, false, true, false]) ∧
    recvAll exZ exEnv 5 (some [.data [0, 0, 0, 1], .again, .data [0, 0x57, 10, 0, 0], .data [0, 1, 0, 3, 10, 0, 0], .eof]) =
      [.ok (.int 7), .ok (.bool true), .eof] := by
  constructor <;> rfl

/-- **C79 (sending works).** Messages that can be dumped are all sent when the socket goes on accepting bytes. -/
theorem C79_sent (z : Zlib) (compress : Bool) (B : Nat) (vs : List Val) (o : List Out)
    (hv : ∀ v ∈ vs, ∃ d b, dump v = .ok d ∧ frame z compress d = .ok b ∧ b.length ≤ B)
    (ho : ∀ x ∈ o, ∃ n, 0 < n ∧ x = Out.sent n) (hl : vs.length * B ≤ o.length) :
    (sendAll z compress vs (some o)).2 = (vs.map fun _ => true) ∧
      went vs (sendAll z compress vs (some o)).2 = vs := by
  have h := sendAll_all z compress B vs o hv ho hl
  refine ⟨h, ?_⟩
  rw [h]
  clear h hl hv
  induction vs with
  | nil => rfl
  | cons v vs ih =>
    have : went (v :: vs) ((v :: vs).map fun _ => true) = v :: went vs (vs.map fun _ => true) := rfl
    rw [this, ih]

example : (sendAll exZ true [.int 7, .bool true] (some (List.replicate 14 (.sent 1)))).2 = [true, true] := by rfl

/-- **C79 (a broken connection stays broken).** After the first message whose sending raised `EOFError`, no byte of a
later one is sent. -/
theorem C79_closed (z : Zlib) (compress : Bool) (vs : List Val) :
    (sendAll z compress vs none).1 = [] ∧ went vs (sendAll z compress vs none).2 = [] := by
  rw [sendAll_closed]
  exact ⟨rfl, went_false vs⟩

example : sendAll exZ true [.int 7, .bool true, .none] (some [.sent 7, .fail, .sent 100, .sent 100]) =
    ([0, 0, 0, 1, 0, 0x57, 10], [true, false, false]) := by rfl

end Verif.Brine
