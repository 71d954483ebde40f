import Verif.Lemmas.Flat
import Verif.Props.Junit

/-! # C101: what the log of a command says as text

Specification. `Reads` is the reading of bytes as UTF-8 that the Unicode standard recommends: characters as they are, and one
U+FFFD for every part that is not a character: a byte that no character begins with, or the longest beginning of a character
that does not go on. `Plain` are the characters that are not control characters, and the four that stay. -/

namespace Verif.Flat

open Verif.Checksum (Str)
open Verif.Stream (encode encodeChar encodeChar_ne)

/-- Does some character begin with these bytes? -/
def Begins (m : List Nat) : Prop := ∃ c s, encodeChar c = m ++ s

/-- The reading of bytes as text. -/
inductive Reads : List Nat → Str → Prop
  | nil : Reads [] []
  | char (c : Char) {r t} : Reads r t → Reads (encodeChar c ++ r) (c :: t)
  | part (m : List Nat) {r t} : m ≠ [] → Begins m → (∀ c, m ≠ encodeChar c) →
      (∀ b r', r = b :: r' → ¬ Begins (m ++ [b])) → Reads r t → Reads (m ++ r) (Char.ofNat 0xFFFD :: t)
  | byte (b : Nat) {r t} : ¬ Begins [b] → Reads r t → Reads (b :: r) (Char.ofNat 0xFFFD :: t)

/-- The characters that stay: those that are not control characters (U+0000 to U+001F, U+007F to U+009F), and tab, newline,
vertical tab and carriage return. -/
def Plain (c : Char) : Prop :=
  (0x20 ≤ c.toNat ∧ ¬ (0x7F ≤ c.toNat ∧ c.toNat ≤ 0x9F)) ∨ c.toNat = 9 ∨ c.toNat = 10 ∨ c.toNat = 11 ∨ c.toNat = 13

instance (c : Char) : Decidable (Plain c) := by unfold Plain; infer_instance

/-- All bytes of the log, in order. -/
def said (log : List IOLog.Rec) : List Nat := (log.flatMap (·.data)).map (·.val)

theorem begins_prefix {m : List Nat} : (∃ c, m <+: encodeChar c) ↔ Begins m :=
  ⟨fun ⟨c, s, h⟩ => ⟨c, s, h.symm⟩, fun ⟨c, s, h⟩ => ⟨c, s, h.symm⟩⟩

theorem begins_char (c : Char) : Begins (encodeChar c) := ⟨c, [], (List.append_nil _).symm⟩

theorem begins_left {m s : List Nat} : Begins (m ++ s) → Begins m :=
  fun ⟨c, u, h⟩ => ⟨c, s ++ u, by rw [h, List.append_assoc]⟩

theorem control_iff (c : Char) : (!control c) = true ↔ Plain c := by
  have h1 : ('\n' : Char).toNat = 10 := rfl
  have key : (['\n', '\r', '\t', '\x0b'].contains c) = true ↔
      c.toNat = 10 ∨ c.toNat = 13 ∨ c.toNat = 9 ∨ c.toNat = 11 := by
    have hi : ∀ d : Char, c = d ↔ c.toNat = d.toNat := fun d => ⟨fun h => by rw [h], fun h => Char.toNat_inj.1 h⟩
    rw [List.contains_iff_mem]
    simp only [List.mem_cons, List.not_mem_nil, or_false]
    rw [hi, hi, hi, hi]
    exact Iff.rfl
  unfold control Plain
  cases hk : ['\n', '\r', '\t', '\x0b'].contains c with
  | true =>
    have := key.1 hk
    simp
    omega
  | false =>
    have : ¬ (c.toNat = 10 ∨ c.toNat = 13 ∨ c.toNat = 9 ∨ c.toNat = 11) := fun h => by rw [key.2 h] at hk; cases hk
    simp
    omega

theorem sub_eq (t : Str) : sub t = t.filter fun c => decide (Plain c) := by
  unfold sub
  congr 1
  funext c
  rw [Bool.eq_iff_iff, control_iff, decide_eq_true_iff]

theorem reads_encode (t : Str) : ∀ {r u}, Reads r u → Reads (encode t ++ r) (t ++ u) := by
  induction t with
  | nil => intro r u h; exact h
  | cons c t ih =>
    intro r u h
    rw [Stream.encode_cons, List.append_assoc]
    exact Reads.char c (ih h)

/-- The reading of bytes is unique. -/
theorem reads_unique {bs : List Nat} {t : Str} (h : Reads bs t) : ∀ {t'}, Reads bs t' → t = t' := by
  induction h with
  | nil =>
    intro t' h'
    generalize hb : ([] : List Nat) = bs at h'
    cases h' with
    | nil => rfl
    | char c h => exact absurd (List.append_eq_nil_iff.1 hb.symm).1 (encodeChar_ne c)
    | part m hm => exact absurd (List.append_eq_nil_iff.1 hb.symm).1 hm
    | byte b => cases hb
  | @char c r t _ ih =>
    intro t' h'
    generalize hb : encodeChar c ++ r = bs at h'
    cases h' with
    | nil => exact absurd (List.append_eq_nil_iff.1 hb).1 (encodeChar_ne c)
    | @char d r' _ h' =>
      have : c = d := by
        rcases List.append_eq_append_iff.1 hb with ⟨u, hu, _⟩ | ⟨u, hu, _⟩
        · exact (prefix_free hu).1
        · exact (prefix_free hu).1.symm
      subst this
      rw [ih ((List.append_cancel_left hb) ▸ h')]
    | @part m r' _ hm hs hne hn h' =>
      exfalso
      rcases List.append_eq_append_iff.1 hb with ⟨u, hu, _⟩ | ⟨u, hu, hr⟩
      · obtain ⟨d, s, hd⟩ := hs
        have := prefix_free (c := c) (d := d) (s := u ++ s) (by rw [hd, hu, List.append_assoc])
        rw [(List.append_eq_nil_iff.1 this.2).1, List.append_nil] at hu
        exact hne c hu
      · cases u with
        | nil => exact hne c (by rw [hu, List.append_nil])
        | cons x xs => exact hn x _ hr ⟨c, xs, by rw [hu]; simp⟩
    | @byte b r' _ hn h' =>
      exfalso
      cases he : encodeChar c with
      | nil => exact encodeChar_ne c he
      | cons x xs =>
        rw [he, List.cons_append] at hb
        cases hb
        exact hn ⟨c, xs, he⟩
  | @part m r t hm hs hne hn _ ih =>
    intro t' h'
    generalize hb : m ++ r = bs at h'
    cases h' with
    | nil => exact absurd (List.append_eq_nil_iff.1 hb).1 hm
    | @char c r' _ h' =>
      exfalso
      rcases List.append_eq_append_iff.1 hb.symm with ⟨u, hu, _⟩ | ⟨u, hu, hr⟩
      · obtain ⟨d, s, hd⟩ := hs
        have := prefix_free (c := c) (d := d) (s := u ++ s) (by rw [hd, hu, List.append_assoc])
        rw [(List.append_eq_nil_iff.1 this.2).1, List.append_nil] at hu
        exact hne c hu
      · cases u with
        | nil => exact hne c (by rw [hu, List.append_nil])
        | cons x xs => exact hn x _ hr ⟨c, xs, by rw [hu]; simp⟩
    | @part m' r' _ hm' hs' hne' hn' h' =>
      have : m = m' := by
        rcases List.append_eq_append_iff.1 hb with ⟨u, hu, hr⟩ | ⟨u, hu, hr⟩
        · cases u with
          | nil => rw [hu, List.append_nil]
          | cons x xs => exact absurd (begins_left (s := xs) (by rw [List.append_assoc]; exact hu ▸ hs')) (hn x _ hr)
        · cases u with
          | nil => rw [hu, List.append_nil]
          | cons x xs => exact absurd (begins_left (s := xs) (by rw [List.append_assoc]; exact hu ▸ hs)) (hn' x _ hr)
      subst this
      rw [ih ((List.append_cancel_left hb) ▸ h')]
    | @byte b r' _ hn' h' =>
      exfalso
      cases m with
      | nil => exact hm rfl
      | cons x xs =>
        rw [List.cons_append] at hb
        cases hb
        exact hn' (begins_left (s := xs) hs)
  | @byte b r t hn _ ih =>
    intro t' h'
    generalize hb : b :: r = bs at h'
    cases h' with
    | nil => cases hb
    | @char c r' _ h' =>
      exfalso
      cases he : encodeChar c with
      | nil => exact encodeChar_ne c he
      | cons x xs =>
        rw [he, List.cons_append] at hb
        cases hb
        exact hn ⟨c, xs, he⟩
    | @part m r' _ hm hs hne hn' h' =>
      exfalso
      cases m with
      | nil => exact hm rfl
      | cons x xs =>
        rw [List.cons_append] at hb
        cases hb
        exact hn (begins_left (s := xs) hs)
    | @byte b' r' _ hn' h' =>
      cases hb
      rw [ih h']

theorem whole_cons {bs r : List Nat} {c : Char} (h : all false bs = (all false r).map fun p => (c :: p.1, p.2)) :
    whole false bs = (whole false r).map (c :: ·) := by
  rw [whole, whole, h]
  cases all false r with
  | none => rfl
  | some p =>
    simp only [Option.map_some, Option.bind_some]
    cases finish false p.2 <;> rfl

/-- The decoder that replaces reads the bytes. -/
theorem whole_reads (bs : List Nat) : ∀ {t}, whole false bs = some t → Reads bs t := by
  induction bs using steps with
  | h0 bs h =>
    intro t ht
    rw [whole, all_none h] at ht
    simp only [Option.bind_some, List.nil_append, Option.map_id'] at ht
    have hs := first_spec bs
    rw [h] at hs
    by_cases hb : bs = []
    · subst hb
      cases ht
      exact .nil
    · rcases hs with hs | ⟨hp, hne⟩
      · exact absurd hs hb
      · rw [finish, if_neg (by simpa using hb)] at ht
        cases ht
        have := Reads.part bs (r := []) hb (begins_prefix.1 hp) hne nofun .nil
        rwa [List.append_nil] at this
  | h1 bs o n h ih =>
    intro t ht
    have hs := first_spec bs
    rw [h] at hs
    cases o with
    | none =>
      have ha := all_bad (strict := false) h
      rw [if_neg nofun] at ha
      rw [whole_cons ha] at ht
      obtain ⟨u, hu, rfl⟩ := Option.map_eq_some_iff.1 ht
      have hr := ih hu
      rcases hs with ⟨rfl, b, r, rfl, hn⟩ | ⟨m, b, r, rfl, rfl, hm, hp, hne, hn⟩
      · exact .byte b (fun ⟨c, s, hc⟩ => hn c ⟨s, hc.symm⟩) hr
      · rw [List.drop_left] at hr
        refine .part m hm (begins_prefix.1 hp) hne (fun b' r' he => ?_) hr
        cases he
        exact fun ⟨c, s, hc⟩ => hn c ⟨s, hc.symm⟩
    | some c =>
      rw [whole_cons (all_char h)] at ht
      obtain ⟨u, hu, rfl⟩ := Option.map_eq_some_iff.1 ht
      have hr := ih hu
      obtain ⟨r, rfl, rfl⟩ := hs
      rw [List.drop_left] at hr
      exact .char c hr

theorem said_flatten (log : List IOLog.Rec) : (log.map bytes).flatten = said log := by
  induction log with
  | nil => rfl
  | cons r log ih => rw [List.map_cons, List.flatten_cons, ih]; simp [said, bytes]

theorem flat_eq {log : List IOLog.Rec} {t : Str} (h : whole false (said log) = some t) : flat log = sub t := by
  have hi := iterdecode_whole false (log.map bytes) [] rfl
  rw [List.nil_append, said_flatten, h] at hi
  unfold flat
  cases ht : iterdecode false [] (log.map bytes) with
  | none => rw [ht] at hi; cases hi
  | some ts =>
    rw [ht] at hi
    cases hi
    exact sub_flatten ts

theorem attachment_eq (log : List IOLog.Rec) :
    attachment log = ((whole true (said (log.filter fun r => r.stream == "stdout".toList))).map sub).getD [] := by
  have hi := iterdecode_whole true ((log.filter fun r => r.stream == "stdout".toList).map bytes) [] rfl
  rw [List.nil_append, said_flatten] at hi
  unfold attachment
  cases ht : iterdecode true [] ((log.filter fun r => r.stream == "stdout".toList).map bytes) with
  | none => rw [ht] at hi; rw [← hi]; rfl
  | some ts =>
    rw [ht] at hi
    rw [← hi]
    exact sub_flatten ts

/-- The text of a log is the reading of all its bytes, whatever streams they came from and wherever the records end, without
control characters; every log has exactly one reading. -/
theorem C101_reads_partial (log : List IOLog.Rec) :
    ∃ t, Reads (said log) t ∧ (∀ t', Reads (said log) t' → t' = t) ∧ flat log = t.filter fun c => decide (Plain c) := by
  obtain ⟨t, ht⟩ := whole_lenient (said log)
  have hr := whole_reads _ ht
  exact ⟨t, hr, fun t' h => reads_unique h hr, by rw [flat_eq ht, sub_eq]⟩

/-- What a program printed is in the text of its log as it was printed, but for control characters. -/
theorem C101_text (log : List IOLog.Rec) (t : Str) (h : said log = encode t) :
    flat log = t.filter fun c => decide (Plain c) := by
  obtain ⟨u, _, hu, hf⟩ := C101_reads_partial log
  rw [hf, ← hu t (by rw [h]; have := reads_encode t .nil; rwa [List.append_nil, List.append_nil] at this)]

/-- A record that is a text of its own, in a log of such records, is in the text of the log as it is. -/
theorem C101_records (log : List IOLog.Rec) (text : IOLog.Rec → Str)
    (h : ∀ r ∈ log, r.data.map (·.val) = encode (text r)) :
    flat log = (log.flatMap text).filter fun c => decide (Plain c) := by
  refine C101_text log _ ?_
  induction log with
  | nil => rfl
  | cons r log ih =>
    rw [List.flatMap_cons, Stream.encode_append, ← ih fun x hx => h x (List.mem_cons_of_mem _ hx),
      ← h r List.mem_cons_self]
    simp [said]

/-- A byte that no character begins with, between two texts, is one U+FFFD. -/
theorem C101_bad_byte (log : List IOLog.Rec) (t u : Str) (b : Nat) (hb : (0x80 ≤ b ∧ b < 0xC2) ∨ 0xF5 ≤ b)
    (h : said log = encode t ++ b :: encode u) :
    flat log = (t ++ Char.ofNat 0xFFFD :: u).filter fun c => decide (Plain c) := by
  obtain ⟨v, _, hv, hf⟩ := C101_reads_partial log
  have hu : Reads (encode u) u := by
    have := reads_encode u .nil
    rwa [List.append_nil, List.append_nil] at this
  have hn : ¬ Begins [b] := by
    rintro ⟨c, s, hc⟩
    rcases shape c with ⟨a, e, p⟩ | ⟨a, _, e, p⟩ | ⟨a, _, _, e, p⟩ | ⟨a, _, _, _, e, p⟩ <;>
      rw [e] at hc <;> simp only [List.cons_append, List.nil_append, List.cons.injEq] at hc <;> omega
  rw [hf, ← hv (t ++ Char.ofNat 0xFFFD :: u) (by rw [h]; exact reads_encode t (.byte b hn hu))]

/-- A character that is cut off at the end of the log is one U+FFFD. -/
theorem C101_cut_off (log : List IOLog.Rec) (t : Str) (c : Char) (m s : List Nat) (hm : m ≠ []) (hs : s ≠ [])
    (hc : encodeChar c = m ++ s) (h : said log = encode t ++ m) :
    flat log = (t ++ [Char.ofNat 0xFFFD]).filter fun c => decide (Plain c) := by
  obtain ⟨v, _, hv, hf⟩ := C101_reads_partial log
  have hr : Reads m [Char.ofNat 0xFFFD] := by
    have := Reads.part m (r := []) hm ⟨c, s, hc⟩ (fun d hd => hs (prefix_free (c := d) (d := c) (hd ▸ hc)).2) nofun .nil
    rwa [List.append_nil] at this
  rw [hf, ← hv (t ++ [Char.ofNat 0xFFFD]) (by rw [h]; exact reads_encode t hr)]

/-- There is no control character in the text of a log, but for tabs, newlines, vertical tabs and carriage returns. -/
theorem C101_clean (log : List IOLog.Rec) (c : Char) (h : c ∈ flat log) :
    (0x20 ≤ c.toNat ∧ ¬ (0x7F ≤ c.toNat ∧ c.toNat ≤ 0x9F)) ∨ c ∈ ['\t', '\n', '\x0b', '\r'] := by
  obtain ⟨t, _, _, hf⟩ := C101_reads_partial log
  rw [hf, List.mem_filter, decide_eq_true_iff] at h
  rcases h.2 with h | h | h | h | h
  · exact Or.inl h
  · exact Or.inr (by rw [show c = '\t' from Char.toNat_inj.1 h]; decide)
  · exact Or.inr (by rw [show c = '\n' from Char.toNat_inj.1 h]; decide)
  · exact Or.inr (by rw [show c = '\x0b' from Char.toNat_inj.1 h]; decide)
  · exact Or.inr (by rw [show c = '\r' from Char.toNat_inj.1 h]; decide)

/-- The text of a log depends on its bytes alone, not on the records, their delays or their streams. -/
theorem C101_chunks (log log' : List IOLog.Rec) (h : said log = said log') : flat log = flat log' := by
  obtain ⟨t, hr, _, hf⟩ := C101_reads_partial log
  obtain ⟨t', hr', _, hf'⟩ := C101_reads_partial log'
  rw [hf, hf', reads_unique hr (h ▸ hr')]

/-- An attachment is what was written to the standard output, without control characters; it is empty if that was not
text. -/
theorem C101_attachment (log : List IOLog.Rec) :
    (∀ t, said (log.filter fun r => r.stream = "stdout".toList) = encode t →
      attachment log = t.filter fun c => decide (Plain c)) ∧
    ((¬ ∃ t, said (log.filter fun r => r.stream = "stdout".toList) = encode t) → attachment log = []) := by
  have hf : (log.filter fun r => r.stream = "stdout".toList) = log.filter fun r => r.stream == "stdout".toList := by
    congr 1
    funext r
    rw [Bool.eq_iff_iff, decide_eq_true_iff, beq_iff_eq]
  rw [hf]
  refine ⟨fun t ht => ?_, fun hn => ?_⟩
  · rw [attachment_eq, ht, whole_encode, Option.map_some, Option.getD_some, sub_eq]
  · rw [attachment_eq]
    cases hw : whole true (said (log.filter fun r => r.stream == "stdout".toList)) with
    | none => rfl
    | some t => exact absurd ⟨t, whole_strict hw⟩ hn

/-- Both streams are text, and the text of the log has U+FFFD: the records of one stream come between the bytes of a
character of the other, as they may for jobs with `use-chunked-io`. -/
theorem C101_interleaved_violated : ∃ (log : List IOLog.Rec) (t u : Str),
    said (log.filter fun r => r.stream = "stdout".toList) = encode t ∧
    said (log.filter fun r => r.stream = "stderr".toList) = encode u ∧
    Char.ofNat 0xFFFD ∈ flat log ∧ Char.ofNat 0xFFFD ∉ t ∧ Char.ofNat 0xFFFD ∉ u :=
  ⟨[⟨"0".toList, "stdout".toList, [0xC3]⟩, ⟨"0".toList, "stderr".toList, [0x21]⟩, ⟨"0".toList, "stdout".toList, [0xA9]⟩],
    "é".toList, "!".toList, by decide +kernel⟩

/-- A vertical tab stays, and makes the report in the format of JUnit unreadable. -/
theorem C101_report_violated (log : List IOLog.Rec) (t : Str) (h : said log = encode t) (hv : '\x0b' ∈ t)
    (lower : Str → Str) (items : List Junit.Item) (i : Junit.Item) (hi : i ∈ items)
    (ho : i.outcome = .fail ∨ i.outcome = .crash) (hl : i.log = flat log) :
    Junit.readDoc (Junit.render lower items) = none :=
  Junit.C100_character_violated lower items i hi ho '\x0b'
    (by rw [hl, C101_text log t h]; exact List.mem_filter.2 ⟨hv, by decide⟩) (by decide)

/-! ## Examples -/

/-- A log: a euro sign cut in two, and a bell. -/
def demo : List IOLog.Rec :=
  [⟨"0.1".toList, "stdout".toList, [0x35, 0xE2, 0x82]⟩, ⟨"0.1".toList, "stdout".toList, [0xAC, 0x07, 0x0A]⟩]

example : said demo = encode "5€\x07\n".toList := by decide +kernel
example : flat demo = "5€\n".toList := by decide +kernel
example : attachment demo = "5€\n".toList := by decide +kernel
example : ∀ r ∈ [(⟨"0".toList, "stdout".toList, [0x61, 0x0A]⟩ : IOLog.Rec)], r.data.map (·.val) = encode "a\n".toList := by
  decide
/-- A euro sign without its last byte, then a letter: one U+FFFD. -/
example : flat [⟨"0".toList, "stdout".toList, [0xE2, 0x82]⟩, ⟨"0".toList, "stdout".toList, [0x61]⟩] =
    [Char.ofNat 0xFFFD, 'a'] := by decide +kernel
/-- A surrogate is three U+FFFD: no character begins with its first two bytes. -/
example : flat [⟨"0".toList, "stdout".toList, [0xED, 0xA0, 0x80]⟩] = List.replicate 3 (Char.ofNat 0xFFFD) := by
  decide +kernel
example : said [⟨"0".toList, "stderr".toList, [0x61, 0xFF, 0x62]⟩] = encode "a".toList ++ 0xFF :: encode "b".toList := by
  decide
example : said [⟨"0".toList, "stderr".toList, [0x61, 0xE2, 0x82]⟩] = encode "a".toList ++ [0xE2, 0x82] ∧
    encodeChar '€' = [0xE2, 0x82] ++ [0xAC] := by decide
/-- One byte that is not text, and the attachment is empty. -/
example : attachment [⟨"0".toList, "stdout".toList, [0x61, 0xFF, 0x62]⟩] = [] := by decide +kernel
example : said [⟨"0".toList, "stderr".toList, [0x61, 0x0B]⟩] = encode "a\x0b".toList := by decide

end Verif.Flat
