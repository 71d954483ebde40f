import Verif.Lemmas.Transport

/-!
# C74: an exported report arrives unchanged

What was printed is compared with the text of the report, whose UTF-8 encoding (`encode`, the definition of
RFC 3629 in `Verif.Lemmas.Transport`) is what the exporter made.
-/

set_option linter.unusedSimpArgs false

namespace Verif.Transport

/-- The position `i` of the encoded text is between two characters. -/
def Boundary (txt : Text) (i : Nat) : Prop := ∃ u, u <+: txt ∧ encode u = (encode txt).take i

/-- The stream with more text. -/
def Stream.plus (s : Stream) (t : Text) : Stream := { s with text := s.text ++ t }

/-- `C74_stdout_partial`: a report printed with buffers of `n` bytes arrives unchanged exactly if all
multiples of `n` are between characters; otherwise `UnicodeDecodeError` is raised after the buffers before the
first such place were printed.
(Missing from "a report arrives unchanged": see `C74_stdout_violated`.) -/
theorem C74_stdout_partial {n : Nat} (hn : 0 < n) {txt : Text} (htxt : ∀ c ∈ txt, Scalar c) {s : Stream}
    (hs : Matching s) :
    (saveStdout n (encode txt) s = (s.plus txt, none) ↔ ∀ k, Boundary txt (k * n)) ∧
    (saveStdout n (encode txt) s ≠ (s.plus txt, none) →
      ∃ k t, saveStdout n (encode txt) s = (s.plus t, some .unicode) ∧ t <+: txt ∧
        encode t = (encode txt).take (k * n) ∧ ¬ Boundary txt ((k + 1) * n)) := by
  obtain ⟨hfl, htk⟩ := chunks_spec hn ((encode txt).length + 1) (encode txt) (Nat.lt_succ_self _)
  obtain ⟨k, t, h1, h2, h3, h4⟩ := copyLoop_match _ s txt hs htxt hfl
  rw [htk] at h2
  have hout : saveStdout n (encode txt) s = (s.plus t, (saveStdout n (encode txt) s).2) :=
    Prod.ext h3 rfl
  rcases h4 with ⟨h4, h5, h6⟩ | ⟨h4, h5, h6⟩
  · have hok : saveStdout n (encode txt) s = (s.plus txt, none) := by
      rw [hout, show (saveStdout n (encode txt) s).2 = none from h4, h5]
    refine ⟨⟨fun _ j => ?_, fun _ => hok⟩, fun h => absurd hok h⟩
    obtain ⟨u, hu1, hu2⟩ := h6 j
    rw [htk] at hu2
    exact ⟨u, hu1, hu2⟩
  · have hbad : saveStdout n (encode txt) s = (s.plus t, some .unicode) := by
      rw [hout, show (saveStdout n (encode txt) s).2 = some .unicode from h4]
    have hnb : ¬ Boundary txt ((k + 1) * n) := by
      rintro ⟨u, hu1, hu2⟩
      exact h6 ⟨u, hu1, by rw [htk]; exact hu2⟩
    refine ⟨⟨fun h => ?_, fun h => absurd (h (k + 1)) hnb⟩, fun _ => ⟨k, t, hbad, h1, h2, hnb⟩⟩
    rw [hbad] at h
    cases (Prod.mk.inj h).2

/-- A report that fits into one buffer, and one of ASCII characters only, arrives unchanged. -/
theorem C74_stdout_short {n : Nat} (hn : 0 < n) {txt : Text} (htxt : ∀ c ∈ txt, Scalar c) {s : Stream}
    (hs : Matching s) (h : (encode txt).length ≤ n ∨ ∀ c ∈ txt, c < 0x80) :
    saveStdout n (encode txt) s = (s.plus txt, none) := by
  refine (C74_stdout_partial hn htxt hs).1.mpr fun k => ?_
  rcases h with h | h
  · cases k with
    | zero => exact ⟨[], List.nil_prefix, by rw [Nat.zero_mul]; rfl⟩
    | succ k =>
      refine ⟨txt, List.prefix_rfl, (List.take_of_length_le ?_).symm⟩
      rw [Nat.add_mul]
      omega
  · refine ⟨txt.take (k * n), List.take_prefix _ _, ?_⟩
    have : ∀ t : Text, (∀ c ∈ t, c < 0x80) → encode t = t := by
      intro t ht
      induction t with
      | nil => rfl
      | cons c t ih =>
        rw [encode_cons, ih fun c hc => ht c (List.mem_cons_of_mem _ hc)]
        unfold encodeChar
        rw [if_pos (ht c List.mem_cons_self)]
        rfl
    rw [this txt h, this _ fun c hc => h c (List.mem_of_mem_take hc)]

/-- `C74_stdout_violated`: whatever the size of the buffer is, there are reports of which nothing arrives. -/
theorem C74_stdout_violated {n : Nat} (hn : 0 < n) {s : Stream} (hs : Matching s) :
    ∃ txt : Text, (∀ c ∈ txt, Scalar c) ∧ (encode txt).length = n + 1 ∧
      saveStdout n (encode txt) s = (s, some .unicode) := by
  obtain ⟨m, rfl⟩ : ∃ m, n = m + 1 := ⟨n - 1, by omega⟩
  have hA : encode (List.replicate m 97) = List.replicate m 97 := by
    induction m with
    | zero => rfl
    | succ m ih =>
      rw [List.replicate_succ, encode_cons, ih (by omega)]
      rfl
  have hscA : ∀ c ∈ List.replicate m 97, Scalar c := fun c hc => by
    rw [(List.mem_replicate.mp hc).2]; exact Or.inl (by decide)
  have henc : encode (List.replicate m 97 ++ [233]) = List.replicate m 97 ++ [0xC3, 0xA9] := by
    rw [encode_append, hA]
    rfl
  have hsc : ∀ c ∈ List.replicate m 97 ++ [233], Scalar c := by
    intro c hc
    rcases List.mem_append.mp hc with hc | hc
    · exact hscA c hc
    · rw [List.mem_singleton.mp hc]; exact Or.inl (by decide)
  refine ⟨List.replicate m 97 ++ [233], hsc, by rw [henc]; simp, ?_⟩
  have htake : (encode (List.replicate m 97 ++ [233])).take (m + 1) = List.replicate m 97 ++ [0xC3] := by
    rw [henc, show List.replicate m 97 ++ [0xC3, 0xA9] = (List.replicate m 97 ++ [0xC3]) ++ [0xA9] by simp,
      List.take_left' (by simp)]
  have hdec : decode (List.replicate m 97 ++ [0xC3]) = none := by
    have := decode_text hscA [0xC3]
    rw [hA] at this
    unfold decode
    rw [this]
    rfl
  unfold saveStdout copy
  rw [chunks_some, htake, if_neg (by simp)]
  refine copyLoop_err ?_ _
  rw [translate_match hs, hdec]

/-- `C74_stream`: the stream transport reads everything at once, so that every report arrives unchanged. -/
theorem C74_stream {txt : Text} (htxt : ∀ c ∈ txt, Scalar c) {s : Stream} (hs : Matching s) :
    streamSend (.file (encode txt)) s = (s.plus txt, none) := by
  show copyLoop translate (chunks none ((encode txt).length + 1) (encode txt)) s = _
  rw [chunks_none]
  by_cases h : encode txt = []
  · rw [if_pos h]
    have : txt = [] := encode_inj htxt (fun c hc => absurd hc List.not_mem_nil) h
    subst this
    show (s, none) = (s.plus [], none)
    unfold Stream.plus
    rw [List.append_nil]
  · rw [if_neg h, copyLoop_ok (s' := s.plus txt)]
    · rfl
    · rw [translate_match hs, decode_encode htxt]
      rfl

/-- `C74_other_encoding`: on a stream whose encoding has another name, the ASCII characters arrive, and no
others, whatever the size of the buffer is; nothing is raised. -/
theorem C74_other_encoding (txt : Text) {s : Stream} (hs : ¬ Matching s) :
    (∀ n, 0 < n → saveStdout n (encode txt) s = (s.plus (txt.filter (· < 0x80)), none)) ∧
    streamSend (.file (encode txt)) s = (s.plus (txt.filter (· < 0x80)), none) := by
  constructor
  · intro n hn
    obtain ⟨hfl, _⟩ := chunks_spec hn ((encode txt).length + 1) (encode txt) (Nat.lt_succ_self _)
    unfold saveStdout copy
    rw [copyLoop_other _ _ hs, hfl, ascii_encode]
    rfl
  · show copyLoop translate (chunks none ((encode txt).length + 1) (encode txt)) s = _
    rw [copyLoop_other _ _ hs, chunks_none, ← ascii_encode]
    by_cases h : encode txt = []
    · rw [if_pos h, h]; rfl
    · rw [if_neg h]
      simp only [List.flatten_cons, List.flatten_nil, List.append_nil]
      rfl

/-- `C74_encoding_violated`: `UTF8` is another name of the same encoding, yet characters are lost. -/
theorem C74_encoding_violated : ∃ (s : Stream) (txt : Text), s.encoding = some "UTF8".toList ∧
    (∀ c ∈ txt, Scalar c) ∧ ∀ n, 0 < n → ∀ e, saveStdout n (encode txt) s ≠ (s.plus txt, e) := by
  refine ⟨⟨some "UTF8".toList, []⟩, [233], rfl, ?_, ?_⟩
  · intro c hc
    rw [List.mem_singleton.mp hc]
    exact Or.inl (by decide)
  · intro n hn e h
    have hm : ¬ Matching ⟨some "UTF8".toList, []⟩ := by
      rintro (h | h | ⟨e, h, he⟩)
      · cases h
      · exact absurd (Option.some.inj h) (by decide +kernel)
      · rw [← Option.some.inj h] at he
        exact absurd he (by decide +kernel)
    rw [(C74_other_encoding [233] hm).1 n hn] at h
    have := congrArg Stream.text (Prod.mk.inj h).1
    exact absurd this (by decide +kernel)

/-- `C74_file`: what is saved to a file, or sent to one, is the report, whatever was there. -/
theorem C74_file {n : Nat} (hn : 0 < n) (report : Bytes) (old : Option Bytes) :
    saveFile n report = (report, none) ∧
    fileSend n true (.file report) old = (some report, none) ∧
    fileSend n false (.file report) old = (old, some .os) := by
  have h : copy append (some n) report [] = (report, none) := by
    unfold copy
    rw [copyLoop_append, (chunks_spec hn _ report (Nat.lt_succ_self _)).1, List.nil_append]
  refine ⟨h, ?_, rfl⟩
  show (some (copy append (some n) report []).1, (copy append (some n) report []).2) = _
  rw [h]

/-- `C74_bytes_violated`: the transports of `plainbox run` never send anything: `AttributeError` is raised, the
stream gets nothing, and the file, if it can be opened, is emptied. -/
theorem C74_bytes_violated (n : Nat) (report : Bytes) (s : Stream) (old : Option Bytes) :
    sendResults streamSend report s = (s, some .attribute) ∧
    sendResults (fileSend n true) report old = (some [], some .attribute) ∧
    sendResults (fileSend n false) report old = (old, some .os) := ⟨rfl, rfl, rfl⟩

/-- `C74_submitted`: exporting a session raises what the transport raises, flags the session as submitted
exactly if the transport raised nothing, and a session that is flagged is saved. -/
theorem C74_submitted {S : Type} (send : Data → S → S × Option Err) (report : Bytes) (s : S) (f : Flags) :
    (exportToTransport send report s f).1 = (send (.file report) s).1 ∧
    (exportToTransport send report s f).2.2 = (send (.file report) s).2 ∧
    ((exportToTransport send report s f).2.1.submitted = true ↔
      f.submitted = true ∨ (send (.file report) s).2 = none) ∧
    ((f.submitted = true → f.saved = true) →
      ((exportToTransport send report s f).2.1.submitted = true →
        (exportToTransport send report s f).2.1.saved = true)) := by
  unfold exportToTransport
  cases h : send (.file report) s with
  | mk s' e =>
    cases e with
    | some e => simp
    | none =>
      cases hf : f.submitted <;> simp [hf]

/-- A session exported to a file transport is flagged exactly if the file is the report. -/
theorem C74_submitted_file {n : Nat} (hn : 0 < n) (canOpen : Bool) (report : Bytes) (old : Option Bytes)
    (saved : Bool) :
    (exportToTransport (fileSend n canOpen) report old ⟨false, saved⟩).2.1.submitted = true ↔
      canOpen = true ∧
        (exportToTransport (fileSend n canOpen) report old ⟨false, saved⟩).1 = some report := by
  obtain ⟨h1, _, h3, _⟩ := C74_submitted (fileSend n canOpen) report old ⟨false, saved⟩
  rw [h3, h1]
  obtain ⟨_, h5, h6⟩ := C74_file hn report old
  cases canOpen with
  | true => rw [h5]; simp
  | false => rw [h6]; simp

/-- `C74_upload`: a session exported to a server is flagged exactly if the server got the report and replied
with a status that is not an error; `plainbox run` does not stop when the server cannot be reached or refuses
the report. -/
theorem C74_upload (r : Reply) (report : Bytes) (server : List (Bytes × Nat)) (saved : Bool) :
    ((exportToTransport (oauthSend r) report server ⟨false, saved⟩).2.1.submitted = true ↔
      ∃ code, (code < 400 ∨ 600 ≤ code) ∧ r = .status code ∧
        (exportToTransport (oauthSend r) report server ⟨false, saved⟩).1 = server ++ [(report, code)]) ∧
    ((sendResults (oauthSend r) report server).2 = none ↔ r ≠ .other) ∧
    (∀ code, r = .status code → (sendResults (oauthSend r) report server).1 = server ++ [(report, code)]) := by
  obtain ⟨h1, _, h3, _⟩ := C74_submitted (oauthSend r) report server ⟨false, saved⟩
  rw [h3, h1]
  cases r with
  | status code =>
    by_cases hc : 400 ≤ code ∧ code < 600
    · have he : ∀ d, (oauthSend (.status code) d server).2 = some .transport := fun d => if_pos hc
      refine ⟨?_, ?_, ?_⟩
      · rw [he]
        constructor
        · rintro (h | h) <;> cases h
        · rintro ⟨c, h, hr, _⟩
          cases hr
          omega
      · unfold sendResults oauthSend
        simp [hc]
      · rintro c hr
        cases hr
        unfold sendResults oauthSend
        simp [hc]
    · have he : ∀ d, (oauthSend (.status code) d server).2 = none := fun d => if_neg hc
      refine ⟨?_, ?_, ?_⟩
      · rw [he]
        exact ⟨fun _ => ⟨code, by omega, rfl, rfl⟩, fun _ => Or.inr rfl⟩
      · unfold sendResults oauthSend
        simp [hc]
      · rintro c hr
        cases hr
        unfold sendResults oauthSend
        simp [hc]
  | _ => simp [oauthSend, sendResults]

/-! ## Options -/

/-- The parts separated by commas. -/
def join : List Str → Str
  | [] => []
  | [p] => p
  | p :: ps => p ++ ',' :: join ps

/-- The value of a key. -/
def value (d : List (Str × Str)) (k : Str) : Option Str := (d.find? (fun e => e.1 == k)).map (·.2)

theorem splitComma_ne_nil (s : Str) : splitComma s ≠ [] := by
  cases s with
  | nil => exact List.cons_ne_nil _ _
  | cons c s =>
    unfold splitComma
    by_cases h : c = ','
    · rw [if_pos h]; exact List.cons_ne_nil _ _
    · rw [if_neg h]; cases splitComma s <;> exact List.cons_ne_nil _ _

theorem splitComma_other {c : Char} (hc : c ≠ ',') {s l : Str} {ls : List Str} (h : splitComma s = l :: ls) :
    splitComma (c :: s) = (c :: l) :: ls := by
  rw [splitComma, if_neg hc, h]

theorem splitComma_comma (s : Str) : splitComma (',' :: s) = [] :: splitComma s := by
  rw [splitComma, if_pos rfl]

theorem splitComma_plain {p : Str} (h : ',' ∉ p) : splitComma p = [p] := by
  induction p with
  | nil => rfl
  | cons c p ih =>
    exact splitComma_other (fun e => h (e ▸ List.mem_cons_self)) (ih fun hm => h (List.mem_cons_of_mem _ hm))

theorem splitComma_append {p s : Str} (h : ',' ∉ p) : splitComma (p ++ ',' :: s) = p :: splitComma s := by
  induction p with
  | nil => exact splitComma_comma s
  | cons c p ih =>
    exact splitComma_other (fun e => h (e ▸ List.mem_cons_self)) (ih fun hm => h (List.mem_cons_of_mem _ hm))

theorem splitComma_join : ∀ {ps : List Str}, ps ≠ [] → (∀ p ∈ ps, ',' ∉ p) → splitComma (join ps) = ps
  | [], h, _ => absurd rfl h
  | [p], _, h => splitComma_plain (h p List.mem_cons_self)
  | p :: q :: ps, _, h => by
    show splitComma (p ++ ',' :: join (q :: ps)) = _
    rw [splitComma_append (h p List.mem_cons_self),
      splitComma_join (List.cons_ne_nil _ _) fun x hx => h x (List.mem_cons_of_mem _ hx)]

/-- Every text is made of parts without commas, in one way. -/
theorem join_exists (s : Str) : ∃ ps : List Str, ps ≠ [] ∧ (∀ p ∈ ps, ',' ∉ p) ∧ join ps = s := by
  induction s with
  | nil => exact ⟨[[]], List.cons_ne_nil _ _, by simp, rfl⟩
  | cons c s ih =>
    obtain ⟨ps, h1, h2, h3⟩ := ih
    obtain ⟨p, ps, rfl⟩ : ∃ p qs, ps = p :: qs := by
      cases ps with
      | nil => exact absurd rfl h1
      | cons p qs => exact ⟨p, qs, rfl⟩
    by_cases hc : c = ','
    · refine ⟨[] :: p :: ps, List.cons_ne_nil _ _, ?_, ?_⟩
      · intro x hx
        rcases List.mem_cons.mp hx with e | hx
        · rw [e]; exact List.not_mem_nil
        · exact h2 x hx
      · rw [← h3, hc]; rfl
    · refine ⟨(c :: p) :: ps, List.cons_ne_nil _ _, ?_, ?_⟩
      · intro x hx
        rcases List.mem_cons.mp hx with e | hx
        · rw [e]
          intro hm
          rcases List.mem_cons.mp hm with e | hm
          · exact hc e.symm
          · exact h2 p List.mem_cons_self hm
        · exact h2 x (List.mem_cons_of_mem _ hx)
      · rw [← h3]; cases ps <;> rfl

theorem splitEqual_none {p : Str} : splitEqual p = none ↔ '=' ∉ p := by
  induction p with
  | nil => exact ⟨fun _ => List.not_mem_nil, fun _ => rfl⟩
  | cons c p ih =>
    rw [splitEqual]
    by_cases h : c = '='
    · rw [if_pos h]
      exact ⟨fun h' => (by cases h'), fun hn => absurd (by rw [h]; exact List.mem_cons_self) hn⟩
    · rw [if_neg h, Option.map_eq_none_iff, ih]
      constructor
      · intro hn hm
        rcases List.mem_cons.mp hm with e | hm
        · exact h e.symm
        · exact hn hm
      · exact fun hn hm => hn (List.mem_cons_of_mem _ hm)

theorem splitEqual_pair {k v : Str} (h : '=' ∉ k) : splitEqual (k ++ '=' :: v) = some (k, v) := by
  induction k with
  | nil => rfl
  | cons c k ih =>
    show splitEqual (c :: (k ++ '=' :: v)) = _
    rw [splitEqual, if_neg (fun e : c = '=' => h (e ▸ List.mem_cons_self)), ih fun hm => h (List.mem_cons_of_mem _ hm)]
    rfl

theorem value_store (k v k' : Str) (d : List (Str × Str)) :
    value (store k v d) k' = if k' = k then some v else value d k' := by
  induction d with
  | nil =>
    unfold store value
    by_cases h : k' = k
    · subst h; rw [if_pos rfl]; simp
    · rw [if_neg h]; simp [Ne.symm h]
  | cons e d ih =>
    unfold store
    by_cases h : e.1 = k
    · rw [if_pos h]
      unfold value
      by_cases h' : k' = k
      · subst h'; rw [if_pos rfl]; simp
      · rw [if_neg h']
        rw [List.find?_cons_of_neg (by simpa using Ne.symm h'),
          List.find?_cons_of_neg (by rw [h]; simpa using Ne.symm h')]
    · rw [if_neg h]
      unfold value at ih ⊢
      by_cases he : e.1 = k'
      · rw [List.find?_cons_of_pos (by simpa using he), List.find?_cons_of_pos (by simpa using he),
          if_neg (fun e' => h (he.trans e'))]
      · rw [List.find?_cons_of_neg (by simpa using he), List.find?_cons_of_neg (by simpa using he), ih]

theorem pairs_isSome : ∀ (ps : List Str) (d : List (Str × Str)),
    (pairs ps d).isSome = true ↔ ∀ p ∈ ps, '=' ∈ p
  | [], d => ⟨fun _ p hp => absurd hp List.not_mem_nil, fun _ => rfl⟩
  | p :: ps, d => by
    rw [pairs]
    cases h : splitEqual p with
    | none =>
      refine ⟨fun h => (by cases h), fun hp => absurd (hp p List.mem_cons_self) (splitEqual_none.mp h)⟩
    | some kv =>
      have hp : '=' ∈ p := Decidable.by_contra fun hn => by rw [splitEqual_none.mpr hn] at h; cases h
      dsimp only
      rw [pairs_isSome ps]
      constructor
      · intro hs x hx
        rcases List.mem_cons.mp hx with e | hx
        · rw [e]; exact hp
        · exact hs x hx
      · exact fun hs x hx => hs x (List.mem_cons_of_mem _ hx)

theorem pairs_value : ∀ (kvs : List (Str × Str)) (d : List (Str × Str)), (∀ e ∈ kvs, '=' ∉ e.1) →
    ∃ d', pairs (kvs.map fun e => e.1 ++ '=' :: e.2) d = some d' ∧
      ∀ k, value d' k = (value kvs.reverse k).or (value d k)
  | [], d, _ => ⟨d, rfl, fun k => rfl⟩
  | e :: kvs, d, h => by
    obtain ⟨d', h1, h2⟩ := pairs_value kvs (store e.1 e.2 d) fun x hx => h x (List.mem_cons_of_mem _ hx)
    refine ⟨d', ?_, fun k => ?_⟩
    · rw [List.map_cons, pairs, splitEqual_pair (h e List.mem_cons_self)]
      exact h1
    · rw [h2, value_store, List.reverse_cons]
      unfold value
      rw [List.find?_append]
      cases hf : List.find? (fun e => e.1 == k) kvs.reverse with
      | some x => rfl
      | none =>
        by_cases hk : k = e.1
        · rw [if_pos hk, List.find?_cons_of_pos (by simpa using hk.symm)]; rfl
        · rw [if_neg hk, List.find?_cons_of_neg (by simpa using Ne.symm hk)]; rfl

/-- `C74_options`: an option string, that is parts separated by commas, is accepted exactly if it is empty or
all parts have an equals sign; then the options are what is before the first equals signs, with what is after
them, the last one if there are several. -/
theorem C74_options {ps : List Str} (hne : ps ≠ []) (hps : ∀ p ∈ ps, ',' ∉ p) :
    ((options (some (join ps))).isSome = true ↔ join ps = [] ∨ ∀ p ∈ ps, '=' ∈ p) ∧
    ∀ kvs : List (Str × Str), ps = kvs.map (fun e => e.1 ++ '=' :: e.2) → (∀ e ∈ kvs, '=' ∉ e.1) →
      ∃ d, options (some (join ps)) = some d ∧ ∀ k, value d k = value kvs.reverse k := by
  have hsplit := splitComma_join hne hps
  have hsub : ∀ {ps : List Str} {p : Str}, p ∈ ps → ∀ c ∈ p, c ∈ join ps := by
    intro ps
    induction ps with
    | nil => exact fun hp => absurd hp List.not_mem_nil
    | cons q ps ih =>
      intro p hp c hc
      cases ps with
      | nil => rw [List.mem_singleton.mp hp] at hc; exact hc
      | cons r ps =>
        show c ∈ q ++ ',' :: join (r :: ps)
        rcases List.mem_cons.mp hp with e | hp
        · rw [← e]; exact List.mem_append_left _ hc
        · exact List.mem_append_right _ (List.mem_cons_of_mem _ (ih hp c hc))
  have hopt : join ps ≠ [] → options (some (join ps)) = if '=' ∈ join ps then pairs ps [] else none := by
    intro hj
    cases hjj : join ps with
    | nil => exact absurd hjj hj
    | cons c s => rw [options, ← hjj, hsplit]
  obtain ⟨p0, hp0⟩ := List.exists_mem_of_ne_nil ps hne
  constructor
  · by_cases hj : join ps = []
    · rw [hj]
      exact ⟨fun _ => Or.inl rfl, fun _ => rfl⟩
    · rw [hopt hj]
      by_cases he : '=' ∈ join ps
      · rw [if_pos he, pairs_isSome]
        exact ⟨Or.inr, fun h => h.resolve_left hj⟩
      · rw [if_neg he]
        exact ⟨fun h => (by cases h), fun h => absurd (hsub hp0 _ ((h.resolve_left hj) p0 hp0)) he⟩
  · intro kvs hk hkeys
    have hall : ∀ p ∈ ps, '=' ∈ p := by
      intro p hp
      rw [hk] at hp
      obtain ⟨e, _, rfl⟩ := List.mem_map.mp hp
      exact List.mem_append_right _ List.mem_cons_self
    have he : '=' ∈ join ps := hsub hp0 _ (hall p0 hp0)
    have hj : join ps ≠ [] := fun h => by rw [h] at he; exact absurd he List.not_mem_nil
    obtain ⟨d, h1, h2⟩ := pairs_value kvs [] hkeys
    refine ⟨d, ?_, fun k => ?_⟩
    · rw [hopt hj, if_pos he, hk, h1]
    · rw [h2]
      cases value kvs.reverse k <;> rfl

/-! ## Examples -/

/-- "Grüße" is printed with buffers of four bytes, as the boundary is between characters. -/
example : saveStdout 4 (encode [71, 114, 252, 223, 101]) ⟨some "UTF-8".toList, []⟩
    = (⟨some "UTF-8".toList, [71, 114, 252, 223, 101]⟩, none) := by decide +kernel

/-- With buffers of three bytes it is not. -/
example : saveStdout 3 (encode [71, 114, 252, 223, 101]) ⟨some "UTF-8".toList, []⟩
    = (⟨some "UTF-8".toList, []⟩, some .unicode) := by decide +kernel

/-- With buffers of one byte the characters before it are printed. -/
example : saveStdout 1 (encode [71, 114, 252, 223, 101]) ⟨none, []⟩ = (⟨none, [71, 114]⟩, some .unicode) := by
  decide +kernel

example : streamSend (.file (encode [71, 114, 252, 8364, 128512])) ⟨some "utf-8".toList, [42]⟩
    = (⟨some "utf-8".toList, [42, 71, 114, 252, 8364, 128512]⟩, none) := by decide +kernel

example : Matching ⟨some "UTF-8".toList, []⟩ := Or.inr (Or.inr ⟨_, rfl, by decide +kernel⟩)

example : saveStdout 3 (encode [71, 114, 252, 223, 101]) ⟨some "latin-1".toList, []⟩
    = (⟨some "latin-1".toList, [71, 114, 101]⟩, none) := by decide +kernel

example : fileSend 2 true (.file [1, 2, 3, 4, 5]) (some [9, 9]) = (some [1, 2, 3, 4, 5], none) := by
  decide +kernel

example : exportToTransport (fileSend 2 false) [1, 2, 3] none ⟨false, true⟩ = (none, ⟨false, true⟩, some .os) := by
  decide +kernel

example : exportToTransport (oauthSend (.status 200)) [1, 2] [] ⟨false, false⟩
    = ([([1, 2], 200)], ⟨true, true⟩, none) := by decide +kernel

example : exportToTransport (oauthSend (.status 503)) [1, 2] [] ⟨false, false⟩
    = ([([1, 2], 503)], ⟨false, false⟩, some .transport) := by decide +kernel

example : options (some "a=1,b=x=y,a=2".toList)
    = some [("a".toList, "2".toList), ("b".toList, "x=y".toList)] := by decide +kernel

example : options (some "a=1,b".toList) = none := by decide +kernel

example : options (some "a=1,".toList) = none := by decide +kernel

/-- Surrogates and overlong encodings are not accepted. -/
example : decode [0xED, 0xA0, 0x80] = none ∧ decode [0xC0, 0x80] = none ∧ decode [0xE0, 0x80, 0x80] = none ∧
    decode [0xF4, 0x90, 0x80, 0x80] = none := by decide +kernel

end Verif.Transport
