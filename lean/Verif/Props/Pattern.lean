import Verif.Lemmas.Pattern

/-! # C30, C34: patterns in test plans and qualified identifiers -/

set_option linter.unusedSimpArgs false

namespace Verif.Pattern

/-! ## C34 -/

theorem hasSep_iff (s : Str) : hasSep s = true ↔ ∃ a b, s = a ++ ':' :: ':' :: b := by
  induction s with
  | nil => simp [hasSep]
  | cons c s ih =>
    simp only [hasSep, Bool.or_eq_true, Bool.and_eq_true, beq_iff_eq]
    constructor
    · rintro (⟨rfl, h⟩ | h)
      · cases s with
        | nil => simp at h
        | cons d s => simp at h; subst h; exact ⟨[], s, rfl⟩
      · obtain ⟨a, b, rfl⟩ := ih.1 h
        exact ⟨c :: a, b, rfl⟩
    · rintro ⟨a, b, h⟩
      cases a with
      | nil => simp at h; left; simp [h]
      | cons d a => simp at h; right; exact ih.2 ⟨a, b, h.2⟩

/-- C34: qualifying twice is the same as qualifying once. -/
theorem C34_idempotent (ns : Option Str) (s : Str) :
    qualifyId ns (qualifyId ns s) = qualifyId ns s := by
  cases ns with
  | none => rfl
  | some ns =>
    by_cases h : hasSep s = false
    · have : hasSep (ns ++ "::".toList ++ s) = true := (hasSep_iff _).2 ⟨ns, s, by simp⟩
      simp only [qualifyId, h, ↓reduceIte, this, Bool.true_eq_false]
    · simp only [Bool.not_eq_false] at h
      have hq : qualifyId (some ns) s = s := by simp [qualifyId, h]
      rw [hq, hq]

/-- C34: an identifier that has a namespace is left alone. -/
theorem C34_qualified (ns : Option Str) (a b : Str) :
    qualifyId ns (a ++ ':' :: ':' :: b) = a ++ ':' :: ':' :: b := by
  have : hasSep (a ++ ':' :: ':' :: b) = true := (hasSep_iff _).2 ⟨a, b, rfl⟩
  cases ns <;> simp [qualifyId, this]

/-- C34: the result always has a namespace when there is a provider, and it is the provider's if the
identifier had none. -/
theorem C34_result (ns s : Str) :
    (∃ a b, qualifyId (some ns) s = a ++ ':' :: ':' :: b) ∧
    ((¬ ∃ a b, s = a ++ ':' :: ':' :: b) → qualifyId (some ns) s = ns ++ ':' :: ':' :: s) := by
  by_cases h : hasSep s = false
  · have hq : qualifyId (some ns) s = ns ++ ':' :: ':' :: s := by simp [qualifyId, h]
    exact ⟨⟨ns, s, hq⟩, fun _ => hq⟩
  · simp only [Bool.not_eq_false] at h
    have hs := (hasSep_iff s).1 h
    exact ⟨by obtain ⟨a, b, rfl⟩ := hs; exact ⟨a, b, C34_qualified _ a b⟩, fun hn => absurd hs hn⟩

/-- C34: distinct unqualified identifiers stay distinct. -/
theorem C34_injective (ns : Option Str) (s t : Str) (hs : ¬ ∃ a b, s = a ++ ':' :: ':' :: b)
    (ht : ¬ ∃ a b, t = a ++ ':' :: ':' :: b) (h : qualifyId ns s = qualifyId ns t) : s = t := by
  cases ns with
  | none => exact h
  | some ns =>
    rw [(C34_result ns s).2 hs, (C34_result ns t).2 ht] at h
    simpa using h

example : qualifyId (some "2013.com".toList) "a:b".toList = "2013.com::a:b".toList := by decide +kernel
example : qualifyId (some "n".toList) "m::x::y".toList = "m::x::y".toList := by decide +kernel

/-! ## C30

The specification: `re.fullmatch` of the pattern as it is written. -/

/-- The pattern `T` matches the whole of `s`. -/
def Full (setMem : Str → Char → Bool) (T s : Str) : Prop :=
  ∃ bs, parseRe T = some bs ∧ ∃ b ∈ bs, MSeq setMem s b 0 s.length

variable {setMem : Str → Char → Bool}

@[simp] theorem mlit {s : Str} {c : Char} {i j : Nat} :
    MPiece setMem s (.lit c, .one) i j ↔ s[i]? = some c ∧ j = i + 1 := by
  constructor
  · intro h; cases h with | lit h => exact ⟨h, rfl⟩
  · rintro ⟨h, rfl⟩; exact .lit h

@[simp] theorem many {s : Str} {i j : Nat} :
    MPiece setMem s (.any, .one) i j ↔ (∃ c, s[i]? = some c ∧ c ≠ '\n') ∧ j = i + 1 := by
  constructor
  · intro h; cases h with | any h h' => exact ⟨⟨_, h, h'⟩, rfl⟩
  · rintro ⟨⟨c, h, h'⟩, rfl⟩; exact .any h h'

@[simp] theorem mbol {s : Str} {i j : Nat} : MPiece setMem s (.bol, .one) i j ↔ i = 0 ∧ j = 0 := by
  constructor
  · intro h; cases h; exact ⟨rfl, rfl⟩
  · rintro ⟨rfl, rfl⟩; exact .bol

@[simp] theorem meol {s : Str} {i j : Nat} : MPiece setMem s (.eol, .one) i j ↔
    (i = s.length ∨ (i + 1 = s.length ∧ s[i]? = some '\n')) ∧ j = i := by
  constructor
  · intro h; cases h with | eol h => exact ⟨h, rfl⟩
  · rintro ⟨h, rfl⟩; exact .eol h

def lits (w : Str) : List Piece := w.map fun c => (.lit c, .one)

theorem mseq_lits {s : Str} (w : Str) : ∀ i j, MSeq setMem s (lits w) i j ↔
    j = i + w.length ∧ ∀ k, k < w.length → s[i + k]? = w[k]? := by
  induction w with
  | nil => intro i j; simp [lits, MSeq]; exact eq_comm
  | cons c w ih =>
    intro i j
    have : lits (c :: w) = (.lit c, .one) :: lits w := rfl
    rw [this]
    simp only [MSeq, mlit, ih]
    constructor
    · rintro ⟨k, ⟨hc, rfl⟩, rfl, hs⟩
      refine ⟨by simp; omega, ?_⟩
      intro k hk
      cases k with
      | zero => simpa using hc
      | succ k =>
        have := hs k (by simpa using hk)
        rw [show i + (k + 1) = i + 1 + k by omega, this]; simp
    · rintro ⟨rfl, hs⟩
      refine ⟨i + 1, ⟨by simpa using hs 0 (by simp), rfl⟩, by simp; omega, ?_⟩
      intro k hk
      have := hs (k + 1) (by simpa using hk)
      rw [show i + (k + 1) = i + 1 + k by omega] at this
      rw [this]; simp

theorem full_lits {T w : Str} (h : parseRe T = some [lits w]) (s : Str) :
    Full setMem T s ↔ s = w := by
  unfold Full
  rw [h]
  simp only [Option.some.injEq, exists_eq_left', List.mem_singleton, exists_eq_left, mseq_lits]
  constructor
  · rintro ⟨hl, hs⟩
    apply List.ext_getElem?
    intro k
    by_cases hk : k < w.length
    · simpa using hs k hk
    · rw [List.getElem?_eq_none (by omega), List.getElem?_eq_none (by omega)]
  · rintro rfl
    exact ⟨by omega, fun k hk => by simp⟩

theorem reParse_lits {T w : Str} (h : parseRe T = some [lits w]) : reParse T = some (.fixed T) := by
  unfold reParse
  rw [h]
  have : (lits w).all Piece.isLit = true := by
    simp [lits, Piece.isLit]
  simp [this]

/-- C30, fixed text, exactly: when the regular expression is a string in disguise (`w`), the line
selects the id with the pattern's text, while the expression matches the id with the text `w`. The
two agree exactly when the pattern is written without escapes. -/
theorem C30_fixed_partial (ns T w : Str) (h : parseRe T = some [lits w]) (hq : hasSep T = false) :
    (∀ s, selects setMem (some ns) T (ns ++ ':' :: ':' :: s) ↔ s = T) ∧
    (∀ s, Full setMem T s ↔ s = w) ∧
    ((∀ s, selects setMem (some ns) T (ns ++ ':' :: ':' :: s) ↔ Full setMem T s) ↔ T = w) := by
  have h1 : ∀ s, selects setMem (some ns) T (ns ++ ':' :: ':' :: s) ↔ s = T := by
    intro s
    unfold selects
    rw [reParse_lits h]
    simp [matcherOf, Matcher.matches, qualifyId, hq]
  have h2 := full_lits (setMem := setMem) h
  refine ⟨h1, h2, ?_⟩
  constructor
  · intro hh
    have := (hh T).1 ((h1 T).2 rfl)
    exact (h2 T).1 this
  · rintro rfl s
    rw [h1, h2]

theorem parse_plain {T : Str} (h : ∀ c ∈ T, Plain c) : parseRe T = some [lits T] := by
  unfold parseRe
  rw [run_plain T [] (fun c hc => .inl (h c hc))]
  simp only [List.nil_append, Option.some.injEq, List.cons.injEq, and_true, lits]
  apply List.map_congr_left
  intro c hc
  simp [atomOf, (h c hc).2.2.1]

/-- C30 for plain text: a line without special characters selects exactly the ids that the anchored
expression matches, with or without a namespace of its own. -/
theorem C30_plain (ns : Str) (T id : Str) (h : ∀ c ∈ T, Plain c) :
    selects setMem (some ns) T id ↔
      if hasSep T then Full setMem T id else ∃ s, id = ns ++ ':' :: ':' :: s ∧ Full setMem T s := by
  have hp := parse_plain h
  cases hq : hasSep T
  · simp only [Bool.false_eq_true, ↓reduceIte, full_lits hp]
    unfold selects
    rw [reParse_lits hp]
    simp [matcherOf, Matcher.matches, qualifyId, hq]
  · simp only [↓reduceIte, full_lits hp]
    unfold selects
    rw [reParse_lits hp]
    simp [matcherOf, Matcher.matches, qualifyId, hq]

example : ∀ c ∈ "usb/detect-1_x".toList, Plain c := by decide +kernel

/-- C30 is violated by an escaped dot: the line `a\.b` does not select the job `a.b`, although the
expression matches it, and nothing but a job called `a\.b` is selected. -/
theorem C30_escape_violated :
    Full setMem "a\\.b".toList "a.b".toList ∧
    ¬ selects setMem (some ['n']) "a\\.b".toList "n::a.b".toList ∧
    selects setMem (some ['n']) "a\\.b".toList "n::a\\.b".toList := by
  have hp : parseRe "a\\.b".toList = some [lits "a.b".toList] := by rfl
  obtain ⟨h1, h2, _⟩ := C30_fixed_partial (setMem := setMem) ['n'] _ _ hp (by decide)
  exact ⟨(h2 _).2 rfl, fun h => absurd ((h1 "a.b".toList).1 h) (by decide), (h1 _).2 rfl⟩

/-- The text of a pattern around its core. -/
inductive Around : Str → Str → Prop
  | none {C : Str} : C.head? ≠ some '^' → C.getLast? ≠ some '$' → Around C C
  | caret {C : Str} : C.getLast? ≠ some '$' → Around ('^' :: C) C
  | dollar {C : Str} : C.head? ≠ some '^' → Around (C ++ ['$']) C
  | both {C : Str} : Around ('^' :: C ++ ['$']) C

theorem qualifyPattern_around {text C : Str} (h : Around text C) (ns : Option Str) :
    qualifyPattern ns text = '^' :: qualifyId ns C ++ ['$'] := by
  cases h with
  | none h1 h2 => simp [qualifyPattern, h1, h2]
  | caret h2 =>
    have : ('^' :: C).getLast? ≠ some '$' := by
      cases C with
      | nil => simp
      | cons c C => simpa using h2
    simp [qualifyPattern, this]
  | dollar h1 =>
    by_cases hC : C = []
    · subst hC
      simp [qualifyPattern]
    · have : (C ++ ['$']).head? ≠ some '^' := by
        cases C with
        | nil => exact absurd rfl hC
        | cons c C => simpa using h1
      simp only [qualifyPattern, this, false_and, ↓reduceIte]
      simp
  | both =>
    have hl : ('^' :: C ++ ['$']).getLast? = some '$' := by
      rw [List.getLast?_append]; rfl
    have hh : ('^' :: C ++ ['$']).head? = some '^' := rfl
    simp only [qualifyPattern, hl, hh, and_self, ↓reduceIte]
    simp

theorem run_colons : ∀ c ∈ "::".toList, Plain c := by decide +kernel

theorem full_single {C : Str} {b : List Piece} (h : parseRe C = some [b]) (s : Str) :
    Full setMem C s ↔ MSeq setMem s b 0 s.length := by
  unfold Full
  rw [h]
  simp

theorem eol_end {id : Str} (hn : '\n' ∉ id) {k j : Nat} :
    MSeq setMem id [(.eol, .one)] k j ↔ k = id.length ∧ j = k := by
  simp only [MSeq, meol]
  constructor
  · rintro ⟨m, ⟨h | ⟨_, h⟩, rfl⟩, rfl⟩
    · exact ⟨h, rfl⟩
    · exact absurd (List.mem_of_getElem? h) hn
  · rintro ⟨h, rfl⟩
    exact ⟨j, ⟨.inl h, rfl⟩, rfl⟩

/-- C30, patterns, partial: a pattern with one top-level alternative and no anchors inside, written
with or without the outer `^` and `$`, selects exactly the ids whose part after the namespace is
matched in full, where a dot in the namespace stands for any character. What is missing: patterns
with `|` outside parentheses, and exactness of the namespace (see the violations below). -/
theorem C30_pattern_partial (ns text C : Str) (b : List Piece) (id : Str)
    (hns : ∀ c ∈ ns, Plain c ∨ c = '.') (ht : Around text C) (hp : parseRe C = some [b])
    (hf : ∀ p ∈ b, Free p.1) (hpat : reParse text = some (.pattern text)) (hq : hasSep C = false)
    (hn : '\n' ∉ id) :
    selects setMem (some ns) text id ↔
      ∃ u s, id = u ++ ':' :: ':' :: s ∧ DotEq ns u ∧ Full setMem C s := by
  have hnc : ∀ c ∈ ns ++ "::".toList, Plain c ∨ c = '.' := by
    intro c hc
    rcases List.mem_append.1 hc with hc | hc
    · exact hns c hc
    · exact .inl (run_colons c hc)
  have hpre := run_caret hnc
  have hpp := (parse_around hpre hp).2
  have htext : qualifyPattern (some ns) text = '^' :: (ns ++ "::".toList) ++ C ++ ['$'] := by
    rw [qualifyPattern_around ht]
    simp [qualifyId, hq]
  unfold selects
  rw [hpat]
  simp only [Option.some.injEq, exists_eq_left', matcherOf, Matcher.matches, htext, hpp, reMatch,
    List.mem_singleton, exists_eq_left]
  constructor
  · rintro ⟨j, hj⟩
    rw [mseq_append, List.cons_append] at hj
    obtain ⟨k, hk, he⟩ := hj
    obtain ⟨rfl, _⟩ := (eol_end hn).1 he
    simp only [MSeq, mbol] at hk
    obtain ⟨_, ⟨_, rfl⟩, hk⟩ := hk
    rw [mseq_append] at hk
    obtain ⟨m, hm, hb⟩ := hk
    obtain ⟨u, r, hid, hu, rfl⟩ := (mseq_plain_zero _ _).1 hm
    subst hid
    have h2 := (shift_seq u hf 0 (u ++ r).length).1 (by simpa using hb)
    obtain ⟨j, hj, hb'⟩ := h2
    have hj' : j = r.length := by simp at hj; omega
    subst hj'
    -- split the prefix into the namespace and the two colons
    have hsplit : ∀ (t u : Str), DotEq (t ++ "::".toList) u →
        ∃ v, u = v ++ [':', ':'] ∧ DotEq t v := by
      intro t
      induction t with
      | nil =>
        intro u hu
        match u, hu with
        | [a, b], hu =>
          refine ⟨[], ?_, trivial⟩
          have h1 : a = ':' := hu.1
          have h2 : b = ':' := hu.2.1
          simp [h1, h2]
        | [], hu => exact absurd hu (by simp [DotEq])
        | [a], hu => exact absurd hu.2 (by simp [DotEq])
        | a :: b :: c :: l, hu => exact absurd hu.2.2 (by simp [DotEq])
      | cons p t ih =>
        intro u hu
        match u, hu with
        | [], hu => exact absurd hu (by simp [DotEq])
        | c :: u, hu =>
          obtain ⟨v, rfl, hv⟩ := ih u hu.2
          exact ⟨c :: v, rfl, hu.1, hv⟩
    obtain ⟨v, rfl, hv⟩ := hsplit ns u hu
    exact ⟨v, r, by simp, hv, (full_single hp r).2 hb'⟩
  · rintro ⟨u, s, rfl, hu, hs⟩
    refine ⟨(u ++ ':' :: ':' :: s).length, ?_⟩
    rw [mseq_append, List.cons_append]
    refine ⟨(u ++ ':' :: ':' :: s).length, ?_, (eol_end hn).2 ⟨rfl, rfl⟩⟩
    refine ⟨0, mbol.2 ⟨rfl, rfl⟩, ?_⟩
    rw [mseq_append]
    refine ⟨(u ++ [':', ':']).length, (mseq_plain_zero _ _).2 ⟨u ++ [':', ':'], s, by simp, ?_, rfl⟩, ?_⟩
    · have : ∀ (t u : Str), DotEq t u → DotEq (t ++ "::".toList) (u ++ [':', ':']) := by
        intro t
        induction t with
        | nil =>
          intro u hu
          match u, hu with
          | [], _ => simp [DotEq]
        | cons p t ih =>
          intro u hu
          match u, hu with
          | c :: u, hu => exact ⟨hu.1, ih u hu.2⟩
      exact this ns u hu
    · have := (shift_seq (setMem := setMem) (u ++ [':', ':']) hf 0 (u ++ ':' :: ':' :: s).length).2
        ⟨s.length, by simp; omega, (full_single hp s).1 hs⟩
      simpa using this

theorem dotEq_refl : ∀ {t : Str}, '\n' ∉ t → DotEq t t
  | [], _ => trivial
  | c :: t, h => by
    refine ⟨?_, dotEq_refl (fun hm => h (List.mem_cons_of_mem _ hm))⟩
    split
    · rintro rfl; exact h (by simp)
    · rfl

/-- C30 for the jobs of the test plan's own provider: the pattern selects exactly the jobs whose
partial id it matches in full. -/
theorem C30_own_namespace_partial (ns text C : Str) (b : List Piece) (s : Str)
    (hns : ∀ c ∈ ns, Plain c ∨ c = '.') (ht : Around text C) (hp : parseRe C = some [b])
    (hf : ∀ p ∈ b, Free p.1) (hpat : reParse text = some (.pattern text)) (hq : hasSep C = false)
    (hn : '\n' ∉ ns ++ ':' :: ':' :: s) :
    selects setMem (some ns) text (ns ++ ':' :: ':' :: s) ↔ Full setMem C s := by
  rw [C30_pattern_partial ns text C b _ hns ht hp hf hpat hq hn]
  constructor
  · rintro ⟨u, s', h, hu, hs⟩
    have hl := hu.length
    obtain ⟨rfl, h2⟩ := List.append_inj h hl
    simp at h2
    rw [h2]; exact hs
  · intro h
    exact ⟨ns, s, rfl, dotEq_refl (fun hm => hn (by simp [hm])), h⟩

/-- C30 for patterns that name a namespace themselves. -/
theorem C30_qualified_partial (ns : Option Str) (text C : Str) (b : List Piece) (id : Str)
    (ht : Around text C) (hp : parseRe C = some [b])
    (hpat : reParse text = some (.pattern text)) (hq : hasSep C = true)
    (hn : '\n' ∉ id) :
    selects setMem ns text id ↔ Full setMem C id := by
  have hpre : run init ['^'] = some ⟨.normal, ⟨[], [(.bol, .one)]⟩, []⟩ := by
    simpa using run_caret (t := []) (by simp)
  have hpp := (parse_around hpre hp).2
  have htext : qualifyPattern ns text = ['^'] ++ C ++ ['$'] := by
    rw [qualifyPattern_around ht]
    cases ns <;> simp [qualifyId, hq]
  unfold selects
  rw [hpat]
  simp only [Option.some.injEq, exists_eq_left', matcherOf, Matcher.matches, htext, hpp, reMatch,
    List.mem_singleton, exists_eq_left]
  rw [full_single hp]
  constructor
  · rintro ⟨j, hj⟩
    rw [mseq_append] at hj
    obtain ⟨k, hk, he⟩ := hj
    obtain ⟨rfl, _⟩ := (eol_end hn).1 he
    simp only [List.cons_append, List.nil_append, MSeq, mbol] at hk
    obtain ⟨_, ⟨_, rfl⟩, hk⟩ := hk
    exact hk
  · intro h
    refine ⟨id.length, ?_⟩
    rw [mseq_append]
    exact ⟨id.length, ⟨0, mbol.2 ⟨rfl, rfl⟩, h⟩, (eol_end hn).2 ⟨rfl, rfl⟩⟩

/-- The pattern `^usb(/.*)?-[ab]+` of a provider with dots in its namespace meets the hypotheses. -/
example : ∃ b, parseRe "usb(/.*)?-[ab]+".toList = some [b] ∧ (∀ p ∈ b, Free p.1) ∧
    Around "^usb(/.*)?-[ab]+".toList "usb(/.*)?-[ab]+".toList ∧
    reParse "^usb(/.*)?-[ab]+".toList = some (.pattern "^usb(/.*)?-[ab]+".toList) ∧
    hasSep "usb(/.*)?-[ab]+".toList = false ∧
    (∀ c ∈ "2013.com.canonical".toList, Plain c ∨ c = '.') ∧
    Full (fun _ c => c == 'a' || c == 'b') "usb(/.*)?-[ab]+".toList "usb/x-ab".toList := by
  refine ⟨_, rfl, ?_, .caret (by decide), by rfl, by decide, by decide +kernel, ?_⟩
  · intro p hp
    simp only [PS.add, List.nil_append, List.cons_append, List.dropLast, setAtom,
      List.mem_cons, List.not_mem_nil, or_false] at hp
    rcases hp with rfl | rfl | rfl | rfl | rfl | rfl
    · exact .lit
    · exact .lit
    · exact .lit
    · refine .group ?_
      intro b hb q hq
      simp only [List.mem_singleton] at hb
      subst hb
      simp only [List.mem_cons, List.not_mem_nil, or_false] at hq
      rcases hq with rfl | rfl
      · exact .lit
      · exact .any
    · exact .lit
    · exact .set
  · rw [full_single rfl]
    refine ⟨1, mlit.2 ⟨rfl, rfl⟩, 2, mlit.2 ⟨rfl, rfl⟩, 3, mlit.2 ⟨rfl, rfl⟩, 5, ?_, 6,
      mlit.2 ⟨rfl, rfl⟩, 8, ?_, rfl⟩
    · refine .optSome (.group (List.mem_singleton.2 rfl) rfl (mlit.2 ⟨rfl, rfl⟩) ?_)
      refine .group (List.mem_singleton.2 rfl) rfl
        (.starSome (many.2 ⟨⟨'x', rfl, by decide⟩, rfl⟩) .starNone) (.empty (by simp))
    · exact .plus (.set (c := 'a') rfl rfl) (.starSome (.set (c := 'b') rfl rfl) .starNone)

/-! ### Where patterns and expressions disagree -/

/-- C30 is violated by `|` at top level: `foo|bar` becomes `^n::foo|bar$`, which selects
`n::foobaz` and does not select `n::bar`. -/
theorem C30_alternation_violated :
    Full setMem "foo|bar".toList "bar".toList ∧
    ¬ Full setMem "foo|bar".toList "foobaz".toList ∧
    ¬ selects setMem (some ['n']) "foo|bar".toList "n::bar".toList ∧
    selects setMem (some ['n']) "foo|bar".toList "n::foobaz".toList := by
  have hp : parseRe "foo|bar".toList = some [lits "foo".toList, lits "bar".toList] := rfl
  have hs : reParse "foo|bar".toList = some (.pattern "foo|bar".toList) := rfl
  have hq : parseRe (qualifyPattern (some ['n']) "foo|bar".toList) =
      some [(.bol, .one) :: lits "n::foo".toList, lits "bar".toList ++ [(.eol, .one)]] := rfl
  refine ⟨⟨_, hp, lits "bar".toList, by simp, ?_⟩, ?_, ?_, ?_⟩
  · exact (mseq_lits _ _ _).2 ⟨rfl, by decide⟩
  · rintro ⟨bs, hbs, b, hb, hm⟩
    rw [hp] at hbs
    cases hbs
    simp only [List.mem_cons, List.not_mem_nil, or_false] at hb
    rcases hb with rfl | rfl
    · exact absurd ((mseq_lits _ _ _).1 hm).1 (by decide)
    · exact absurd ((mseq_lits _ _ _).1 hm).1 (by decide)
  · rintro ⟨re, hre, hm⟩
    rw [hs] at hre
    cases hre
    obtain ⟨bs, hbs, b, hb, j, hm⟩ := hm
    rw [hq] at hbs
    cases hbs
    simp only [List.mem_cons, List.not_mem_nil, or_false] at hb
    rcases hb with rfl | rfl
    · obtain ⟨k, hk, hm⟩ := hm
      obtain ⟨_, rfl⟩ := mbol.1 hk
      have := ((mseq_lits _ _ _).1 hm).2 3 (by decide)
      exact absurd this (by decide)
    · rw [mseq_append] at hm
      obtain ⟨k, hm, _⟩ := hm
      have := ((mseq_lits _ _ _).1 hm).2 0 (by decide)
      exact absurd this (by decide)
  · refine ⟨_, hs, _, hq, _, List.mem_cons_self, 6, 0, mbol.2 ⟨rfl, rfl⟩, ?_⟩
    exact (mseq_lits _ _ _).2 ⟨rfl, by decide⟩

/-- C30 is violated by an escaped dollar sign at the end: it is taken for the anchor, so `fo.\$`
becomes `^n::fo.\$`, which selects `n::foo$x`. -/
theorem C30_dollar_violated :
    ¬ Full setMem "fo.\\$".toList "foo$x".toList ∧
    selects setMem (some ['n']) "fo.\\$".toList "n::foo$x".toList := by
  have hp : parseRe "fo.\\$".toList = some [lits "fo".toList ++ (.any, .one) :: lits "$".toList] := rfl
  have hs : reParse "fo.\\$".toList = some (.pattern "fo.\\$".toList) := rfl
  have hq : parseRe (qualifyPattern (some ['n']) "fo.\\$".toList) =
      some [(.bol, .one) :: (lits "n::fo".toList ++ (.any, .one) :: lits "$".toList)] := rfl
  constructor
  · rintro ⟨bs, hbs, b, hb, hm⟩
    rw [hp] at hbs
    cases hbs
    simp only [List.mem_singleton] at hb
    subst hb
    rw [mseq_append] at hm
    obtain ⟨k, h1, k2, h2, h3⟩ := hm
    have e1 := ((mseq_lits _ _ _).1 h1).1
    have e2 := (many.1 h2).2
    have e3 := ((mseq_lits _ _ _).1 h3).1
    simp at e1 e2 e3
    omega
  · refine ⟨_, hs, _, hq, _, List.mem_cons_self, 7, 0, mbol.2 ⟨rfl, rfl⟩, ?_⟩
    rw [mseq_append]
    refine ⟨5, (mseq_lits _ _ _).2 ⟨rfl, by decide⟩, 6, many.2 ⟨⟨'o', rfl, by decide⟩, rfl⟩, ?_⟩
    exact (mseq_lits _ _ _).2 ⟨rfl, by decide⟩

/-- C30 is violated by the dots of a namespace: the pattern `fo.` of the provider `a.b` selects a
job of the provider `axb`. -/
theorem C30_namespace_violated :
    selects setMem (some "a.b".toList) "fo.".toList "axb::foo".toList := by
  have hp : parseRe "fo.".toList = some [lits "fo".toList ++ [(.any, .one)]] := rfl
  rw [C30_pattern_partial "a.b".toList "fo.".toList "fo.".toList _ "axb::foo".toList
    (by decide +kernel) (.none (by decide) (by decide)) hp ?_ rfl (by decide) (by decide)]
  · refine ⟨"axb".toList, "foo".toList, rfl, ?_, (full_single hp _).2 ?_⟩
    · simp [DotEq]
    · rw [mseq_append]
      exact ⟨2, (mseq_lits _ _ _).2 ⟨rfl, by decide⟩, 3, many.2 ⟨⟨'o', rfl, by decide⟩, rfl⟩, rfl⟩
  · intro p hp
    simp only [lits, List.mem_append, List.mem_map, List.mem_singleton] at hp
    rcases hp with ⟨c, _, rfl⟩ | rfl
    · exact .lit
    · exact .any

end Verif.Pattern
