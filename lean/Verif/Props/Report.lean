import Mathlib.Data.List.Forall2
import Verif.Model.Report
import Verif.Props.Stream

/-!
# C110: The text report tells the outcome of each job
-/

namespace Verif.Report

open Verif.Checksum (Str)
open Verif.Stream (encode decode)

/-! ## Specification -/

/-- The words for an outcome. -/
inductive Words : Option Str → Str → Prop
  | none : Words none "job didn't run".toList
  | pass : Words (some "pass".toList) "job passed".toList
  | fail : Words (some "fail".toList) "job failed".toList
  | skip : Words (some "skip".toList) "job skipped".toList
  | notSupported : Words (some "not-supported".toList) "job cannot be started".toList
  | notImplemented : Words (some "not-implemented".toList) "job is not implemented".toList
  | undecided : Words (some "undecided".toList) "job needs verification".toList
  | crash : Words (some "crash".toList) "job crashed".toList

/-- The outcomes that there are. -/
def Known (o : Option Str) : Prop := ∃ t, Words o t

/-- The line says that the outcome is this and that the summary is that. -/
def Says (line : Str) (r : Row) : Prop :=
  ∃ a b t, Words r.outcome t ∧ line = List.replicate a ' ' ++ t ++ List.replicate b ' ' ++ ':' :: ' ' :: r.summary

/-- Lines, each with a newline behind it. -/
def unlines (l : List Str) : Str := l.flatMap (· ++ ['\n'])

/-- The jobs that have a result. -/
def shown (rows : List Row) : List Row := rows.filter (!·.hollow)

/-- All outcomes that a row has, also former ones. -/
def Fine (r : Row) : Prop := Known r.outcome ∧ ∀ o ∈ r.history, Known o

/-! ## Lemmas -/

theorem meta_words (o : Option Str) (t : Str) : (outcomeMeta o).map (·.text) = some t ↔ Words o t := by
  constructor
  · intro h
    unfold outcomeMeta at h
    rw [Option.map_map] at h
    obtain ⟨x, hx, e⟩ := Option.map_eq_some_iff.1 h
    have h1 := List.find?_some hx
    have h2 := List.mem_of_find?_eq_some hx
    have h3 : x.1 = o := by simpa using h1
    subst h3
    subst e
    clear h h1 hx
    unfold table at h2
    simp only [List.mem_cons, List.not_mem_nil, or_false] at h2
    rcases h2 with h | h | h | h | h | h | h | h <;> subst h
    · exact .none
    · exact .pass
    · exact .fail
    · exact .skip
    · exact .notSupported
    · exact .notImplemented
    · exact .undecided
    · exact .crash
  · intro h
    cases h <;> decide +kernel

theorem known_iff (o : Option Str) : Known o ↔ ∃ m, outcomeMeta o = some m := by
  constructor
  · rintro ⟨t, h⟩
    obtain ⟨m, hm, _⟩ := Option.map_eq_some_iff.1 ((meta_words o t).2 h)
    exact ⟨m, hm⟩
  · rintro ⟨m, h⟩
    exact ⟨m.text, (meta_words o _).1 (by rw [h]; rfl)⟩

theorem words_det {o : Option Str} {t t' : Str} (h : Words o t) (h' : Words o t') : t = t' := by
  have := (meta_words o t).2 h
  rw [(meta_words o t').2 h'] at this
  exact (Option.some.inj this).symm

theorem words_inj {o o' : Option Str} {t : Str} (h : Words o t) (h' : Words o' t) : o = o' := by
  generalize ht : t = t' at h'
  cases h <;> cases h' <;> first | rfl | (exact absurd ht (by decide +kernel))

/-- The words have no colon and neither begin nor end with a blank. -/
theorem words_good {o : Option Str} {t : Str} (h : Words o t) :
    ':' ∉ t ∧ '\n' ∉ t ∧ t.head? ≠ some ' ' ∧ t.getLast? ≠ some ' ' ∧ t ≠ [] := by
  cases h <;> decide +kernel

theorem all_some (f : Meta → Str) (l : List (Option Str)) : (∃ x, all f l = some x) ↔ ∀ o ∈ l, Known o := by
  induction l with
  | nil => exact ⟨fun _ => nofun, fun _ => ⟨_, rfl⟩⟩
  | cons o l ih =>
    rw [all]
    constructor
    · rintro ⟨x, h⟩ o' ho
      obtain ⟨m, hm, h⟩ := Option.bind_eq_some_iff.1 h
      obtain ⟨y, hy, _⟩ := Option.map_eq_some_iff.1 h
      rcases List.mem_cons.1 ho with e | ho
      · exact e ▸ (known_iff _).2 ⟨m, hm⟩
      · exact ih.1 ⟨y, hy⟩ o' ho
    · intro h
      obtain ⟨m, hm⟩ := (known_iff _).1 (h o List.mem_cons_self)
      obtain ⟨y, hy⟩ := ih.2 fun o' ho => h o' (List.mem_cons_of_mem _ ho)
      exact ⟨f m :: y, by rw [hm, Option.bind_some, hy]; rfl⟩

theorem all_none (f : Meta → Str) {l : List (Option Str)} (h : ¬ ∀ o ∈ l, Known o) : all f l = none := by
  cases e : all f l with
  | none => rfl
  | some x => exact absurd ((all_some f l).1 ⟨x, e⟩) h

theorem unlines_append (a b : List Str) : unlines (a ++ b) = unlines a ++ unlines b := by simp [unlines]

theorem unlines_inj {a b : List Str} (ha : ∀ l ∈ a, '\n' ∉ l) (hb : ∀ l ∈ b, '\n' ∉ l) (h : unlines a = unlines b) : a = b := by
  have first : ∀ (l r : Str), '\n' ∉ l → (l ++ '\n' :: r).takeWhile (· ≠ '\n') = l := by
    intro l r hl
    induction l with
    | nil => simp
    | cons c l ih =>
      simp only [List.mem_cons, not_or] at hl
      rw [List.cons_append, List.takeWhile_cons, if_pos (by simpa using Ne.symm hl.1), ih hl.2]
  induction a generalizing b with
  | nil =>
    cases b with
    | nil => rfl
    | cons l b => simp [unlines] at h
  | cons l a ih =>
    cases b with
    | nil => simp [unlines] at h
    | cons m b =>
      have h' : l ++ '\n' :: unlines a = m ++ '\n' :: unlines b := by simpa [unlines] using h
      have e : l = m := by
        have := congrArg (List.takeWhile (· ≠ '\n')) h'
        rwa [first _ _ (ha l List.mem_cons_self), first _ _ (hb m List.mem_cons_self)] at this
      subst e
      have h2 := (List.cons.inj (List.append_cancel_left h')).2
      rw [ih (fun x hx => ha x (List.mem_cons_of_mem _ hx)) (fun x hx => hb x (List.mem_cons_of_mem _ hx)) h2]

/-- What a line says is certain. -/
theorem says_unique {line : Str} {r r' : Row} (h : Says line r) (h' : Says line r') :
    r.outcome = r'.outcome ∧ r.summary = r'.summary := by
  obtain ⟨a, b, t, hw, e⟩ := h
  obtain ⟨a', b', t', hw', e'⟩ := h'
  obtain ⟨g1, _, g2, g3, g4⟩ := words_good hw
  obtain ⟨g1', _, g2', g3', g4'⟩ := words_good hw'
  have first : ∀ (l r : Str), ':' ∉ l → (l ++ ':' :: r).takeWhile (· ≠ ':') = l := by
    intro l r hl
    induction l with
    | nil => simp
    | cons c l ih =>
      simp only [List.mem_cons, not_or] at hl
      rw [List.cons_append, List.takeWhile_cons, if_pos (by simpa using Ne.symm hl.1), ih hl.2]
  have nc : ∀ (n m : Nat) (t : Str), ':' ∉ t → ':' ∉ List.replicate n ' ' ++ t ++ List.replicate m ' ' := by
    intro n m t ht hm
    simp only [List.mem_append, List.mem_replicate] at hm
    rcases hm with (hm | hm) | hm
    · exact absurd hm.2 (by decide)
    · exact ht hm
    · exact absurd hm.2 (by decide)
  rw [e] at e'
  have p : List.replicate a ' ' ++ t ++ List.replicate b ' ' = List.replicate a' ' ' ++ t' ++ List.replicate b' ' ' := by
    have := congrArg (List.takeWhile (· ≠ ':')) e'
    rwa [first _ _ (nc a b t g1), first _ _ (nc a' b' t' g1')] at this
  rw [p] at e'
  have hs := (List.cons.inj (List.cons.inj (List.append_cancel_left e')).2).2
  refine ⟨?_, hs⟩
  have drop : ∀ (n : Nat) (u : Str), u.head? ≠ some ' ' → (List.replicate n ' ' ++ u).dropWhile (· = ' ') = u := by
    intro n u hu
    induction n with
    | zero =>
      cases u with
      | nil => rfl
      | cons c u =>
        rw [show List.replicate 0 ' ' = ([] : Str) from rfl, List.nil_append, List.dropWhile_cons, if_neg]
        intro hc
        exact hu (by simpa using hc)
    | succ n ih => rw [List.replicate_succ, List.cons_append, List.dropWhile_cons, if_pos (by decide), ih]
  have hh : ∀ (u : Str) (n : Nat), u ≠ [] → u.head? ≠ some ' ' → (u ++ List.replicate n ' ').head? ≠ some ' ' := by
    intro u n h1 h2
    cases u with
    | nil => exact absurd rfl h1
    | cons c u => simpa using h2
  rw [List.append_assoc, List.append_assoc] at p
  have p2 : t ++ List.replicate b ' ' = t' ++ List.replicate b' ' ' := by
    have := congrArg (List.dropWhile (· = ' ')) p
    rwa [drop _ _ (hh t b g4 g2), drop _ _ (hh t' b' g4' g2')] at this
  have p3 : t = t' := by
    have := congrArg List.reverse p2
    rw [List.reverse_append, List.reverse_append, List.reverse_replicate, List.reverse_replicate] at this
    have := congrArg (List.dropWhile (· = ' ')) this
    rw [drop _ _ (by rwa [List.head?_reverse]), drop _ _ (by rwa [List.head?_reverse])] at this
    exact List.reverse_inj.1 this
  exact words_inj hw (p3 ▸ hw')

theorem dump_hollow (on : Bool) (rows : List Row) : dump on rows = dump on (shown rows) := by
  induction rows with
  | nil => rfl
  | cons r l ih =>
    unfold shown at *
    cases hr : r.hollow with
    | true => rw [dump, if_pos hr, ih, List.filter_cons, if_neg (by simp [hr])]
    | false =>
      rw [List.filter_cons, if_pos (by simp [hr]), dump, dump, ih]

/-! ## C110 -/

theorem plainRow_ok {r : Row} (h : Fine r) : (plainRow r).raised = false ∧
    ∃ m, outcomeMeta r.outcome = some m ∧ (plainRow r).stream = encode (centre m.text ++ ": ".toList ++ r.summary ++ ['\n']) := by
  obtain ⟨m, hm⟩ := (known_iff _).1 h.1
  obtain ⟨x, hx⟩ := (all_some (fun m => custom false m.sigil m.ansi) _).2 h.2
  unfold plainRow
  rw [hm]
  by_cases hh : r.history ≠ []
  · simp only [if_pos hh, hx]
    exact ⟨trivial, m, rfl, rfl⟩
  · simp only [if_neg hh]
    exact ⟨trivial, m, rfl, rfl⟩

/-- **C110, part 1.** Without colours, the report has a line for each job that has a result, in the order in which they were run,
with the outcome in words and the summary. -/
theorem C110_plain (rows : List Row) (h : ∀ r ∈ shown rows, Fine r) :
    (dump false rows).raised = false ∧
    ∃ lines, (dump false rows).stream = encode (unlines lines) ∧ List.Forall₂ Says lines (shown rows) := by
  rw [dump_hollow]
  have hall : ∀ r ∈ shown rows, r.hollow = false := by
    intro r hr
    simpa using (List.mem_filter.1 hr).2
  generalize shown rows = l at h hall
  induction l with
  | nil => exact ⟨rfl, [], rfl, .nil⟩
  | cons r l ih =>
    obtain ⟨h1, lines, h2, h3⟩ := ih (fun r hr => h r (List.mem_cons_of_mem _ hr)) fun r hr => hall r (List.mem_cons_of_mem _ hr)
    obtain ⟨g1, m, hm, g2⟩ := plainRow_ok (h r List.mem_cons_self)
    have hh := hall r List.mem_cons_self
    rw [dump, if_neg (by simp [hh])]
    simp only [Bool.false_eq_true, if_false, g1]
    refine ⟨h1, (centre m.text ++ ": ".toList ++ r.summary) :: lines, ?_, .cons ?_ h3⟩
    · rw [g2, h2, ← Stream.encode_append]
      simp [unlines]
    · refine ⟨(15 - m.text.length) / 2, 15 - m.text.length - (15 - m.text.length) / 2, m.text,
        (meta_words _ _).1 (by rw [hm]; rfl), ?_⟩
      unfold centre
      simp

theorem says_plain {line : Str} {r : Row} (h : Says line r) (hs : '\n' ∉ r.summary) : '\n' ∉ line := by
  obtain ⟨a, b, t, hw, rfl⟩ := h
  have := (words_good hw).2.1
  simp only [List.mem_append, List.mem_replicate, List.mem_cons, not_or]
  exact ⟨⟨⟨fun h => absurd h.2 (by decide), this⟩, fun h => absurd h.2 (by decide)⟩, by decide, by decide, hs⟩

/-- **C110, part 2.** So the report tells which jobs had which outcome: sessions that have the same report have the same outcomes
and summaries. Partial: not if a summary has more than one line. -/
theorem C110_unique_partial (rows rows' : List Row) (h : ∀ r ∈ shown rows, Fine r ∧ '\n' ∉ r.summary)
    (h' : ∀ r ∈ shown rows', Fine r ∧ '\n' ∉ r.summary) (he : (dump false rows).stream = (dump false rows').stream) :
    (shown rows).map (fun r => (r.outcome, r.summary)) = (shown rows').map (fun r => (r.outcome, r.summary)) := by
  obtain ⟨_, lines, e, hf⟩ := C110_plain rows fun r hr => (h r hr).1
  obtain ⟨_, lines', e', hf'⟩ := C110_plain rows' fun r hr => (h' r hr).1
  have nl : ∀ {ls : List Str} {rs : List Row}, List.Forall₂ Says ls rs → (∀ r ∈ rs, '\n' ∉ r.summary) → ∀ l ∈ ls, '\n' ∉ l := by
    intro ls rs hf
    induction hf with
    | nil => exact fun _ => nofun
    | cons h1 _ ih =>
      intro hr l hl
      rcases List.mem_cons.1 hl with e | hl
      · exact e ▸ says_plain h1 (hr _ List.mem_cons_self)
      · exact ih (fun r hm => hr r (List.mem_cons_of_mem _ hm)) l hl
  have hl : lines = lines' := by
    apply unlines_inj (nl hf fun r hr => (h r hr).2) (nl hf' fun r hr => (h' r hr).2)
    exact Stream.encode_inj (e.symm.trans (he.trans e'))
  subst hl
  generalize shown rows = l at hf
  generalize shown rows' = l' at hf'
  clear h h' he e e'
  induction hf generalizing l' with
  | nil => cases hf'; rfl
  | cons h1 _ ih =>
    cases hf' with
    | cons h1' h2' =>
      obtain ⟨g1, g2⟩ := says_unique h1 h1'
      rw [List.map_cons, List.map_cons, ih _ h2', g1, g2]

/-- **C110, part 3.** The summaries of jobs that passed, failed, were skipped or crashed stand below each other. -/
theorem C110_column (r : Row) (h : Fine r) (ho : r.outcome ∈ [none, some "pass".toList, some "fail".toList, some "skip".toList,
    some "crash".toList]) : ∃ left, left.length = 15 ∧ (plainRow r).stream = encode (left ++ ": ".toList ++ r.summary ++ ['\n']) := by
  obtain ⟨_, m, hm, e⟩ := plainRow_ok h
  refine ⟨_, ?_, e⟩
  have hl : m.text.length ≤ 15 := by
    revert hm
    simp only [List.mem_cons, List.not_mem_nil, or_false] at ho
    rcases ho with ho | ho | ho | ho | ho <;> rw [ho] <;> intro hm <;> cases hm.symm.trans (by rfl : _ = some _) <;> decide +kernel
  unfold centre
  simp
  omega

/-- **C110, part 4.** If the outcome of a job is not one of those that there are, there is an exception, with colours as without;
former outcomes matter as well, with colours only if there are several. -/
theorem C110_raises (rows : List Row) :
    ((dump false rows).raised = true ↔ ∃ r ∈ shown rows, ¬ Fine r) ∧
    ((dump true rows).raised = true ↔ ∃ r ∈ shown rows, ¬ Known r.outcome ∨ r.history.length > 1 ∧ ∃ o ∈ r.history, ¬ Known o) := by
  have row1 : ∀ r, (plainRow r).raised = true ↔ ¬ Fine r := by
    intro r
    constructor
    · intro h hf
      rw [(plainRow_ok hf).1] at h
      cases h
    · intro h
      unfold plainRow
      cases hm : outcomeMeta r.outcome with
      | none => rfl
      | some m =>
        have hn : ¬ ∀ o ∈ r.history, Known o := fun hh => h ⟨(known_iff _).2 ⟨m, hm⟩, hh⟩
        have hh : r.history ≠ [] := by
          intro e
          rw [e] at hn
          exact hn nofun
        simp only [if_pos hh, all_none _ hn]
  have row2 : ∀ r, (colourRow r).raised = true ↔
      (¬ Known r.outcome ∨ r.history.length > 1 ∧ ∃ o ∈ r.history, ¬ Known o) := by
    intro r
    unfold colourRow
    cases hm : outcomeMeta r.outcome with
    | none =>
      have : ¬ Known r.outcome := by
        rw [known_iff, hm]
        rintro ⟨m, h⟩
        cases h
      simp [this]
    | some m =>
      have hk : Known r.outcome := (known_iff _).2 ⟨m, hm⟩
      by_cases hh : r.history.length > 1
      · by_cases ha : ∀ o ∈ r.history, Known o
        · obtain ⟨x, hx⟩ := (all_some (fun m => custom true m.text m.ansi) _).2 ha
          simp only [if_pos hh, hx]
          constructor
          · exact nofun
          · rintro (h | ⟨_, o, ho, h⟩)
            · exact absurd hk h
            · exact absurd (ha o ho) h
        · simp only [if_pos hh, all_none _ ha, true_iff]
          exact .inr ⟨hh, by simpa using ha⟩
      · simp only [if_neg hh]
        constructor
        · exact nofun
        · rintro (h | ⟨h, _⟩)
          · exact absurd hk h
          · exact absurd h hh
  have whole : ∀ (on : Bool) (P : Row → Prop), (∀ r, (if on then colourRow r else plainRow r).raised = true ↔ P r) →
      ((dump on rows).raised = true ↔ ∃ r ∈ shown rows, P r) := by
    intro on P hP
    rw [dump_hollow]
    have hall : ∀ r ∈ shown rows, r.hollow = false := by
      intro r hr
      simpa using (List.mem_filter.1 hr).2
    generalize shown rows = l at hall
    induction l with
    | nil => exact ⟨nofun, fun ⟨_, h, _⟩ => by cases h⟩
    | cons r l ih =>
      have hh := hall r List.mem_cons_self
      have ih := ih fun r hr => hall r (List.mem_cons_of_mem _ hr)
      rw [dump, if_neg (by simp [hh])]
      by_cases hr : (if on then colourRow r else plainRow r).raised = true
      · simp only [if_pos hr]
        exact ⟨fun _ => ⟨r, List.mem_cons_self, (hP r).1 hr⟩, fun _ => hr⟩
      · simp only [if_neg hr]
        refine Iff.trans ih ?_
        constructor
        · rintro ⟨x, hx, h⟩; exact ⟨x, List.mem_cons_of_mem _ hx, h⟩
        · rintro ⟨x, hx, h⟩
          rcases List.mem_cons.1 hx with e | hx
          · exact absurd ((hP r).2 (e ▸ h)) hr
          · exact ⟨x, hx, h⟩
  exact ⟨whole false _ (fun r => by simpa using row1 r), whole true _ (fun r => by simpa using row2 r)⟩

/-! ## With colours -/

/-- What stands for an outcome. -/
inductive Sign : Option Str → Str → Prop
  | none : Sign none (" ".toList ++ esc "[0m")
  | pass : Sign (some "pass".toList) (esc "[32;1m☑ " ++ esc "[0m")
  | fail : Sign (some "fail".toList) (esc "[31;1m☒ " ++ esc "[0m")
  | skip : Sign (some "skip".toList) (esc "[33;1m☐ " ++ esc "[0m")
  | notSupported : Sign (some "not-supported".toList) (esc "[33;1m☐ " ++ esc "[0m")
  | notImplemented : Sign (some "not-implemented".toList) (esc "[31;1m-" ++ esc "[0m")
  | undecided : Sign (some "undecided".toList) (esc "[35;1m⁇ " ++ esc "[0m")
  | crash : Sign (some "crash".toList) (esc "[41;37;1m⚠ " ++ esc "[0m")

/-- The line has the sign of the outcome and the summary. -/
def Shows (line : Str) (r : Row) : Prop := ∃ c, Sign r.outcome c ∧ line = ' ' :: c ++ ": ".toList ++ r.summary

/-- The escape sequence for the colour of an outcome. -/
inductive Tint : Option Str → Str → Prop
  | none : Tint none []
  | pass : Tint (some "pass".toList) (esc "[32;1m")
  | fail : Tint (some "fail".toList) (esc "[31;1m")
  | skip : Tint (some "skip".toList) (esc "[33;1m")
  | notSupported : Tint (some "not-supported".toList) (esc "[33;1m")
  | notImplemented : Tint (some "not-implemented".toList) (esc "[31;1m")
  | undecided : Tint (some "undecided".toList) (esc "[35;1m")
  | crash : Tint (some "crash".toList) (esc "[41;37;1m")

/-- The words for an outcome, in its colour. -/
def Tinted (w : Str) (o : Option Str) : Prop := ∃ t a, Words o t ∧ Tint o a ∧ w = a ++ t ++ esc "[0m"

/-- The line has the words for all these outcomes, with commas between them. -/
def Recalls (line : Str) (os : List (Option Str)) : Prop :=
  ∃ ws, List.Forall₂ Tinted ws os ∧ line = "  history: ".toList ++ List.intercalate ", ".toList ws

/-- The lines for a job. -/
inductive Block : List Str → Row → Prop
  | one {l r} : Shows l r → r.history.length ≤ 1 → Block [l] r
  | two {l h r} : Shows l r → 1 < r.history.length → Recalls h r.history → Block [l, h] r

theorem meta_sign {o : Option Str} {m : Meta} (h : outcomeMeta o = some m) : Sign o (custom true m.sigil m.ansi) := by
  obtain ⟨t, ht⟩ := (known_iff o).2 ⟨m, h⟩
  cases ht <;> cases h.symm.trans (by rfl : _ = some _)
  · exact .none
  · exact .pass
  · exact .fail
  · exact .skip
  · exact .notSupported
  · exact .notImplemented
  · exact .undecided
  · exact .crash

theorem meta_tinted {o : Option Str} {m : Meta} (h : outcomeMeta o = some m) : Tinted (custom true m.text m.ansi) o := by
  obtain ⟨t, ht⟩ := (known_iff o).2 ⟨m, h⟩
  refine ⟨m.text, m.ansi, (meta_words _ _).1 (by rw [h]; rfl), ?_, rfl⟩
  cases ht <;> cases h.symm.trans (by rfl : _ = some _)
  · exact .none
  · exact .pass
  · exact .fail
  · exact .skip
  · exact .notSupported
  · exact .notImplemented
  · exact .undecided
  · exact .crash

theorem joinComma_eq (l : List Str) : joinComma l = List.intercalate ", ".toList l := by
  induction l with
  | nil => rfl
  | cons s l ih =>
    cases l with
    | nil => simp [joinComma, List.intercalate]
    | cons s' l =>
      rw [joinComma, ih]
      · simp [List.intercalate, List.intersperse]
      · exact nofun

theorem all_tinted {os : List (Option Str)} {l : List Str} (h : all (fun m => custom true m.text m.ansi) os = some l) :
    List.Forall₂ Tinted l os := by
  induction os generalizing l with
  | nil => cases h; exact .nil
  | cons o os ih =>
    rw [all] at h
    obtain ⟨m, hm, h⟩ := Option.bind_eq_some_iff.1 h
    obtain ⟨y, hy, e⟩ := Option.map_eq_some_iff.1 h
    subst e
    exact .cons (meta_tinted hm) (ih hy)

theorem colourRow_ok {r : Row} (h : Fine r) : (colourRow r).raised = false ∧ (colourRow r).stdout = [] ∧
    ∃ ls, Block ls r ∧ (colourRow r).stream = encode (unlines ls) := by
  obtain ⟨m, hm⟩ := (known_iff _).1 h.1
  obtain ⟨x, hx⟩ := (all_some (fun m => custom true m.text m.ansi) _).2 h.2
  have hs : Shows (" ".toList ++ custom true m.sigil m.ansi ++ ": ".toList ++ r.summary) r :=
    ⟨_, meta_sign hm, by simp⟩
  unfold colourRow
  rw [hm]
  by_cases hh : r.history.length > 1
  · simp only [if_pos hh, hx]
    refine ⟨trivial, trivial, _, .two hs hh ⟨x, all_tinted hx, rfl⟩, ?_⟩
    rw [← Stream.encode_append, joinComma_eq]
    simp [unlines]
  · simp only [if_neg hh]
    refine ⟨trivial, trivial, _, .one hs (by omega), ?_⟩
    simp [unlines]

/-- **C110, part 5.** With colours, the report has a line for each job with the sign of the outcome and the summary, followed by a
line with all outcomes if the job was run several times; nothing is printed elsewhere. -/
theorem C110_colour (rows : List Row) (h : ∀ r ∈ shown rows, Fine r) :
    (dump true rows).raised = false ∧ (dump true rows).stdout = [] ∧
    ∃ blocks, (dump true rows).stream = encode (unlines blocks.flatten) ∧ List.Forall₂ Block blocks (shown rows) := by
  rw [dump_hollow]
  have hall : ∀ r ∈ shown rows, r.hollow = false := by
    intro r hr
    simpa using (List.mem_filter.1 hr).2
  generalize shown rows = l at h hall
  induction l with
  | nil => exact ⟨rfl, rfl, [], rfl, .nil⟩
  | cons r l ih =>
    obtain ⟨h1, h1', lines, h2, h3⟩ :=
      ih (fun r hr => h r (List.mem_cons_of_mem _ hr)) fun r hr => hall r (List.mem_cons_of_mem _ hr)
    obtain ⟨g1, g1', ls, g3, g2⟩ := colourRow_ok (h r List.mem_cons_self)
    have hh := hall r List.mem_cons_self
    rw [dump, if_neg (by simp [hh])]
    simp only [if_true, g1, Bool.false_eq_true, if_false]
    refine ⟨h1, by rw [g1', h1']; rfl, ls :: lines, ?_, .cons g3 h3⟩
    rw [g2, h2, ← Stream.encode_append, ← unlines_append]
    rfl

/-- Outcomes that have the same sign. -/
def Alike (o o' : Option Str) : Prop :=
  o = o' ∨ (o = some "skip".toList ∨ o = some "not-supported".toList) ∧ (o' = some "skip".toList ∨ o' = some "not-supported".toList)

instance (o o' : Option Str) : Decidable (Alike o o') := by unfold Alike; infer_instance

/-- All signs. -/
def signs : List (Option Str × Str) := [(none, " ".toList ++ esc "[0m"), (some "pass".toList, esc "[32;1m☑ " ++ esc "[0m"),
  (some "fail".toList, esc "[31;1m☒ " ++ esc "[0m"), (some "skip".toList, esc "[33;1m☐ " ++ esc "[0m"),
  (some "not-supported".toList, esc "[33;1m☐ " ++ esc "[0m"), (some "not-implemented".toList, esc "[31;1m-" ++ esc "[0m"),
  (some "undecided".toList, esc "[35;1m⁇ " ++ esc "[0m"), (some "crash".toList, esc "[41;37;1m⚠ " ++ esc "[0m")]

theorem mem_signs {o : Option Str} {c : Str} (h : Sign o c) : (o, c) ∈ signs := by
  unfold signs
  cases h <;> simp

/-- The texts differ at a place that both have. -/
def differ (d d' : Str) : Bool := (d.zip d').any fun x => x.1 ≠ x.2

theorem differ_ne {d d' : Str} (h : differ d d' = true) (s s' : Str) : d ++ s ≠ d' ++ s' := by
  unfold differ at h
  induction d generalizing d' with
  | nil => simp at h
  | cons x d ih =>
    intro e
    cases d' with
    | nil => simp at h
    | cons y d' =>
      obtain ⟨e1, e2⟩ := List.cons.inj e
      rw [List.zip_cons_cons, List.any_cons, Bool.or_eq_true] at h
      rcases h with h | h
      · simp [e1] at h
      · exact ih h e2

theorem signs_pairs : ∀ x ∈ signs, ∀ y ∈ signs, Alike x.1 y.1 ∧ x.2 = y.2 ∨
    differ (x.2 ++ ": ".toList) (y.2 ++ ": ".toList) = true := by decide +kernel

theorem sign_inj {o o' : Option Str} {c c' s s' : Str} (h : Sign o c) (h' : Sign o' c')
    (e : c ++ ": ".toList ++ s = c' ++ ": ".toList ++ s') : Alike o o' ∧ s = s' := by
  rcases signs_pairs _ (mem_signs h) _ (mem_signs h') with ⟨h1, h2⟩ | h1
  · have h2 : c = c' := h2
    subst h2
    exact ⟨h1, List.append_cancel_left e⟩
  · exact absurd e (differ_ne h1 _ _)

theorem shows_unique {l : Str} {r r' : Row} (h : Shows l r) (h' : Shows l r') :
    Alike r.outcome r'.outcome ∧ r.summary = r'.summary := by
  obtain ⟨c, hc, e⟩ := h
  obtain ⟨c', hc', e'⟩ := h'
  rw [e] at e'
  refine sign_inj hc hc' ?_
  simp only [List.cons_append] at e'
  exact (List.cons.inj e').2

/-- Lines with signs and lines with former outcomes are different. -/
theorem shows_recalls {l : Str} {r : Row} {os : List (Option Str)} (h : Shows l r) (h' : Recalls l os) : False := by
  obtain ⟨c, hc, e⟩ := h
  obtain ⟨ws, _, e'⟩ := h'
  have : ∀ x ∈ signs, differ (' ' :: x.2) "  history: ".toList = true := by decide +kernel
  rw [e, List.append_assoc] at e'
  exact differ_ne (this _ (mem_signs hc)) _ _ e'

theorem signs_plain : ∀ x ∈ signs, '\n' ∉ x.2 := by decide +kernel

theorem shows_plain {l : Str} {r : Row} (h : Shows l r) (hs : '\n' ∉ r.summary) : '\n' ∉ l := by
  obtain ⟨c, hc, e⟩ := h
  have := signs_plain _ (mem_signs hc)
  rw [e]
  simp only [List.mem_append, List.mem_cons, not_or]
  exact ⟨⟨⟨by decide, this⟩, by decide⟩, hs⟩

/-- All that is written for former outcomes. -/
def tints : List (Option Str × Str) := [(none, "job didn't run".toList ++ esc "[0m"),
  (some "pass".toList, esc "[32;1mjob passed" ++ esc "[0m"), (some "fail".toList, esc "[31;1mjob failed" ++ esc "[0m"),
  (some "skip".toList, esc "[33;1mjob skipped" ++ esc "[0m"),
  (some "not-supported".toList, esc "[33;1mjob cannot be started" ++ esc "[0m"),
  (some "not-implemented".toList, esc "[31;1mjob is not implemented" ++ esc "[0m"),
  (some "undecided".toList, esc "[35;1mjob needs verification" ++ esc "[0m"),
  (some "crash".toList, esc "[41;37;1mjob crashed" ++ esc "[0m")]

theorem mem_tints {w : Str} {o : Option Str} (h : Tinted w o) : (o, w) ∈ tints := by
  obtain ⟨t, a, h1, h2, rfl⟩ := h
  cases h1 <;> cases h2 <;> decide +kernel

theorem tints_pairs : ∀ x ∈ tints, ∀ y ∈ tints, x = y ∨ differ x.2 y.2 = true := by decide +kernel

theorem tints_plain : ∀ x ∈ tints, '\n' ∉ x.2 ∧ x.2 ≠ [] ∧ differ x.2 ", ".toList = true := by decide +kernel

theorem recalls_plain {l : Str} {os : List (Option Str)} (h : Recalls l os) : '\n' ∉ l := by
  obtain ⟨ws, hf, e⟩ := h
  have : '\n' ∉ joinComma ws := by
    clear e
    induction hf with
    | nil => exact nofun
    | cons h1 hf ih =>
      have h2 := (tints_plain _ (mem_tints h1)).1
      cases hf with
      | nil => exact h2
      | cons _ _ =>
        rw [joinComma]
        · simp only [List.mem_append, not_or]
          exact ⟨⟨h2, by decide⟩, ih⟩
        · exact nofun
  rw [e, ← joinComma_eq]
  simp only [List.mem_append, not_or]
  exact ⟨by decide +kernel, this⟩

theorem joinComma_cons (w : Str) (ws : List Str) : joinComma (w :: ws) = w ++ ws.flatMap (", ".toList ++ ·) := by
  induction ws generalizing w with
  | nil => simp [joinComma]
  | cons v ws ih =>
    rw [joinComma, ih, List.flatMap_cons]
    · simp
    · exact nofun

theorem tail_unique {ws ws' : List Str} {os os' : List (Option Str)} (h : List.Forall₂ Tinted ws os)
    (h' : List.Forall₂ Tinted ws' os') (e : ws.flatMap (", ".toList ++ ·) = ws'.flatMap (", ".toList ++ ·)) : os = os' := by
  induction h generalizing os' ws' with
  | nil =>
    cases h' with
    | nil => rfl
    | cons _ _ => simp at e
  | cons h1 _ ih =>
    cases h' with
    | nil => simp at e
    | cons h1' h2' =>
      rw [List.flatMap_cons, List.flatMap_cons, List.append_assoc, List.append_assoc] at e
      have e := List.append_cancel_left e
      rcases tints_pairs _ (mem_tints h1) _ (mem_tints h1') with hp | hp
      · obtain ⟨p1, p2⟩ := Prod.mk.inj hp
        subst p1 p2
        rw [ih h2' (List.append_cancel_left e)]
      · exact absurd e (differ_ne hp _ _)

theorem recalls_unique {l : Str} {os os' : List (Option Str)} (h : Recalls l os) (h' : Recalls l os') : os = os' := by
  obtain ⟨ws, hf, e⟩ := h
  obtain ⟨ws', hf', e'⟩ := h'
  rw [e, ← joinComma_eq, ← joinComma_eq] at e'
  have e' := List.append_cancel_left e'
  cases hf with
  | nil =>
    cases hf' with
    | nil => rfl
    | cons h1 _ =>
      rw [joinComma_cons] at e'
      exact absurd (List.append_eq_nil_iff.1 e'.symm).1 (tints_plain _ (mem_tints h1)).2.1
  | cons h1 h2 =>
    cases hf' with
    | nil =>
      rw [joinComma_cons] at e'
      exact absurd (List.append_eq_nil_iff.1 e').1 (tints_plain _ (mem_tints h1)).2.1
    | cons h1' h2' =>
      rw [joinComma_cons, joinComma_cons] at e'
      rcases tints_pairs _ (mem_tints h1) _ (mem_tints h1') with hp | hp
      · obtain ⟨p1, p2⟩ := Prod.mk.inj hp
        subst p1 p2
        rw [tail_unique h2 h2' (List.append_cancel_left e')]
      · exact absurd e' (differ_ne hp _ _)

/-- What the report with colours tells about two jobs is the same. -/
def Same (r r' : Row) : Prop :=
  Alike r.outcome r'.outcome ∧ r.summary = r'.summary ∧ (1 < r.history.length ∨ 1 < r'.history.length → r.history = r'.history)

theorem blocks_unique {bs bs' : List (List Str)} {rs rs' : List Row} (h : List.Forall₂ Block bs rs)
    (h' : List.Forall₂ Block bs' rs') (e : bs.flatten = bs'.flatten) : List.Forall₂ Same rs rs' := by
  induction h generalizing bs' rs' with
  | nil =>
    cases h' with
    | nil => exact .nil
    | cons h1 _ => cases h1 <;> simp at e
  | cons h1 h2 ih =>
    cases h' with
    | nil => cases h1 <;> simp at e
    | cons h1' h2' =>
      have noRecall : ∀ {bs : List (List Str)} {rs : List Row} {l : Str} {os : List (Option Str)} {x : List Str},
          List.Forall₂ Block bs rs → bs.flatten = l :: x → Recalls l os → False := by
        intro bs rs l os x hb he hr
        cases hb with
        | nil => simp at he
        | cons hb _ =>
          cases hb with
          | one hs _ =>
            rw [List.flatten_cons, List.singleton_append] at he
            exact shows_recalls ((List.cons.inj he).1 ▸ hs) hr
          | two hs _ _ =>
            rw [List.flatten_cons, List.cons_append] at he
            exact shows_recalls ((List.cons.inj he).1 ▸ hs) hr
      cases h1 with
      | one hs hl =>
        cases h1' with
        | one hs' hl' =>
          obtain ⟨e1, e2⟩ := List.cons.inj e
          subst e1
          obtain ⟨g1, g2⟩ := shows_unique hs hs'
          exact .cons ⟨g1, g2, fun h => by omega⟩ (ih h2' e2)
        | two hs' hl' hr' =>
          obtain ⟨_, e2⟩ := List.cons.inj e
          exact absurd (noRecall h2 e2 hr') id
      | two hs hl hr =>
        cases h1' with
        | one hs' hl' =>
          obtain ⟨_, e2⟩ := List.cons.inj e
          exact absurd (noRecall h2' e2.symm hr) id
        | two hs' hl' hr' =>
          obtain ⟨e1, e2⟩ := List.cons.inj e
          obtain ⟨e3, e4⟩ := List.cons.inj e2
          subst e1 e3
          obtain ⟨g1, g2⟩ := shows_unique hs hs'
          exact .cons ⟨g1, g2, fun _ => recalls_unique hr hr'⟩ (ih h2' e4)

/-- **C110, part 6.** So the report with colours tells which jobs had which outcomes. Partial: not whether a job was skipped or not
supported, and not if a summary has more than one line. -/
theorem C110_colour_unique_partial (rows rows' : List Row) (h : ∀ r ∈ shown rows, Fine r ∧ '\n' ∉ r.summary)
    (h' : ∀ r ∈ shown rows', Fine r ∧ '\n' ∉ r.summary) (he : (dump true rows).stream = (dump true rows').stream) :
    List.Forall₂ Same (shown rows) (shown rows') := by
  obtain ⟨_, _, bs, e, hf⟩ := C110_colour rows fun r hr => (h r hr).1
  obtain ⟨_, _, bs', e', hf'⟩ := C110_colour rows' fun r hr => (h' r hr).1
  have nl : ∀ {bs : List (List Str)} {rs : List Row}, List.Forall₂ Block bs rs → (∀ r ∈ rs, '\n' ∉ r.summary) →
      ∀ l ∈ bs.flatten, '\n' ∉ l := by
    intro bs rs hf
    induction hf with
    | nil => exact fun _ => nofun
    | cons h1 _ ih =>
      intro hr l hl
      rw [List.flatten_cons, List.mem_append] at hl
      rcases hl with hl | hl
      · have hs := hr _ List.mem_cons_self
        cases h1 with
        | one h2 _ => rw [List.mem_singleton.1 hl]; exact shows_plain h2 hs
        | two h2 _ h3 =>
          rcases List.mem_cons.1 hl with hl | hl
          · rw [hl]; exact shows_plain h2 hs
          · rw [List.mem_singleton.1 hl]; exact recalls_plain h3
      · exact ih (fun r hm => hr r (List.mem_cons_of_mem _ hm)) l hl
  refine blocks_unique hf hf' ?_
  apply unlines_inj (nl hf fun r hr => (h r hr).2) (nl hf' fun r hr => (h' r hr).2)
  exact Stream.encode_inj (e.symm.trans (he.trans e'))

/-- **C110, part 7.** Printed to a standard output in UTF-8, a short report is there as it is. -/
theorem C110_stdout (dest : Option Str) (hd : Stream.Utf8 dest) (rows : List Row) (h : ∀ r ∈ shown rows, Fine r)
    (hl : (dump false rows).stream.length ≤ Stream.piece) :
    ∃ lines, Stream.toStdout dest (dump false rows).stream = (unlines lines, true) ∧ List.Forall₂ Says lines (shown rows) := by
  obtain ⟨_, lines, e, hf⟩ := C110_plain rows h
  refine ⟨lines, ?_, hf⟩
  rw [e] at hl ⊢
  exact Stream.C96_short dest hd _ hl

/-! ## Examples -/

def exRows : List Row := [⟨false, some "pass".toList, "first".toList, [some "fail".toList, some "pass".toList]⟩,
  ⟨true, none, "second".toList, []⟩, ⟨false, some "undecided".toList, "third: é".toList, [some "undecided".toList]⟩]

theorem exRows_fine : ∀ r ∈ shown exRows, Fine r ∧ '\n' ∉ r.summary := by
  intro r hr
  rw [show shown exRows = [⟨false, some "pass".toList, "first".toList, [some "fail".toList, some "pass".toList]⟩,
    ⟨false, some "undecided".toList, "third: é".toList, [some "undecided".toList]⟩] by decide +kernel] at hr
  simp only [List.mem_cons, List.not_mem_nil, or_false] at hr
  rcases hr with rfl | rfl
  · refine ⟨⟨⟨_, .pass⟩, ?_⟩, by decide⟩
    intro o ho
    simp only [List.mem_cons, List.not_mem_nil, or_false] at ho
    rcases ho with rfl | rfl
    · exact ⟨_, .fail⟩
    · exact ⟨_, .pass⟩
  · refine ⟨⟨⟨_, .undecided⟩, ?_⟩, by decide⟩
    intro o ho
    rw [List.mem_singleton.1 ho]
    exact ⟨_, .undecided⟩

/-- The hypotheses of C110, parts 1 and 7. -/
example : ∃ lines, Stream.toStdout none (dump false exRows).stream = (unlines lines, true) ∧
    List.Forall₂ Says lines (shown exRows) :=
  C110_stdout none (by decide +kernel) exRows (fun r hr => (exRows_fine r hr).1) (by decide +kernel)

example : decode (dump false exRows).stream =
    some "  job passed   : first\njob needs verification: third: é\n".toList := by decide +kernel

example : decode (dump true exRows).stream = some (" ".toList ++ esc "[32;1m☑ " ++ esc "[0m: first\n  history: " ++
    esc "[31;1mjob failed" ++ esc "[0m, " ++ esc "[32;1mjob passed" ++ esc "[0m\n " ++ esc "[35;1m⁇ " ++
    esc "[0m: third: é\n") := by decide +kernel

/-- The hypotheses of C110, parts 2 and 6. -/
example (rows' : List Row) (h' : ∀ r ∈ shown rows', Fine r ∧ '\n' ∉ r.summary)
    (he : (dump false exRows).stream = (dump false rows').stream) :
    (shown rows').map (·.summary) = ["first".toList, "third: é".toList] := by
  have := C110_unique_partial exRows rows' exRows_fine h' he
  have := congrArg (List.map (·.2)) this
  rw [List.map_map, List.map_map] at this
  exact this.symm

example (rows' : List Row) (h' : ∀ r ∈ shown rows', Fine r ∧ '\n' ∉ r.summary)
    (he : (dump true exRows).stream = (dump true rows').stream) : List.Forall₂ Same (shown exRows) (shown rows') :=
  C110_colour_unique_partial exRows rows' exRows_fine h' he

/-- The hypotheses of C110, part 3. -/
example : ∃ left, left.length = 15 ∧ (plainRow ⟨false, some "pass".toList, "a".toList, []⟩).stream =
    encode (left ++ ": ".toList ++ "a".toList ++ ['\n']) :=
  C110_column ⟨false, some "pass".toList, "a".toList, []⟩ ⟨⟨_, .pass⟩, nofun⟩ (by decide +kernel)

/-- Part 4 with an outcome that there is not. -/
example : (dump false (exRows ++ [⟨false, some "good".toList, "x".toList, []⟩])).raised = true :=
  (C110_raises _).1.2 ⟨⟨false, some "good".toList, "x".toList, []⟩, by decide +kernel, by
    rintro ⟨h, _⟩
    obtain ⟨m, hm⟩ := (known_iff _).1 h
    revert hm
    rw [show outcomeMeta (some "good".toList) = none by decide +kernel]
    exact nofun⟩

/-! ## Disagreements -/

/-- **C110** is violated by former outcomes: without colours they are not in the report but on the standard output, where there are
the bytes of the signs in hexadecimal. -/
theorem C110_history_violated :
    (dump false [⟨false, some "pass".toList, "a".toList, [some "fail".toList, some "pass".toList]⟩]).stream =
      (dump false [⟨false, some "pass".toList, "a".toList, []⟩]).stream ∧
    (dump false [⟨false, some "pass".toList, "a".toList, [some "fail".toList, some "pass".toList]⟩]).stdout =
      "History: b'\\xe2\\x98\\x92 , \\xe2\\x98\\x91 '\n".toList := by decide +kernel

/-- **C110** is violated by the signs: jobs that were skipped and jobs that are not supported look the same. -/
theorem C110_skip_violated (s : Str) (h : List (Option Str)) :
    (dump true [⟨false, some "skip".toList, s, h⟩]).stream = (dump true [⟨false, some "not-supported".toList, s, h⟩]).stream := by
  have e : ∀ o : Option Str, (dump true [⟨false, o, s, h⟩]).stream = (colourRow ⟨false, o, s, h⟩).stream := by
    intro o
    rw [dump, if_neg (by simp)]
    simp only [if_true]
    split
    · rfl
    · exact List.append_nil _
  rw [e, e]
  unfold colourRow
  rw [show outcomeMeta (some "skip".toList) = some ⟨"☐ ".toList, "job skipped".toList, esc "[33;1m"⟩ by decide +kernel,
    show outcomeMeta (some "not-supported".toList) = some ⟨"☐ ".toList, "job cannot be started".toList, esc "[33;1m"⟩ by decide +kernel]

/-- **C110** is violated by summaries of several lines: they look like other jobs. -/
theorem C110_newline_violated :
    (dump false [⟨false, some "pass".toList, "a\n  job failed   : b".toList, []⟩]).stream =
      (dump false [⟨false, some "pass".toList, "a".toList, []⟩, ⟨false, some "fail".toList, "b".toList, []⟩]).stream := by
  decide +kernel

/-- **C110** is violated by files: whether a file has escape sequences in it depends on the standard output being a terminal. -/
theorem C110_terminal_violated :
    (report true [⟨false, some "pass".toList, "a".toList, []⟩]).stream ≠
      (report false [⟨false, some "pass".toList, "a".toList, []⟩]).stream := by decide +kernel

/-- **C110** is violated by long words for outcomes: the summaries are not below each other. -/
theorem C110_column_violated : decode (plainRow ⟨false, some "undecided".toList, "a".toList, []⟩).stream =
    some "job needs verification: a\n".toList := by decide +kernel

end Verif.Report
