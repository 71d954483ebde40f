import Verif.Lemmas.Html

/-! # C104: the HTML report shows every result and links to its log -/

namespace Verif.Html

attribute [-instance] List.instBEq

set_option linter.unusedSimpArgs false

open Verif.Checksum (Str)
open Verif.Session (Outcome)
open Verif.Junit (escape escapeChar number)

/-! ## Specification: what a browser shows -/

/-- Ends of lines become one character before anything else. (specification, HTML 13.2.3.5) -/
def lineEnds : Str → Str
  | [] => []
  | '\r' :: '\n' :: l => '\n' :: lineEnds l
  | '\r' :: l => '\n' :: lineEnds l
  | c :: l => c :: lineEnds l

/-- The text in an element or in an attribute; a `<` or an unknown reference does not belong to a text. (specification) -/
def decode : Str → Option Str
  | [] => some []
  | '&' :: 'a' :: 'm' :: 'p' :: ';' :: l => (decode l).map ('&' :: ·)
  | '&' :: 'l' :: 't' :: ';' :: l => (decode l).map ('<' :: ·)
  | '&' :: 'g' :: 't' :: ';' :: l => (decode l).map ('>' :: ·)
  | '&' :: '#' :: '3' :: '9' :: ';' :: l => (decode l).map ('\'' :: ·)
  | '&' :: '#' :: '3' :: '4' :: ';' :: l => (decode l).map ('"' :: ·)
  | '&' :: _ => none
  | '<' :: _ => none
  | '"' :: _ => none
  | c :: l => (decode l).map (c :: ·)

/-- The text of an element. (specification) -/
def read (t : Str) : Option Str := decode (lineEnds t)

/-- A line end at the start. (specification) -/
def cut : Str → Str
  | '\n' :: l => l
  | l => l

/-- The text of an element `pre`, in which a line end at the start is not shown. (specification, HTML 13.2.6.4.7) -/
def readPre (t : Str) : Option Str := decode (cut (lineEnds t))

/-- What is seen after following a link. (specification) -/
inductive Seen
  | log (title : Str) (text : Str)
  | packages (rows : List (Str × Str))
deriving DecidableEq, Repr

/-- What is seen of an element. (specification) -/
def see : Element → Option Seen
  | .page t x => (read t).bind fun t => (readPre x).map fun x => .log t x
  | .packages rs => (rs.mapM fun r => (read r.1).bind fun a => (read r.2).map fun b => (a, b)).map .packages
  | .other => none

/-- Following a link: the first element with this id. (specification) -/
def follow (es : List (Str × Element)) : Str → Option Seen
  | '#' :: name => (es.find? fun e => decide (read e.1 = some name)).bind fun e => see e.2
  | _ => none

/-- What somebody learns from a row of a table. (specification) -/
structure Line where
  name : Str
  label : Str
  certification : Str
  comments : Str
  leads : Option Seen
deriving DecidableEq, Repr

/-- Reading a row and following its link; nothing if the link leads nowhere. (specification) -/
def line (es : List (Str × Element)) (r : Row) : Option Line :=
  (read r.name).bind fun name => (read r.label).bind fun label => (read r.certification).bind fun certification =>
    (read r.comments).bind fun comments =>
      (match r.link with | none => some none | some l => (follow es l).map some).map fun leads =>
        ⟨name, label, certification, comments, leads⟩

/-- The words for outcomes. (specification) -/
def word : Outcome → Str
  | .none => "not started".toList
  | .pass => "passed".toList
  | .fail => "failed".toList
  | .crash => "crashed".toList
  | .skip => "skipped".toList
  | .undecided => "undecided".toList
  | .notSupported => "not supported".toList
  | .notImplemented => "not implemented".toList

/-- The text a job has written, as far as it is shown. (specification) -/
def wrote (i : Item) : Str := if i.plugin = .attachment then Flat.attachment i.log else Flat.flat i.log

/-- Where the row of a job should lead. (specification) -/
def leads (s : State) (i : Item) : Option Seen :=
  if wrote i = [] then none
  else if i.plugin = .resource ∧ i.id = "com.canonical.certification::package".toList then
    some (.packages (((s.resources.lookup i.id).getD []).map fun r => (lineEnds r.1, lineEnds r.2)))
  else some (.log (lineEnds i.summary) (cut (lineEnds (wrote i))))

/-- What somebody should learn about a job. (specification) -/
def expected (s : State) (i : Item) : Line where
  name := lineEnds i.partialId
  label := word i.outcome
  certification := if i.certification = "unspecified".toList then [] else lineEnds i.certification
  comments := lineEnds (i.comments.getD [])
  leads := leads s i

/-! ## Reading what was escaped -/

theorem decode_escape (s : Str) : decode (escape s) = some s := by
  induction s with
  | nil => rfl
  | cons c s ih =>
    rw [show escape (c :: s) = escapeChar c ++ escape s from rfl, escapeChar]
    by_cases h1 : c = '&'
    · rw [if_pos h1, h1]
      show (decode (escape s)).map _ = _
      rw [ih]; rfl
    rw [if_neg h1]
    by_cases h2 : c = '>'
    · rw [if_pos h2, h2]
      show (decode (escape s)).map _ = _
      rw [ih]; rfl
    rw [if_neg h2]
    by_cases h3 : c = '<'
    · rw [if_pos h3, h3]
      show (decode (escape s)).map _ = _
      rw [ih]; rfl
    rw [if_neg h3]
    by_cases h4 : c = '\''
    · rw [if_pos h4, h4]
      show (decode (escape s)).map _ = _
      rw [ih]; rfl
    rw [if_neg h4]
    by_cases h5 : c = '"'
    · rw [if_pos h5, h5]
      show (decode (escape s)).map _ = _
      rw [ih]; rfl
    rw [if_neg h5]
    show decode (c :: escape s) = _
    rw [decode]
    · rw [ih]; rfl
    all_goals (intros; simp_all)

theorem lineEnds_other (c : Char) (hc : c ≠ '\r') (l : Str) : lineEnds (c :: l) = c :: lineEnds l := by
  rw [lineEnds.eq_def]
  split
  · exact absurd ‹_› (by simp)
  · rename_i h; exact absurd (List.cons.inj h).1 hc
  · rename_i h; exact absurd (List.cons.inj h).1 hc
  · rename_i h
    obtain ⟨rfl, rfl⟩ := List.cons.inj h
    rfl

theorem lineEnds_append (a : Str) (ha : '\r' ∉ a) (l : Str) : lineEnds (a ++ l) = a ++ lineEnds l := by
  induction a with
  | nil => rfl
  | cons c a ih =>
    rw [List.cons_append, lineEnds_other c (fun h => ha (h ▸ List.mem_cons_self)), ih fun h => ha (List.mem_cons_of_mem _ h)]
    rfl

theorem lineEnds_same {a : Str} (ha : '\r' ∉ a) : lineEnds a = a := by
  have := lineEnds_append a ha []
  simpa [lineEnds] using this

theorem escapeChar_plain (c : Char) (hc : c ≠ '\r') : '\r' ∉ escapeChar c := by
  rw [escapeChar]
  repeat' split
  all_goals first | decide | (rw [List.mem_singleton]; exact fun h => hc h.symm)

theorem escape_head (c : Char) (hc : c ≠ '\n') (l : Str) : ∃ d t, escape (c :: l) = d :: t ∧ d ≠ '\n' := by
  rw [show escape (c :: l) = escapeChar c ++ escape l from rfl, escapeChar]
  repeat' split
  all_goals first | exact ⟨_, _, rfl, by decide⟩ | exact ⟨_, _, rfl, hc⟩

theorem lineEnds_escape (s : Str) : lineEnds (escape s) = escape (lineEnds s) := by
  induction s using lineEnds.induct with
  | case1 => rfl
  | case2 l ih =>
    show '\n' :: lineEnds (escape l) = '\n' :: escape (lineEnds l)
    rw [ih]
  | case3 l h ih =>
    have e1 : lineEnds ('\r' :: l) = '\n' :: lineEnds l := by
      cases l with
      | nil => rfl
      | cons c l => exact lineEnds.eq_3 _ (fun x hx => h x hx)
    have e2 : lineEnds ('\r' :: escape l) = '\n' :: lineEnds (escape l) := by
      cases l with
      | nil => rfl
      | cons c l =>
        obtain ⟨d, t, hd, hn⟩ := escape_head c (fun hc => h l (by rw [hc])) l
        rw [hd]
        exact lineEnds.eq_3 _ (fun x hx => hn (List.cons.inj hx).1)
    rw [e1]
    show lineEnds ('\r' :: escape l) = '\n' :: escape (lineEnds l)
    rw [e2, ih]
  | case4 c l h1 h2 ih =>
    have hc : c ≠ '\r' := fun hc => h2 hc
    rw [lineEnds_other c hc]
    show lineEnds (escapeChar c ++ escape l) = escapeChar c ++ escape (lineEnds l)
    rw [lineEnds_append _ (escapeChar_plain c hc), ih]

theorem read_escape (s : Str) : read (escape s) = some (lineEnds s) := by
  rw [read, lineEnds_escape, decode_escape]

theorem cut_escape (s : Str) : cut (escape s) = escape (cut s) := by
  cases s with
  | nil => rfl
  | cons c s =>
    by_cases hc : c = '\n'
    · subst hc; rfl
    · obtain ⟨d, t, hd, hn⟩ := escape_head c hc s
      have : cut (c :: s) = c :: s := by
        rw [cut.eq_def]; split
        · rename_i h; exact absurd (List.cons.inj h).1 hc
        · rfl
      rw [this, hd]
      rw [cut.eq_def]; split
      · rename_i h; exact absurd (List.cons.inj h).1 hn
      · rfl

theorem readPre_escape (s : Str) : readPre (escape s) = some (cut (lineEnds s)) := by
  rw [readPre, lineEnds_escape, cut_escape, decode_escape]

theorem read_plain {s : Str} (h : ∀ c ∈ s, c ≠ '\r' ∧ escapeChar c = [c]) : read s = some s := by
  have he : escape s = s := by
    induction s with
    | nil => rfl
    | cons c s ih =>
      rw [show escape (c :: s) = escapeChar c ++ escape s from rfl, (h c List.mem_cons_self).2,
        ih fun c hc => h c (List.mem_cons_of_mem _ hc)]
      rfl
  have := read_escape s
  rw [he, lineEnds_same fun hr => (h _ hr).1 rfl] at this
  exact this

theorem plain_digit {c : Char} (h : c.isDigit = true) : c ≠ '\r' ∧ escapeChar c = [c] := by
  constructor
  · rintro rfl; exact absurd h (by decide)
  · rw [escapeChar]
    repeat' rw [if_neg]
    all_goals (rintro rfl; exact absurd h (by decide))

theorem read_number (n : Nat) : read (number n) = some (number n) := read_plain fun _ hc => plain_digit (number_digit hc)

theorem plain_log : ∀ c ∈ "-log".toList, c ≠ '\r' ∧ escapeChar c = [c] := by decide

theorem plain_resource : ∀ c ∈ "resource-".toList, c ≠ '\r' ∧ escapeChar c = [c] := by decide

theorem plain_attachment : ∀ c ∈ "attachment-".toList, c ≠ '\r' ∧ escapeChar c = [c] := by decide

theorem read_testPage (m n : Nat) : read (testPage m n) = some (testPage m n) := by
  refine read_plain fun c hc => ?_
  rw [testPage] at hc
  simp only [List.mem_append, or_assoc] at hc
  rcases hc with h | h | h | h
  · exact plain_digit (number_digit h)
  · exact plain_log c (by rw [show c = '-' from by simpa using h]; decide)
  · exact plain_digit (number_digit h)
  · exact plain_log c h

theorem read_resourcePage (n : Nat) : read (resourcePage n) = some (resourcePage n) :=
  read_plain fun c hc => (List.mem_append.1 hc).elim
    (fun h => (List.mem_append.1 h).elim (plain_resource c) fun h => plain_digit (number_digit h)) (plain_log c)

theorem read_attachmentPage (n : Nat) : read (attachmentPage n) = some (attachmentPage n) :=
  read_plain fun c hc => (List.mem_append.1 hc).elim
    (fun h => (List.mem_append.1 h).elim (plain_attachment c) fun h => plain_digit (number_digit h)) (plain_log c)

theorem colon_lineEnds {s : Str} (h : ':' ∈ s) : ':' ∈ lineEnds s := by
  induction s using lineEnds.induct with
  | case1 => exact h
  | case2 l ih =>
    rw [lineEnds]
    simp only [List.mem_cons] at h ⊢
    rcases h with h | h | h
    · exact absurd h (by decide)
    · exact absurd h (by decide)
    · exact .inr (ih h)
  | case3 l hl ih =>
    rw [lineEnds.eq_3 _ hl]
    simp only [List.mem_cons] at h ⊢
    rcases h with h | h
    · exact absurd h (by decide)
    · exact .inr (ih h)
  | case4 c l h1 h2 ih =>
    rw [lineEnds_other c h2]
    simp only [List.mem_cons] at h ⊢
    rcases h with h | h
    · exact .inl h
    · exact .inr (ih h)

/-! ## Following links -/

theorem follow_of {es : List (Str × Element)} {name : Str} {x : Str × Element} (hx : x ∈ es) (hr : read x.1 = some name)
    (hu : ∀ e ∈ es, read e.1 = some name → e.2 = x.2) : follow es ('#' :: name) = see x.2 := by
  show (es.find? fun e => decide (read e.1 = some name)).bind _ = _
  cases h : es.find? fun e => decide (read e.1 = some name) with
  | none => exact absurd hr (by simpa using List.find?_eq_none.1 h x hx)
  | some e =>
    have h1 := List.find?_some h
    have h2 := List.mem_of_find?_eq_some h
    show see e.2 = _
    rw [hu e h2 (by simpa using h1)]

/-- The first character of a name. -/
def initial (t : Str) : Option Char := (read t).bind List.head?

theorem initial_of {t : Str} {c : Char} {l : Str} (h : read t = some (c :: l)) : initial t = some c := by
  rw [initial, h]; rfl

theorem fixed_initial : ∀ e ∈ fixed, (initial e.1).all (fun c => !c.isDigit && c != 'r' && c != 'a') = true := by
  decide +kernel

theorem fixed_package : ∀ e ∈ fixed, read e.1 ≠ some "package-log".toList := by decide +kernel

theorem package_initial (s : State) : ∀ e ∈ packagePages s,
    (initial e.1).all (fun c => !c.isDigit && c != 'r' && c != 'a') = true := by
  intro e he
  rw [packagePages] at he
  split at he
  · exact absurd he (by simp)
  · simp only [List.mem_cons, List.not_mem_nil, or_false] at he
    rcases he with rfl | rfl | rfl
    · show (initial "package-log".toList).all _ = true
      decide +kernel
    · show (initial "filterTable-input2".toList).all _ = true
      decide +kernel
    · show (initial "table2".toList).all _ = true
      decide +kernel

theorem package_unique (s : State) : ∀ e ∈ packagePages s, read e.1 = some "package-log".toList →
    ∃ rs, s.resources.lookup packageKey = some rs ∧ e.2 = .packages (rs.map fun r => (escape r.1, escape r.2)) := by
  intro e he hr
  rw [packagePages] at he
  split at he
  · exact absurd he (by simp)
  · rename_i rs hrs
    simp only [List.mem_cons, List.not_mem_nil, or_false] at he
    rcases he with rfl | rfl | rfl
    · exact ⟨rs, hrs, rfl⟩
    · exact absurd hr (by decide +kernel)
    · exact absurd hr (by decide +kernel)

theorem category_name (lower : Str → Str) (s : State) (hcat : ∀ u ∈ s.units, ':' ∈ u.1) {e : Str × Element}
    (he : e ∈ (categories lower s).map fun c => (escape c.1, Element.other)) :
    ∃ t, read e.1 = some t ∧ ':' ∈ t := by
  obtain ⟨c, hc, rfl⟩ := List.mem_map.1 he
  have h1 : c.1 ∈ (categoryMap s).map (·.1) :=
    ((categories_perm lower s).map (·.1)).mem_iff.1 (List.mem_map_of_mem hc)
  obtain ⟨u, hu, hu'⟩ := List.mem_map.1 ((mem_categoryMap s c.1).1 h1).1
  exact ⟨_, read_escape _, colon_lineEnds (by rw [← hu']; exact hcat u hu)⟩

theorem mem_elements {lower : Str → Str} {s : State} {e : Str × Element} (h : e ∈ elements lower s) :
    (((((e ∈ fixed ∨ e ∈ (categories lower s).map fun c => (escape c.1, Element.other)) ∨ e = ("resource".toList, .other)) ∨
      e ∈ packagePages s) ∨ e ∈ testPages lower s) ∨ e ∈ resourcePages lower s) ∨ e ∈ attachmentPages lower s := by
  rw [elements] at h
  simp only [List.mem_append] at h
  rcases h with h | h
  · rcases h with h | h
    · rcases h with h | h
      · rcases h with h | h
        · rcases h with h | h
          · exact .inl (.inl (.inl (.inl (.inl h))))
          · obtain ⟨x, _, rfl⟩ := List.mem_map.1 h
            exact .inl (.inl (.inl (.inl (.inr rfl))))
        · exact .inl (.inl (.inl (.inr h)))
      · exact .inl (.inl (.inr h))
    · exact .inl (.inr h)
  · exact .inr h

theorem mem_testPages {lower : Str → Str} {s : State} {e : Str × Element} : e ∈ testPages lower s ↔
    ∃ c m i n, (c, m) ∈ (categories lower s).zipIdx 1 ∧ (i, n) ∈ (testsIn lower s c.1).zipIdx 1 ∧ Flat.flat i.log ≠ [] ∧
      e = (testPage m n, .page (escape i.summary) (escape (Flat.flat i.log))) := by
  simp only [testPages, List.mem_flatMap]
  constructor
  · rintro ⟨⟨c, m⟩, hc, ⟨i, n⟩, hi, he⟩
    by_cases hf : Flat.flat i.log ≠ []
    · rw [if_pos hf] at he
      exact ⟨c, m, i, n, hc, hi, hf, List.mem_singleton.1 he⟩
    · rw [if_neg hf] at he
      exact absurd he List.not_mem_nil
  · rintro ⟨c, m, i, n, hc, hi, hf, rfl⟩
    exact ⟨(c, m), hc, (i, n), hi, by rw [if_pos hf]; exact List.mem_singleton.2 rfl⟩

theorem mem_resourcePages {lower : Str → Str} {s : State} {e : Str × Element} : e ∈ resourcePages lower s ↔
    ∃ i n, (i, n) ∈ (jobsOf lower s .resource).zipIdx 1 ∧ (Flat.flat i.log ≠ [] ∧ i.partialId ≠ "package".toList) ∧
      e = (resourcePage n, .page (escape i.summary) (escape (Flat.flat i.log))) := by
  simp only [resourcePages, List.mem_flatMap]
  constructor
  · rintro ⟨⟨i, n⟩, hi, he⟩
    by_cases hf : Flat.flat i.log ≠ [] ∧ i.partialId ≠ "package".toList
    · rw [if_pos hf] at he
      exact ⟨i, n, hi, hf, List.mem_singleton.1 he⟩
    · rw [if_neg hf] at he
      exact absurd he List.not_mem_nil
  · rintro ⟨i, n, hi, hf, rfl⟩
    exact ⟨(i, n), hi, by rw [if_pos hf]; exact List.mem_singleton.2 rfl⟩

theorem mem_attachmentPages {lower : Str → Str} {s : State} {e : Str × Element} : e ∈ attachmentPages lower s ↔
    ∃ i n, (i, n) ∈ (jobsOf lower s .attachment).zipIdx 1 ∧ Flat.attachment i.log ≠ [] ∧
      e = (attachmentPage n, .page (escape i.summary) (escape (Flat.attachment i.log))) := by
  simp only [attachmentPages, List.mem_flatMap]
  constructor
  · rintro ⟨⟨i, n⟩, hi, he⟩
    by_cases hf : Flat.attachment i.log ≠ []
    · rw [if_pos hf] at he
      exact ⟨i, n, hi, hf, List.mem_singleton.1 he⟩
    · rw [if_neg hf] at he
      exact absurd he List.not_mem_nil
  · rintro ⟨i, n, hi, hf, rfl⟩
    exact ⟨(i, n), hi, by rw [if_pos hf]; exact List.mem_singleton.2 rfl⟩

theorem initial_test (m n : Nat) : ∃ c, initial (testPage m n) = some c ∧ c.isDigit = true := by
  obtain ⟨c, l, h, hd⟩ := testPage_head m n
  exact ⟨c, initial_of (by rw [read_testPage, h]), hd⟩

theorem initial_resource (n : Nat) : initial (resourcePage n) = some 'r' := initial_of (read_resourcePage n)

theorem initial_attachment (n : Nat) : initial (attachmentPage n) = some 'a' := initial_of (read_attachmentPage n)

theorem colon_test (m n : Nat) : ':' ∉ testPage m n := by
  intro h
  rw [testPage] at h
  simp only [List.mem_append] at h
  rcases h with ((h | h) | h) | h
  · exact no_colon_number _ h
  · exact absurd h (by decide)
  · exact no_colon_number _ h
  · exact absurd h (by decide)

theorem colon_resource (n : Nat) : ':' ∉ resourcePage n := fun h =>
  (List.mem_append.1 h).elim (fun h => (List.mem_append.1 h).elim (fun h => absurd h (by decide)) (no_colon_number _))
    fun h => absurd h (by decide)

theorem colon_attachment (n : Nat) : ':' ∉ attachmentPage n := fun h =>
  (List.mem_append.1 h).elim (fun h => (List.mem_append.1 h).elim (fun h => absurd h (by decide)) (no_colon_number _))
    fun h => absurd h (by decide)

theorem initial_eq {a b : Str} {t : Str} (ha : read a = some t) (hb : read b = some t) : initial a = initial b := by
  rw [initial, initial, ha, hb]

theorem at_index {α : Type} {l : List α} {x y : α} {n k : Nat} (hx : (x, n) ∈ l.zipIdx k) (hy : (y, n) ∈ l.zipIdx k) :
    x = y := by
  have h1 := (List.mk_mem_zipIdx_iff_le_and_getElem?_sub.1 hx).2
  have h2 := (List.mk_mem_zipIdx_iff_le_and_getElem?_sub.1 hy).2
  exact Option.some.inj (h1.symm.trans h2)

theorem follow_test {lower : Str → Str} {s : State} (hcat : ∀ u ∈ s.units, ':' ∈ u.1) {c : Str × Str} {m : Nat} {i : Item}
    {n : Nat} (hc : (c, m) ∈ (categories lower s).zipIdx 1) (hi : (i, n) ∈ (testsIn lower s c.1).zipIdx 1)
    (hf : Flat.flat i.log ≠ []) : follow (elements lower s) ('#' :: testPage m n) =
      some (.log (lineEnds i.summary) (cut (lineEnds (Flat.flat i.log)))) := by
  have hmem : (testPage m n, Element.page (escape i.summary) (escape (Flat.flat i.log))) ∈ elements lower s := by
    rw [elements]
    simp only [List.mem_append]
    exact .inl (.inl (.inr (mem_testPages.2 ⟨c, m, i, n, hc, hi, hf, rfl⟩)))
  rw [follow_of hmem (read_testPage m n) ?_]
  · show (read _).bind _ = _
    rw [read_escape, readPre_escape]; rfl
  intro e he hr
  obtain ⟨d, hd, hdig⟩ := initial_test m n
  have hin : initial e.1 = some d := (initial_eq hr (read_testPage m n)).trans hd
  rcases mem_elements he with (((((h | h) | h) | h) | h) | h) | h
  · have := fixed_initial e h
    rw [hin] at this
    simp [hdig] at this
  · obtain ⟨t, ht, hcol⟩ := category_name lower s hcat h
    rw [hr] at ht
    exact absurd (Option.some.inj ht ▸ hcol) (colon_test m n)
  · rw [h, show initial ("resource".toList, Element.other).1 = some 'r' from by decide +kernel] at hin
    rw [← Option.some.inj hin] at hdig
    exact absurd hdig (by decide)
  · have := package_initial s e h
    rw [hin] at this
    simp [hdig] at this
  · obtain ⟨c', m', i', n', hc', hi', _, rfl⟩ := mem_testPages.1 h
    have := testPage_inj (Option.some.inj ((read_testPage m' n').symm.trans hr))
    obtain ⟨rfl, rfl⟩ := this
    have := at_index hc hc'
    subst this
    have := at_index hi hi'
    subst this
    rfl
  · obtain ⟨i', n', _, _, rfl⟩ := mem_resourcePages.1 h
    rw [initial_resource] at hin
    rw [← Option.some.inj hin] at hdig
    exact absurd hdig (by decide)
  · obtain ⟨i', n', _, _, rfl⟩ := mem_attachmentPages.1 h
    rw [initial_attachment] at hin
    rw [← Option.some.inj hin] at hdig
    exact absurd hdig (by decide)

theorem read_resource : read "resource".toList = some "resource".toList := by decide +kernel

theorem resource_ne (n : Nat) : "resource".toList ≠ resourcePage n := by
  intro h
  have h2 : ("resource".toList).drop 8 = (resourcePage n).drop 8 := by rw [h]
  exact absurd h2 (by
    show [] ≠ '-' :: (number n ++ "-log".toList)
    exact (List.cons_ne_nil _ _).symm)

theorem follow_resource {lower : Str → Str} {s : State} (hcat : ∀ u ∈ s.units, ':' ∈ u.1) {i : Item}
    {n : Nat} (hi : (i, n) ∈ (jobsOf lower s .resource).zipIdx 1)
    (hf : Flat.flat i.log ≠ []) (hp : i.partialId ≠ "package".toList) : follow (elements lower s) ('#' :: resourcePage n) =
      some (.log (lineEnds i.summary) (cut (lineEnds (Flat.flat i.log)))) := by
  have hmem : (resourcePage n, Element.page (escape i.summary) (escape (Flat.flat i.log))) ∈ elements lower s := by
    rw [elements]
    simp only [List.mem_append]
    exact .inl (.inr (mem_resourcePages.2 ⟨i, n, hi, ⟨hf, hp⟩, rfl⟩))
  rw [follow_of hmem (read_resourcePage n) ?_]
  · show (read _).bind _ = _
    rw [read_escape, readPre_escape]; rfl
  intro e he hr
  have hin : initial e.1 = some 'r' := (initial_eq hr (read_resourcePage n)).trans (initial_resource n)
  rcases mem_elements he with (((((h | h) | h) | h) | h) | h) | h
  · have := fixed_initial e h
    rw [hin] at this
    exact absurd this (by decide)
  · obtain ⟨t, ht, hcol⟩ := category_name lower s hcat h
    rw [hr] at ht
    exact absurd (Option.some.inj ht ▸ hcol) (colon_resource n)
  · rw [h] at hr
    exact absurd (Option.some.inj (read_resource.symm.trans hr)) (resource_ne n)
  · have := package_initial s e h
    rw [hin] at this
    exact absurd this (by decide)
  · obtain ⟨c', m', i', n', hc', hi', _, rfl⟩ := mem_testPages.1 h
    obtain ⟨d, hd, hdig⟩ := initial_test m' n'
    rw [hin] at hd
    rw [← Option.some.inj hd] at hdig
    exact absurd hdig (by decide)
  · obtain ⟨i', n', hi', _, rfl⟩ := mem_resourcePages.1 h
    have := page_inj "resource-".toList (Option.some.inj ((read_resourcePage n').symm.trans hr))
    subst this
    have := at_index hi hi'
    subst this
    rfl
  · obtain ⟨i', n', _, _, rfl⟩ := mem_attachmentPages.1 h
    rw [initial_attachment] at hin
    exact absurd hin (by decide)

theorem follow_attachment {lower : Str → Str} {s : State} (hcat : ∀ u ∈ s.units, ':' ∈ u.1) {i : Item}
    {n : Nat} (hi : (i, n) ∈ (jobsOf lower s .attachment).zipIdx 1)
    (hf : Flat.attachment i.log ≠ []) : follow (elements lower s) ('#' :: attachmentPage n) =
      some (.log (lineEnds i.summary) (cut (lineEnds (Flat.attachment i.log)))) := by
  have hmem : (attachmentPage n, Element.page (escape i.summary) (escape (Flat.attachment i.log))) ∈ elements lower s := by
    rw [elements]
    simp only [List.mem_append]
    exact .inr (mem_attachmentPages.2 ⟨i, n, hi, hf, rfl⟩)
  rw [follow_of hmem (read_attachmentPage n) ?_]
  · show (read _).bind _ = _
    rw [read_escape, readPre_escape]; rfl
  intro e he hr
  have hin : initial e.1 = some 'a' := (initial_eq hr (read_attachmentPage n)).trans (initial_attachment n)
  rcases mem_elements he with (((((h | h) | h) | h) | h) | h) | h
  · have := fixed_initial e h
    rw [hin] at this
    exact absurd this (by decide)
  · obtain ⟨t, ht, hcol⟩ := category_name lower s hcat h
    rw [hr] at ht
    exact absurd (Option.some.inj ht ▸ hcol) (colon_attachment n)
  · rw [h, show initial ("resource".toList, Element.other).1 = some 'r' from by decide +kernel] at hin
    exact absurd hin (by decide)
  · have := package_initial s e h
    rw [hin] at this
    exact absurd this (by decide)
  · obtain ⟨c', m', i', n', hc', hi', _, rfl⟩ := mem_testPages.1 h
    obtain ⟨d, hd, hdig⟩ := initial_test m' n'
    rw [hin] at hd
    rw [← Option.some.inj hd] at hdig
    exact absurd hdig (by decide)
  · obtain ⟨i', n', hi', _, rfl⟩ := mem_resourcePages.1 h
    rw [initial_resource] at hin
    exact absurd hin (by decide)
  · obtain ⟨i', n', hi', _, rfl⟩ := mem_attachmentPages.1 h
    have := page_inj "attachment-".toList (Option.some.inj ((read_attachmentPage n').symm.trans hr))
    subst this
    have := at_index hi hi'
    subst this
    rfl

theorem see_packages (rs : List (Str × Str)) : see (.packages (rs.map fun r => (escape r.1, escape r.2))) =
    some (.packages (rs.map fun r => (lineEnds r.1, lineEnds r.2))) := by
  rw [see]
  suffices h : (rs.map fun r => (escape r.1, escape r.2)).mapM
      (fun r : Str × Str => (read r.1).bind fun a => (read r.2).map fun b => (a, b)) =
      some (rs.map fun r => (lineEnds r.1, lineEnds r.2)) by rw [h]; rfl
  induction rs with
  | nil => rfl
  | cons r rs ih =>
    rw [List.map_cons, List.mapM_cons, ih]
    simp only [read_escape]
    rfl

theorem follow_package {lower : Str → Str} {s : State} (hcat : ∀ u ∈ s.units, ':' ∈ u.1) {rs : List (Str × Str)}
    (hrs : s.resources.lookup packageKey = some rs) : follow (elements lower s) "#package-log".toList =
      some (.packages (rs.map fun r => (lineEnds r.1, lineEnds r.2))) := by
  have hmem : ("package-log".toList, Element.packages (rs.map fun r => (escape r.1, escape r.2))) ∈ elements lower s := by
    rw [elements]
    simp only [List.mem_append]
    exact .inl (.inl (.inl (.inr (by rw [packagePages, hrs]; exact List.mem_cons_self))))
  have hread : read "package-log".toList = some "package-log".toList := by decide +kernel
  rw [show "#package-log".toList = '#' :: "package-log".toList from rfl, follow_of hmem hread ?_, see_packages]
  intro e he hr
  have hin : initial e.1 = some 'p' := (initial_eq hr hread).trans (by decide +kernel)
  rcases mem_elements he with (((((h | h) | h) | h) | h) | h) | h
  · exact absurd hr (fixed_package e h)
  · obtain ⟨t, ht, hcol⟩ := category_name lower s hcat h
    rw [hr] at ht
    exact absurd (Option.some.inj ht ▸ hcol) (by decide)
  · rw [h, show initial ("resource".toList, Element.other).1 = some 'r' from by decide +kernel] at hin
    exact absurd hin (by decide)
  · obtain ⟨rs', hrs', h2⟩ := package_unique s e h hr
    rw [hrs] at hrs'
    rw [h2, Option.some.inj hrs']
  · obtain ⟨c', m', i', n', hc', hi', _, rfl⟩ := mem_testPages.1 h
    obtain ⟨d, hd, hdig⟩ := initial_test m' n'
    rw [hin] at hd
    rw [← Option.some.inj hd] at hdig
    exact absurd hdig (by decide)
  · obtain ⟨i', n', hi', _, rfl⟩ := mem_resourcePages.1 h
    rw [initial_resource] at hin
    exact absurd hin (by decide)
  · obtain ⟨i', n', hi', _, rfl⟩ := mem_attachmentPages.1 h
    rw [initial_attachment] at hin
    exact absurd hin (by decide)

/-! ## Rows -/

theorem label_word (o : Outcome) : read (escape (label o)) = some (word o) := by
  rw [read_escape]
  cases o <;> decide +kernel

theorem line_row (es : List (Str × Element)) (s : State) (i : Item) (link : Option Str)
    (h : (match link with | none => some none | some l => (follow es l).map some) = some (leads s i)) :
    line es (row i link) = some (expected s i) := by
  have hc : read (row i link).certification =
      some (if i.certification = "unspecified".toList then [] else lineEnds i.certification) := by
    by_cases h : i.certification = "unspecified".toList
    · rw [if_pos h]
      show read (if _ then _ else _) = _
      rw [if_neg (by simpa using h)]
      rfl
    · rw [if_neg h]
      show read (if _ then _ else _) = _
      rw [if_pos h, read_escape]
  have hm : read (row i link).comments = some (lineEnds (i.comments.getD [])) := by
    show read (match i.comments with | none => [] | some t => escape t) = _
    cases i.comments with
    | none => rfl
    | some t => exact read_escape t
  have hn : read (row i link).name = some (lineEnds i.partialId) := read_escape _
  have hl : read (row i link).label = some (word i.outcome) := label_word _
  rw [line, hc, hm, hn, hl]
  show Option.map _ (match link with | none => some none | some l => (follow es l).map some) = _
  rw [h]
  rfl

theorem flatMap_congr {α β : Type} {f g : α → List β} {l : List α} (h : ∀ x ∈ l, f x = g x) : l.flatMap f = l.flatMap g := by
  induction l with
  | nil => rfl
  | cons x l ih =>
    rw [List.flatMap_cons, List.flatMap_cons, h x List.mem_cons_self, ih fun y hy => h y (List.mem_cons_of_mem _ hy)]

theorem zipIdx_map_fst {α β : Type} (f : α → β) (l : List α) (k : Nat) : ((l.zipIdx k).map fun p => f p.1) = l.map f := by
  induction l generalizing k with
  | nil => rfl
  | cons x l ih => rw [List.zipIdx_cons, List.map_cons, List.map_cons, ih]

theorem mem_of_zipIdx {α : Type} {l : List α} {x : α} {n k : Nat} (h : (x, n) ∈ l.zipIdx k) : x ∈ l :=
  List.mem_of_getElem? (List.mk_mem_zipIdx_iff_le_and_getElem?_sub.1 h).2

theorem filter_or_perm {α : Type} (p q : α → Bool) (l : List α) (h : ∀ x, p x = true → q x = false) :
    (l.filter p ++ l.filter q).Perm (l.filter fun x => p x || q x) := by
  induction l with
  | nil => simp
  | cons x l ih =>
    by_cases hp : p x = true
    · simp only [List.filter_cons, hp, h x hp, Bool.true_or, if_true, Bool.false_eq_true, if_false, List.cons_append]
      exact ih.cons x
    · by_cases hq : q x = true
      · simp only [List.filter_cons, hp, hq, Bool.or_true, if_true, Bool.false_eq_true, if_false]
        exact List.perm_middle.trans (ih.cons x)
      · simp only [List.filter_cons, hp, hq, Bool.or_false, Bool.false_eq_true, if_false]
        exact ih

theorem lookup_of_mem {V : Type} {l : List (Str × V)} {k : Str} (h : k ∈ l.map (·.1)) : ∃ v, l.lookup k = some v := by
  induction l with
  | nil => exact absurd h List.not_mem_nil
  | cons x l ih =>
    obtain ⟨a, b⟩ := x
    rw [List.lookup_cons]
    by_cases ha : k = a
    · exact ⟨b, by simp [ha]⟩
    · obtain ⟨v, hv⟩ := ih (by simpa [ha] using h)
      exact ⟨v, by rw [show (k == a) = false from by simpa using ha]; exact hv⟩

/-- What is assumed of a session: categories are qualified by a name space, resource jobs that have a result have resources, and
only the one job is called `package`. (specification) -/
structure Sane (s : State) : Prop where
  qualified : ∀ u ∈ s.units, ':' ∈ u.1
  stored : ∀ i ∈ s.items, i.plugin = .resource → i.outcome ≠ .none → i.id ∈ s.resources.map (·.1)
  package : ∀ i ∈ s.items, i.plugin = .resource → i.outcome ≠ .none →
    (i.partialId = "package".toList ↔ i.id = "com.canonical.certification::package".toList)

/-- The jobs that are in the report: those with a result, and of tests those of known categories. (specification) -/
def Listed (s : State) (i : Item) : Prop :=
  i.outcome ≠ .none ∧ (i.plugin = .resource ∨ i.plugin = .attachment ∨ i.category ∈ s.units.map (·.1))

instance (s : State) (i : Item) : Decidable (Listed s i) := by unfold Listed; infer_instance

theorem test_line {lower : Str → Str} {s : State} (hs : Sane s) {c : Str × Str} {m : Nat} {i : Item} {n : Nat}
    (hc : (c, m) ∈ (categories lower s).zipIdx 1) (hi : (i, n) ∈ (testsIn lower s c.1).zipIdx 1) :
    line (elements lower s) (row i (if Flat.flat i.log ≠ [] then some ('#' :: testPage m n) else none)) =
      some (expected s i) := by
  have ht := mem_of_zipIdx hi
  rw [testsIn, List.mem_filter, decide_eq_true_iff] at ht
  have hw : wrote i = Flat.flat i.log := if_neg ht.2.2.2.2
  have hp : ¬ (i.plugin = .resource ∧ i.id = "com.canonical.certification::package".toList) := fun h => ht.2.2.2.1 h.1
  by_cases hf : Flat.flat i.log ≠ []
  · rw [if_pos hf]
    refine line_row _ s _ _ ?_
    dsimp only
    rw [follow_test hs.qualified hc hi hf, leads, hw, if_neg hf, if_neg hp]; rfl
  · rw [if_neg hf]
    refine line_row _ s _ _ ?_
    rw [leads, hw, if_pos (by simpa using hf)]

theorem resource_line {lower : Str → Str} {s : State} (hs : Sane s) {i : Item} {n : Nat}
    (hi : (i, n) ∈ (jobsOf lower s .resource).zipIdx 1) :
    line (elements lower s) (resourceRow i n) = some (expected s i) := by
  have ht := mem_of_zipIdx hi
  rw [jobsOf, List.mem_filter, decide_eq_true_iff] at ht
  have hmem : i ∈ s.items := (sorted_perm lower s).mem_iff.1 ht.1
  have hw : wrote i = Flat.flat i.log := if_neg (by rw [ht.2.2]; decide)
  have hpk := hs.package i hmem ht.2.2 ht.2.1
  rw [resourceRow]
  by_cases hp : i.partialId = "package".toList
  · rw [if_pos hp]
    by_cases hf : Flat.flat i.log ≠ []
    · obtain ⟨rs, hrs'⟩ := lookup_of_mem (hs.stored i hmem ht.2.2 ht.2.1)
      have hrs : s.resources.lookup packageKey = some rs := by rw [← hrs', hpk.1 hp]; rfl
      rw [if_pos hf]
      refine line_row _ s _ _ ?_
      dsimp only
      rw [follow_package hs.qualified hrs, leads, hw, if_neg hf, if_pos ⟨ht.2.2, hpk.1 hp⟩, hrs']
      rfl
    · rw [if_neg hf]
      refine line_row _ s _ _ ?_
      rw [leads, hw, if_pos (by simpa using hf)]
  · rw [if_neg hp]
    by_cases hf : Flat.flat i.log ≠ []
    · rw [if_pos hf]
      refine line_row _ s _ _ ?_
      dsimp only
      rw [follow_resource hs.qualified hi hf hp, leads, hw, if_neg hf, if_neg fun h => hp (hpk.2 h.2)]
      rfl
    · rw [if_neg hf]
      refine line_row _ s _ _ ?_
      rw [leads, hw, if_pos (by simpa using hf)]

theorem attachment_line {lower : Str → Str} {s : State} (hs : Sane s) {i : Item} {n : Nat}
    (hi : (i, n) ∈ (jobsOf lower s .attachment).zipIdx 1) :
    line (elements lower s) (row i (if Flat.attachment i.log ≠ [] then some ('#' :: attachmentPage n) else none)) =
      some (expected s i) := by
  have ht := mem_of_zipIdx hi
  rw [jobsOf, List.mem_filter, decide_eq_true_iff] at ht
  have hw : wrote i = Flat.attachment i.log := if_pos ht.2.2
  have hp : ¬ (i.plugin = .resource ∧ i.id = "com.canonical.certification::package".toList) := fun h => by
    rw [ht.2.2] at h; exact absurd h.1 (by decide)
  by_cases hf : Flat.attachment i.log ≠ []
  · rw [if_pos hf]
    refine line_row _ s _ _ ?_
    dsimp only
    rw [follow_attachment hs.qualified hi hf, leads, hw, if_neg hf, if_neg hp]; rfl
  · rw [if_neg hf]
    refine line_row _ s _ _ ?_
    rw [leads, hw, if_pos (by simpa using hf)]

theorem test_lines {lower : Str → Str} {s : State} (hs : Sane s) :
    ((((categories lower s).zipIdx 1).map fun p => categorySection lower s p.1 p.2).flatMap (·.rows)).map
      (line (elements lower s)) =
      ((categories lower s).flatMap fun c => testsIn lower s c.1).map fun i => some (expected s i) := by
  rw [List.flatMap_map, List.map_flatMap, List.map_flatMap,
    ← zipIdx_flatMap (fun c : Str × Str => (testsIn lower s c.1).map fun i => some (expected s i)) _ 1]
  refine flatMap_congr fun p hp => ?_
  rw [categorySection, List.map_map, ← zipIdx_map_fst (fun i => some (expected s i)) _ 1]
  exact List.map_congr_left fun q hq => test_line hs (c := p.1) (m := p.2) (i := q.1) (n := q.2) hp hq

theorem resource_lines {lower : Str → Str} {s : State} (hs : Sane s) :
    ((resourceSection lower s).flatMap (·.rows)).map (line (elements lower s)) =
      (jobsOf lower s .resource).map fun i => some (expected s i) := by
  rw [resourceSection]
  by_cases h : s.resources ≠ []
  · rw [if_pos h, List.flatMap_singleton, List.map_map, ← zipIdx_map_fst (fun i => some (expected s i)) _ 1]
    exact List.map_congr_left fun q hq => resource_line hs (i := q.1) (n := q.2) hq
  · rw [if_neg h]
    have : jobsOf lower s .resource = [] := by
      rw [List.eq_nil_iff_forall_not_mem]
      intro i hi
      rw [jobsOf, List.mem_filter, decide_eq_true_iff] at hi
      have := hs.stored i ((sorted_perm lower s).mem_iff.1 hi.1) hi.2.2 hi.2.1
      rw [show s.resources = [] from by simpa using h] at this
      exact absurd this List.not_mem_nil
    rw [this]
    rfl

theorem attachment_lines {lower : Str → Str} {s : State} (hs : Sane s) :
    ((attachmentSection lower s).flatMap (·.rows)).map (line (elements lower s)) =
      (jobsOf lower s .attachment).map fun i => some (expected s i) := by
  rw [attachmentSection]
  generalize hr : ((jobsOf lower s .attachment).zipIdx 1).map (fun p =>
    row p.1 (if Flat.attachment p.1.log ≠ [] then some ('#' :: attachmentPage p.2) else none)) = rows
  have hm : rows.map (line (elements lower s)) = (jobsOf lower s .attachment).map fun i => some (expected s i) := by
    rw [← hr, List.map_map, ← zipIdx_map_fst (fun i => some (expected s i)) _ 1]
    exact List.map_congr_left fun q hq => attachment_line hs (i := q.1) (n := q.2) hq
  by_cases h : rows ≠ []
  · rw [if_pos h, List.flatMap_singleton, hm]
  · rw [if_neg h, ← hm, show rows = [] from by simpa using h]
    rfl

/-- **C104** The tables have one row for every job that has a result and, if it is a test, a category that is known; the row
tells its name, its outcome, its certification status and its comments, and leads to what it wrote if it wrote anything. -/
theorem C104_shown_partial (lower : Str → Str) (s : State) (hs : Sane s) :
    (((sections lower s).flatMap (·.rows)).map (line (elements lower s))).Perm
      ((s.items.filter fun i => decide (Listed s i)).map fun i => some (expected s i)) := by
  rw [sections, List.flatMap_append, List.flatMap_append, List.map_append, List.map_append, test_lines hs, resource_lines hs,
    attachment_lines hs, ← List.map_append, ← List.map_append]
  refine List.Perm.map _ ?_
  refine (((tests_perm lower s).append (jobsOf_perm lower s .resource)).append (jobsOf_perm lower s .attachment)).trans ?_
  refine ((filter_or_perm _ _ _ ?_).append_right _).trans ((filter_or_perm _ _ _ ?_).trans ?_)
  · intro i hi
    rw [Bool.and_eq_true, isTest, decide_eq_true_iff] at hi
    exact decide_eq_false fun h => hi.1.2.1 h.2
  · intro i hi
    rw [Bool.or_eq_true, Bool.and_eq_true, isTest, decide_eq_true_iff] at hi
    refine decide_eq_false fun h => ?_
    rcases hi with hi | hi
    · exact hi.1.2.2 h.2
    · rw [(of_decide_eq_true hi).2] at h
      exact absurd h.2 (by decide)
  · refine List.Perm.of_eq (List.filter_congr fun i _ => ?_)
    rw [Bool.eq_iff_iff, decide_eq_true_iff]
    simp only [Bool.or_eq_true, Bool.and_eq_true, isTest, decide_eq_true_iff, Listed]
    generalize i.plugin = x
    cases x <;> simp

/-- **C104** If every category is known, all results are in the tables, each once. -/
theorem C104_all_partial (lower : Str → Str) (s : State) (hs : Sane s)
    (hk : ∀ i ∈ s.items, i.outcome ≠ .none → i.plugin = .other → i.category ∈ s.units.map (·.1)) :
    (((sections lower s).flatMap (·.rows)).map (line (elements lower s))).Perm
      ((s.items.filter fun i => decide (i.outcome ≠ .none)).map fun i => some (expected s i)) := by
  have h := C104_shown_partial lower s hs
  rwa [show (s.items.filter fun i => decide (Listed s i)) = s.items.filter fun i => decide (i.outcome ≠ .none) from ?_] at h
  refine List.filter_congr fun i hi => ?_
  rw [Bool.eq_iff_iff, decide_eq_true_iff, decide_eq_true_iff, Listed]
  refine ⟨And.left, fun ho => ⟨ho, ?_⟩⟩
  cases hp : i.plugin with
  | resource => exact .inl rfl
  | attachment => exact .inr (.inl rfl)
  | other => exact .inr (.inr (hk i hi ho hp))

/-! ## Headings -/

/-- The tests of a category that have a result. (specification) -/
def testsOf (s : State) (c : Str) : List Item :=
  s.items.filter fun i => decide (i.category = c ∧ i.outcome ≠ .none ∧ i.plugin = .other)

theorem rule_drop {α : Type} (f : α → Outcome) (p : α → Bool) (l : List α) (o : Outcome)
    (hp : ∀ x ∈ l, p x = false → f x = .none) (h : Stats.Rule (l.map f) o) : Stats.Rule ((l.filter p).map f) o := by
  have h1 : ∀ y, y ≠ .none → (y ∈ l.map f ↔ y ∈ (l.filter p).map f) := by
    intro y hy
    simp only [List.mem_map, List.mem_filter]
    constructor
    · rintro ⟨x, hx, rfl⟩
      refine ⟨x, ⟨hx, ?_⟩, rfl⟩
      cases hpx : p x
      · exact absurd (hp x hx hpx) hy
      · rfl
    · rintro ⟨x, hx, rfl⟩
      exact ⟨x, hx.1, rfl⟩
  have h2 : (∃ x ∈ l.map f, x = .fail ∨ x = .crash) ↔ ∃ x ∈ (l.filter p).map f, x = .fail ∨ x = .crash := by
    constructor
    · rintro ⟨x, hx, rfl | rfl⟩
      · exact ⟨.fail, (h1 _ (by decide)).1 hx, .inl rfl⟩
      · exact ⟨.crash, (h1 _ (by decide)).1 hx, .inr rfl⟩
    · rintro ⟨x, hx, rfl | rfl⟩
      · exact ⟨.fail, (h1 _ (by decide)).2 hx, .inl rfl⟩
      · exact ⟨.crash, (h1 _ (by decide)).2 hx, .inr rfl⟩
  unfold Stats.Rule at *
  rwa [h2, h1 .pass (by decide)] at h

theorem categoryLabel_rule (s : State) (c : Str) (h : ∃ i ∈ s.items, i.category = c ∧ i.outcome ≠ .none) :
    ∃ o, read (categoryLabel s c) = some (word o) ∧
      Stats.Rule ((s.items.filter fun i => decide (i.category = c)).map (·.outcome)) o := by
  obtain ⟨h1, h2, _⟩ := Stats.C11_category_outcome (entries s) c
  obtain ⟨i, hi, hc, ho⟩ := h
  have he : (⟨i.outcome, i.category, i.plugin⟩ : Stats.Entry Str) ∈ entries s :=
    List.mem_map.2 ⟨i, hi, rfl⟩
  have hrule : ∀ o, Stats.Rule (Stats.inCategory c (entries s)) o →
      Stats.Rule ((s.items.filter fun i => decide (i.category = c)).map (·.outcome)) o := by
    intro o ho
    rw [Stats.inCategory, entries, List.filter_map, List.map_map] at ho
    exact ho
  have hex : (∃ o, (Stats.categoryOutcomeMap (entries s)).lookup c = some o ∧
      Stats.Rule (Stats.inCategory c (entries s)) o) := by
    cases hl : (Stats.categoryOutcomeMap (entries s)).lookup c with
    | none => exact absurd (h1.1 hl _ he hc) ho
    | some o => exact ⟨o, rfl, h2 o hl⟩
  obtain ⟨o, hl, hr⟩ := hex
  have hl' : (Stats.categoryOutcomeMap (entries s)).lookup c = some o := hl
  refine ⟨o, ?_, hrule o hr⟩
  have : categoryLabel s c = escape (label o) := by
    rw [categoryLabel]
    split
    · rename_i hn
      exact absurd (hn.symm.trans hl') (by simp)
    · rename_i o' hn
      rw [Option.some.inj (hn.symm.trans hl')]
  rw [this, label_word]

/-- A table shows a category: its name, an outcome, and the names of its tests in order of their ids. (specification) -/
def Shows (lower : Str → Str) (s : State) (c : Str × Str) (x : Section) : Prop :=
  read x.heading = some (lineEnds c.2) ∧
  (∃ o, read x.label = some (word o) ∧
    Stats.Rule ((s.items.filter fun i => decide (i.category = c.1)).map (·.outcome)) o ∧
    ((∀ i ∈ s.items, i.category = c.1 → i.outcome ≠ .none → i.plugin = .other) →
      Stats.Rule ((testsOf s c.1).map (·.outcome)) o)) ∧
  ∃ js : List Item, js.Perm (testsOf s c.1) ∧ (js.Pairwise fun i j => Sort.strLe (lower i.id) (lower j.id) = true) ∧
    x.rows.map (fun r => read r.name) = js.map fun i => some (lineEnds i.partialId)

theorem sorted_sorted (lower : Str → Str) (s : State) :
    (sorted lower s).Pairwise fun i j => Sort.strLe (lower i.id) (lower j.id) = true :=
  Sort.sortBy_sorted (le := fun (i j : Item) => Sort.strLe (lower i.id) (lower j.id))
    (fun _ _ => Sort.strLe_total _ _) (fun _ _ _ => Sort.strLe_trans _ _ _) s.items

theorem shows_category (lower : Str → Str) (s : State) (c : Str × Str) (hc : c ∈ categories lower s) (m : Nat) :
    Shows lower s c (categorySection lower s c m) := by
  have hk : c.1 ∈ (categoryMap s).map (·.1) :=
    ((categories_perm lower s).map (·.1)).mem_iff.1 (List.mem_map_of_mem hc)
  obtain ⟨_, i, hi, hti, hci⟩ := (mem_categoryMap s c.1).1 hk
  rw [isTest, decide_eq_true_iff] at hti
  obtain ⟨o, ho, hr⟩ := categoryLabel_rule s c.1 ⟨i, hi, hci, hti.1⟩
  refine ⟨read_escape _, ⟨o, ho, hr, ?_⟩, testsIn lower s c.1, ?_, ?_, ?_⟩
  · intro hall
    have h := rule_drop (·.outcome) (fun i : Item => decide (i.outcome ≠ .none ∧ i.plugin = .other)) _ o ?_ hr
    · rw [List.filter_filter] at h
      rw [testsOf]
      convert h using 3
      funext x
      rw [Bool.eq_iff_iff, decide_eq_true_iff, Bool.and_eq_true, decide_eq_true_iff, decide_eq_true_iff]
      exact ⟨fun h => ⟨h.2, h.1⟩, fun h => ⟨h.2, h.1⟩⟩
    · intro x hx hf
      rw [List.mem_filter, decide_eq_true_iff] at hx
      by_cases hn : x.outcome = .none
      · exact hn
      · exact absurd ⟨hn, hall x hx.1 hx.2 hn⟩ (of_decide_eq_false hf)
  · refine ((sorted_perm lower s).filter _).trans (List.Perm.of_eq (List.filter_congr fun x _ => ?_))
    rw [Bool.eq_iff_iff, decide_eq_true_iff, decide_eq_true_iff]
    cases x.plugin <;> simp [and_comm]
  · exact (sorted_sorted lower s).sublist List.filter_sublist
  · rw [categorySection, List.map_map, ← zipIdx_map_fst (fun i : Item => some (lineEnds i.partialId)) _ 1]
    exact List.map_congr_left fun q _ => read_escape _

theorem mem_dictSet (u : Str × Str) (m : List (Str × Str)) (c : Str × Str) (h : c ∈ Checksum.dictSet u.1 u.2 m) :
    c ∈ m ∨ c = u := by
  induction m with
  | nil => exact .inr (by simpa [Checksum.dictSet] using h)
  | cons x m ih =>
    obtain ⟨a, b⟩ := x
    simp only [Checksum.dictSet] at h
    split at h
    · rcases List.mem_cons.1 h with h | h
      · exact .inr h
      · exact .inl (List.mem_cons_of_mem _ h)
    · rcases List.mem_cons.1 h with h | h
      · exact .inl (h ▸ List.mem_cons_self)
      · rcases ih h with h | h
        · exact .inl (List.mem_cons_of_mem _ h)
        · exact .inr h

theorem value_of_fold (us : List (Str × Str)) (m : List (Str × Str)) (c : Str × Str)
    (h : c ∈ us.foldl (fun m u => Checksum.dictSet u.1 u.2 m) m) : c ∈ m ∨ c ∈ us := by
  induction us generalizing m with
  | nil => exact .inl h
  | cons u us ih =>
    rcases ih _ h with h | h
    · rcases mem_dictSet u m c h with h | h
      · exact .inl h
      · exact .inr (h ▸ List.mem_cons_self)
    · exact .inr (List.mem_cons_of_mem _ h)

theorem global_rule (s : State) (p : Stats.Plugin) :
    Stats.Rule ((s.items.filter fun i => decide (i.plugin = p ∧ i.outcome ≠ .none)).map (·.outcome))
      (Stats.globalOutcome p (entries s)) := by
  have h := (Stats.C11_global_outcome p (entries s)).1
  rw [Stats.contributing, entries, List.filter_map, List.map_map] at h
  exact h

/-- **C104** There is one table for every category that is known and has a test with a result, under the name of the
category and in the order of the names; its heading tells the outcome of the category. Tables of resources and of attachments
follow, and tell whether all of them went well. -/
theorem C104_tables_partial (lower : Str → Str) (s : State) :
    ∃ cs : List (Str × Str), (cs.map (·.1)).Nodup ∧ (∀ c ∈ cs, c ∈ s.units) ∧
      (∀ k, k ∈ cs.map (·.1) ↔ k ∈ s.units.map (·.1) ∧ testsOf s k ≠ []) ∧
      (cs.Pairwise fun a b => Sort.strLe (lower a.2) (lower b.2) = true) ∧
      ∃ a b d, sections lower s = a ++ b ++ d ∧
        (a.length = cs.length ∧ ∀ p ∈ cs.zip a, Shows lower s p.1 p.2) ∧
        (∃ o, Stats.Rule ((s.items.filter fun i => decide (i.plugin = .resource ∧ i.outcome ≠ .none)).map (·.outcome)) o ∧
          b.map (fun x => (read x.heading, read x.label)) =
            if s.resources = [] then [] else [(some "Resources".toList, some (word o))]) ∧
        ∃ o, Stats.Rule ((s.items.filter fun i => decide (i.plugin = .attachment ∧ i.outcome ≠ .none)).map (·.outcome)) o ∧
          d.map (fun x => (read x.heading, read x.label)) =
            if ∃ i ∈ s.items, i.plugin = .attachment ∧ i.outcome ≠ .none then
              [(some "Attachments".toList, some (word o))] else [] := by
  have hp := (categories_perm lower s).map (·.1)
  refine ⟨categories lower s, hp.nodup_iff.2 (categoryMap_nodup s), ?_, ?_, ?_, _, _, _, rfl, ⟨?_, ?_⟩, ?_, ?_⟩
  · intro c hc
    have := (categories_perm lower s).mem_iff.1 hc
    rcases value_of_fold _ _ _ this with h | h
    · exact absurd h List.not_mem_nil
    · exact (List.mem_filter.1 h).1
  · intro k
    rw [hp.mem_iff, mem_categoryMap]
    refine and_congr_right fun _ => ?_
    rw [List.ne_nil_iff_exists_cons] 
    constructor
    · rintro ⟨i, hi, ht, hc⟩
      rw [isTest, decide_eq_true_iff] at ht
      have : i ∈ testsOf s k := by
        rw [testsOf, List.mem_filter, decide_eq_true_iff]
        refine ⟨hi, hc, ht.1, ?_⟩
        have h1 := ht.2.1
        have h2 := ht.2.2
        cases hpl : i.plugin with
        | other => rfl
        | resource => exact absurd hpl h1
        | attachment => exact absurd hpl h2
      cases hl : testsOf s k with
      | nil => rw [hl] at this; exact absurd this List.not_mem_nil
      | cons x l => exact ⟨x, l, rfl⟩
    · rintro ⟨x, l, hl⟩
      have : x ∈ testsOf s k := by rw [hl]; exact List.mem_cons_self
      rw [testsOf, List.mem_filter, decide_eq_true_iff] at this
      refine ⟨x, this.1, ?_, this.2.1⟩
      rw [isTest, decide_eq_true_iff, this.2.2.2]
      exact ⟨this.2.2.1, by decide, by decide⟩
  · exact Sort.sortBy_sorted (le := fun (i j : Str × Str) => Sort.strLe (lower i.2) (lower j.2))
      (fun _ _ => Sort.strLe_total _ _) (fun _ _ _ => Sort.strLe_trans _ _ _) _
  · rw [List.length_map, List.length_zipIdx]
  · intro p hp
    obtain ⟨n, hn, hpn⟩ := List.getElem_of_mem hp
    rw [List.getElem_zip] at hpn
    rw [List.length_zip, List.length_map, List.length_zipIdx] at hn
    have hn' : n < (categories lower s).length := by omega
    rw [List.getElem_map, List.getElem_zipIdx] at hpn
    rw [← hpn]
    exact shows_category lower s _ (List.getElem_mem hn') _
  · refine ⟨_, global_rule s .resource, ?_⟩
    rw [resourceSection]
    by_cases h : s.resources = []
    · rw [if_pos h, if_neg (by simpa using h)]; rfl
    · rw [if_neg h, if_pos h, List.map_singleton, label_word]
      rw [show read "Resources".toList = some "Resources".toList from by decide +kernel]
  · refine ⟨_, global_rule s .attachment, ?_⟩
    rw [attachmentSection]
    have hiff : (((jobsOf lower s .attachment).zipIdx 1).map fun p =>
        row p.1 (if Flat.attachment p.1.log ≠ [] then some ('#' :: attachmentPage p.2) else none)) ≠ [] ↔
        ∃ i ∈ s.items, i.plugin = .attachment ∧ i.outcome ≠ .none := by
      rw [ne_eq, List.map_eq_nil_iff, List.zipIdx_eq_nil_iff]
      constructor
      · intro h
        obtain ⟨i, hi⟩ := List.exists_mem_of_ne_nil _ h
        rw [jobsOf, List.mem_filter, decide_eq_true_iff] at hi
        exact ⟨i, (sorted_perm lower s).mem_iff.1 hi.1, hi.2.2, hi.2.1⟩
      · rintro ⟨i, hi, hpl, ho⟩ h
        have : i ∈ jobsOf lower s .attachment := by
          rw [jobsOf, List.mem_filter, decide_eq_true_iff]
          exact ⟨(sorted_perm lower s).mem_iff.2 hi, ho, hpl⟩
        rw [h] at this
        exact absurd this List.not_mem_nil
    by_cases h : ∃ i ∈ s.items, i.plugin = .attachment ∧ i.outcome ≠ .none
    · rw [if_pos h, if_pos (hiff.2 h), List.map_singleton, label_word]
      rw [show read "Attachments".toList = some "Attachments".toList from by decide +kernel]
    · rw [if_neg h, if_neg fun h' => h (hiff.1 h')]
      rfl

/-! ## The chart -/

/-- The number of jobs with an outcome. (specification) -/
def count (s : State) (o : Outcome) : Nat := (s.items.filter fun i => decide (i.outcome = o)).length

theorem nodup_of_map {α β : Type} (f : α → β) {l : List α} (h : (l.map f).Nodup) : l.Nodup :=
  (List.pairwise_map.1 h).imp fun hne he => hne (congrArg f he)

theorem setKey_nodup {m : List (Outcome × Nat)} (h : (m.map Prod.fst).Nodup) (k : Outcome) (v : Nat) :
    ((Session.setKey m k v).map Prod.fst).Nodup := by
  unfold Session.setKey
  split
  · rw [Session.modify_keys]; exact h
  · rename_i hn
    rw [List.map_append, List.nodup_append]
    refine ⟨h, by simp, fun a ha b hb => ?_⟩
    have hb' : b = k := by simpa using hb
    rintro rfl
    exact hn ((Session.lookup_isSome_iff m k).2 (hb' ▸ ha))

theorem stats_inv (es : List (Stats.Entry Str)) (m : List (Outcome × Nat))
    (h1 : (m.map Prod.fst).Nodup) (h2 : ∀ o n, m.lookup o = some n → 0 < n) :
    let r := es.foldl (fun m e => if e.outcome = .none then m else Stats.bump m e.outcome) m
    (r.map Prod.fst).Nodup ∧ ∀ o n, r.lookup o = some n → 0 < n := by
  induction es generalizing m with
  | nil => exact ⟨h1, h2⟩
  | cons e es ih =>
    rw [List.foldl_cons]
    by_cases hn : e.outcome = .none
    · rw [if_pos hn]
      exact ih m h1 h2
    · rw [if_neg hn]
      refine ih _ (setKey_nodup h1 _ _) fun o n h => ?_
      rw [Stats.bump, Session.lookup_setKey] at h
      split at h
      · have := Option.some.inj h
        omega
      · exact h2 o n h

theorem mem_of_lookup {m : List (Outcome × Nat)} {o : Outcome} {n : Nat} (h : m.lookup o = some n) : (o, n) ∈ m := by
  induction m with
  | nil => cases h
  | cons x m ih =>
    obtain ⟨a, b⟩ := x
    rw [List.lookup_cons] at h
    by_cases ha : o = a
    · subst ha
      simp only [beq_self_eq_true] at h
      rw [Option.some.inj h]
      exact List.mem_cons_self
    · rw [show (o == a) = false from by simpa using ha] at h
      exact List.mem_cons_of_mem _ (ih h)

theorem count_eq (s : State) (o : Outcome) : Stats.countOf o (entries s) = count s o := by
  rw [Stats.countOf, entries, count, List.countP_map, List.countP_eq_length_filter]
  rfl

theorem mem_stats (s : State) (o : Outcome) (n : Nat) :
    (o, n) ∈ Stats.outcomeStats (entries s) ↔ o ≠ .none ∧ 0 < count s o ∧ n = count s o := by
  obtain ⟨hnd, hpos⟩ := stats_inv (entries s) [] (by simp) (by simp)
  obtain ⟨hc, hno, _⟩ := Stats.C11_outcome_stats (entries s)
  constructor
  · intro h
    have hl : (Stats.outcomeStats (entries s)).lookup o = some n := Session.lookup_of_mem hnd h
    have ho : o ≠ .none := by
      rintro rfl
      rw [hno] at hl
      exact absurd hl (by simp)
    have hcn := hc o ho
    rw [hl, count_eq] at hcn
    have hp := hpos o n hl
    exact ⟨ho, by rw [← hcn]; exact hp, hcn⟩
  · rintro ⟨ho, hp, rfl⟩
    have hcn := hc o ho
    rw [count_eq] at hcn
    cases hl : (Stats.outcomeStats (entries s)).lookup o with
    | none => rw [hl] at hcn; exact absurd hcn.symm (by simpa using Nat.ne_of_gt hp)
    | some k =>
      rw [hl] at hcn
      exact mem_of_lookup (by rw [hl, ← hcn]; rfl)

theorem toString_number (n : Nat) : (toString n).toList = number n := by
  show (Nat.repr n).toList = _
  rw [Nat.repr_eq_ofList_toDigits, String.toList_ofList]
  rfl

/-- **C104** The chart has, for each outcome that some job has, the number of jobs that have it. -/
theorem C104_chart (s : State) :
    ((chart s).map fun p => (read p.1, read p.2)).Perm
      (([Outcome.pass, .fail, .skip, .notSupported, .notImplemented, .undecided, .crash].filter fun o =>
        decide (0 < count s o)).map fun o => (some (toString (count s o)).toList, some (word o))) := by
  have hp : (Stats.outcomeStats (entries s)).Perm
      (([Outcome.pass, .fail, .skip, .notSupported, .notImplemented, .undecided, .crash].filter fun o =>
        decide (0 < count s o)).map fun o => (o, count s o)) := by
    have hnd := (stats_inv (entries s) [] (by simp) (by simp)).1
    refine (List.perm_ext_iff_of_nodup (nodup_of_map _ hnd) ?_).2 ?_
    · refine nodup_of_map Prod.fst ?_
      rw [List.map_map]
      show ((List.filter _ _).map id).Nodup
      rw [List.map_id]
      exact List.Nodup.sublist List.filter_sublist (by decide)
    · rintro ⟨o, n⟩
      refine (mem_stats s o n).trans ?_
      rw [List.mem_map]
      constructor
      · rintro ⟨ho, hp, rfl⟩
        refine ⟨o, List.mem_filter.2 ⟨?_, by simpa using hp⟩, rfl⟩
        cases o <;> simp_all
      · rintro ⟨o', ho', h⟩
        obtain ⟨rfl, rfl⟩ := Prod.mk.inj h
        obtain ⟨h1, h2⟩ := List.mem_filter.1 ho'
        refine ⟨?_, by simpa using h2, rfl⟩
        rintro rfl
        exact absurd h1 (by decide)
  rw [chart, List.map_map]
  refine (((Sort.sortBy_perm _).trans hp).map _).trans (List.Perm.of_eq ?_)
  rw [List.map_map]
  refine List.map_congr_left fun o _ => ?_
  show (read (number (count s o)), read (escape (label o))) = _
  rw [read_number, label_word, toString_number]

/-- **C104** And they come in the order of the names of the outcomes. -/
theorem C104_chart_order (s : State) :
    (chart s).map (fun p => (read p.1, read p.2)) =
      ([Outcome.crash, .fail, .notImplemented, .notSupported, .pass, .skip, .undecided].filter fun o =>
        decide (0 < count s o)).map fun o => (some (toString (count s o)).toList, some (word o)) := by
  have hp : (Stats.outcomeStats (entries s)).Perm
      (([Outcome.crash, .fail, .notImplemented, .notSupported, .pass, .skip, .undecided].filter fun o =>
        decide (0 < count s o)).map fun o => (o, count s o)) := by
    have hnd := (stats_inv (entries s) [] (by simp) (by simp)).1
    refine (List.perm_ext_iff_of_nodup (nodup_of_map _ hnd) ?_).2 ?_
    · refine nodup_of_map Prod.fst ?_
      rw [List.map_map]
      show ((List.filter _ _).map id).Nodup
      rw [List.map_id]
      exact List.Nodup.sublist List.filter_sublist (by decide)
    · rintro ⟨o, n⟩
      refine (mem_stats s o n).trans ?_
      rw [List.mem_map]
      constructor
      · rintro ⟨ho, hp, rfl⟩
        refine ⟨o, List.mem_filter.2 ⟨?_, by simpa using hp⟩, rfl⟩
        cases o <;> simp_all
      · rintro ⟨o', ho', h⟩
        obtain ⟨rfl, rfl⟩ := Prod.mk.inj h
        obtain ⟨h1, h2⟩ := List.mem_filter.1 ho'
        refine ⟨?_, by simpa using h2, rfl⟩
        rintro rfl
        exact absurd h1 (by decide)
  have hs := Sort.sortBy_sorted (le := fun a b : Outcome × Nat => Sort.strLe (value a.1) (value b.1))
    (fun a b => Sort.strLe_total _ _) (fun a b c => Sort.strLe_trans _ _ _) (Stats.outcomeStats (entries s))
  have hq := (Sort.sortBy_perm (le := fun a b : Outcome × Nat => Sort.strLe (value a.1) (value b.1)) _).trans hp
  have hs' : (([Outcome.crash, .fail, .notImplemented, .notSupported, .pass, .skip, .undecided].filter fun o =>
        decide (0 < count s o)).map fun o => (o, count s o)).Pairwise
        fun a b => Sort.strLe (value a.1) (value b.1) = true := by
    rw [List.pairwise_map]
    have h : [Outcome.crash, .fail, .notImplemented, .notSupported, .pass, .skip, .undecided].Pairwise
        fun a b => Sort.strLe (value a) (value b) = true := by decide
    exact List.Pairwise.sublist List.filter_sublist h
  have he : Sort.sortBy (fun a b : Outcome × Nat => Sort.strLe (value a.1) (value b.1)) (Stats.outcomeStats (entries s)) =
      (([Outcome.crash, .fail, .notImplemented, .notSupported, .pass, .skip, .undecided].filter fun o =>
        decide (0 < count s o)).map fun o => (o, count s o)) := by
    refine List.Perm.eq_of_pairwise ?_ hs hs' hq
    rintro ⟨a, n⟩ ⟨b, m⟩ ha hb h1 h2
    have hv := Sort.strLe_antisymm _ _ h1 h2
    have hab : a = b := by
      have : ∀ a b : Outcome, value a = value b → a = b := by intro a b; cases a <;> cases b <;> decide
      exact this _ _ hv
    subst hab
    have e : ∀ {o n}, (o, n) ∈ (([Outcome.crash, .fail, .notImplemented, .notSupported, .pass, .skip, .undecided].filter
        fun o => decide (0 < count s o)).map fun o => (o, count s o)) → n = count s o := by
      intro o n h
      obtain ⟨o', -, h⟩ := List.mem_map.1 h
      obtain ⟨rfl, rfl⟩ := Prod.mk.inj h
      rfl
    rw [e (hq.mem_iff.1 ha), e hb]
  rw [chart, List.map_map, he, List.map_map]
  refine List.map_congr_left fun o _ => ?_
  show (read (number (count s o)), read (escape (label o))) = _
  rw [read_number, label_word, toString_number]

/-! ## Logs -/

/-- **C104** A log is shown as it is, unless it has other line ends or begins with an empty line. -/
theorem C104_log_partial (t : Str) (h : '\r' ∉ t) (hn : t.head? ≠ some '\n') : cut (lineEnds t) = t := by
  rw [lineEnds_same h]
  cases t with
  | nil => rfl
  | cons c t =>
    rw [cut.eq_def]
    split
    · rename_i he
      exact absurd (by rw [(List.cons.inj he).1]; rfl) hn
    · rfl

/-! ## Examples -/

/-- A log with this text. -/
def logOf (t : String) : List IOLog.Rec := [⟨"0".toList, "stdout".toList, t.toList.map fun c => Fin.ofNat 256 c.toNat⟩]

/-- Two categories, one of them without a test that ran. -/
def exUnits : List (Str × Str) := [("p::usb".toList, "USB".toList), ("p::audio".toList, "audio & video".toList),
  ("p::cpu".toList, "CPU".toList)]

def exUsb : Item :=
  ⟨"p::usb/storage".toList, "usb/storage".toList, "A <stick>".toList, .other, "p::usb".toList, .pass, "blocker".toList,
    none, logOf "a < b"⟩

def exAudio : Item :=
  ⟨"p::audio/play".toList, "audio/play".toList, "Sound".toList, .other, "p::audio".toList, .fail, "unspecified".toList,
    some "no \"sound\"".toList, []⟩

def exCpu : Item :=
  ⟨"p::cpu/load".toList, "cpu/load".toList, "Load".toList, .other, "p::cpu".toList, .none, "unspecified".toList, none, []⟩

def exPackage : Item :=
  ⟨"com.canonical.certification::package".toList, "package".toList, "Packages".toList, .resource, "p::usb".toList, .pass,
    "unspecified".toList, none, logOf "name: bash"⟩

def exLspci : Item :=
  ⟨"p::lspci".toList, "lspci".toList, "PCI".toList, .attachment, "p::usb".toList, .pass, "unspecified".toList, none,
    logOf "00:00"⟩

def exState : State where
  items := [exUsb, exAudio, exCpu, exPackage, exLspci]
  units := exUnits
  resources := [("com.canonical.certification::package".toList, [("bash".toList, "4.3".toList)])]

theorem exState_sane : Sane exState := by
  constructor
  · decide +kernel
  · decide +kernel
  · decide +kernel

example : (((sections id exState).flatMap (·.rows)).map (line (elements id exState))).Perm
    ([exUsb, exAudio, exPackage, exLspci].map fun i => some (expected exState i)) :=
  C104_all_partial id exState exState_sane (by decide +kernel)

example : (((sections id exState).flatMap (·.rows)).map (line (elements id exState))).Perm
    ([exUsb, exAudio, exPackage, exLspci].map fun i => some (expected exState i)) :=
  C104_shown_partial id exState exState_sane

example : (expected exState exUsb).leads = some (.log "A <stick>".toList "a < b".toList) := by decide +kernel

example : (expected exState exPackage).leads = some (.packages [("bash".toList, "4.3".toList)]) := by decide +kernel

example : (sections id exState).map (fun x => (x.heading, x.label)) =
    [("USB".toList, "passed".toList), ("audio &amp; video".toList, "failed".toList), ("Resources".toList, "passed".toList),
      ("Attachments".toList, "passed".toList)] := by decide +kernel

example : ((chart exState).map fun p => (read p.1, read p.2)).Perm
    [(some "3".toList, some "passed".toList), (some "1".toList, some "failed".toList)] := C104_chart exState

example : (chart exState).map (fun p => (read p.1, read p.2)) =
    [(some "1".toList, some "failed".toList), (some "3".toList, some "passed".toList)] := C104_chart_order exState

example : cut (lineEnds "a\n\nb".toList) = "a\n\nb".toList := C104_log_partial _ (by decide) (by decide)

/-! ## Violations -/

/-- A test whose category is not known is not in the tables, even if it failed. It is in the chart. -/
theorem C104_missing_violated : ∃ s : State, Sane s ∧ (∃ i ∈ s.items, i.outcome = .fail) ∧
    sections id s = [] ∧ chart s = [("1".toList, "failed".toList)] :=
  ⟨{ items := [exAudio], units := [], resources := [] }, ⟨nofun, by decide +kernel, by decide +kernel⟩, by decide +kernel⟩

/-- A category is said to have failed although all of its tests passed, if a resource job of that category failed. -/
theorem C104_heading_violated : ∃ s : State, Sane s ∧ (∀ i ∈ testsOf s "p::usb".toList, i.outcome = .pass) ∧
    testsOf s "p::usb".toList ≠ [] ∧
    ((sections id s).filter fun x => decide (x.heading = "USB".toList)).map (fun x => (x.label, x.rows.map (·.label))) =
      [("failed".toList, ["passed".toList])] :=
  ⟨{ exState with items := [exUsb, { exPackage with outcome := .fail }] },
    ⟨by decide +kernel, by decide +kernel, by decide +kernel⟩, by decide +kernel⟩

/-- The link of a resource job that another provider calls `package` leads nowhere, or to the packages that another job has
found. -/
theorem C104_package_violated : ∃ (s : State) (i : Item), s.items = [i] ∧ i.plugin = .resource ∧ wrote i = "a".toList ∧
    i.id ∈ s.resources.map (·.1) ∧
    ((sections id s).flatMap (·.rows)).map (line (elements id s)) = [none] :=
  ⟨{ items := [{ exPackage with id := "other::package".toList, log := logOf "a" }], units := [],
     resources := [("other::package".toList, [])] }, _, rfl, by decide +kernel⟩

/-- An empty line at the start of a log is not shown. -/
theorem C104_first_line_violated : ∃ (s : State) (i : Item), Sane s ∧ s.items = [i] ∧ wrote i = "\na".toList ∧
    ((sections id s).flatMap (·.rows)).map (fun r => (line (elements id s) r).map (·.leads)) =
      [some (some (.log "Sound".toList "a".toList))] :=
  ⟨{ exState with items := [{ exAudio with log := logOf "\na" }] }, _,
    ⟨by decide +kernel, by decide +kernel, by decide +kernel⟩, rfl, by decide +kernel⟩

end Verif.Html
