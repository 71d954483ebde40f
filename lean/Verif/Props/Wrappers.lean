import Verif.Model.Wrappers
import Verif.Lemmas.Text

/-!
# C143: functions that are deprecated or public

What is called, what is warned about and what the documentation says. The specification looks at texts as characters and
lines, and at calls as a list.
-/

namespace Verif.Wrappers

open Verif.Text

/-! ## Specification -/

/-- How far a line is indented: `n` characters of white space, then something else. -/
def IndentedBy (n : Nat) (line : Str) : Prop :=
  ∃ w c r, line = w ++ c :: r ∧ w.length = n ∧ (∀ x ∈ w, isSpace x = true) ∧ isSpace c = false

/-- What a text says, without the white space. -/
def ink (t : Str) : Str := t.filter fun c => !isSpace c

/-- A text that does not go on with the word before it. -/
def Apart (t : Str) : Prop := t = [] ∨ ∃ c r, t = c :: r ∧ isSpace c = true

/-- A list of calls, one after the other. -/
def calls {S A V : Type} (f : S → A → S × Out V) : S → List A → S × List (Out V)
  | s, [] => (s, [])
  | s, a :: l => let r := f s a; let q := calls f r.1 l; (q.1, r.2 :: q.2)

/-! ## The margin -/

theorem indentedBy_iff (line : Str) (n : Nat) : IndentedBy n line ↔
    (lstrip line).length ≠ 0 ∧ n = line.length - (lstrip line).length := by
  have h := List.takeWhile_append_dropWhile (p := isSpace) (l := line)
  constructor
  · rintro ⟨w, c, r, rfl, rfl, hw, hc⟩
    have e : lstrip (w ++ c :: r) = c :: r := by
      unfold lstrip
      rw [List.dropWhile_append_of_pos hw, List.dropWhile_cons, if_neg (by simp [hc])]
    rw [e]
    simp
  · rintro ⟨hn, rfl⟩
    cases hl : lstrip line with
    | nil => rw [hl] at hn; exact absurd rfl hn
    | cons c r =>
      unfold lstrip at hl
      refine ⟨line.takeWhile isSpace, c, r, by rw [← hl, h], ?_, fun x hx => mem_takeWhile hx, ?_⟩
      · have := congrArg List.length h
        rw [List.length_append, hl] at this
        omega
      · have := dropWhile_head hl
        simpa using this

/-- What the margin is after some lines. -/
def Least (lines : List Str) (m : Option Nat) : Prop :=
  match m with
  | none => ∀ l ∈ lines, ∀ n, ¬ IndentedBy n l
  | some m => (∃ l ∈ lines, IndentedBy m l) ∧ ∀ l ∈ lines, ∀ n, IndentedBy n l → m ≤ n

theorem least_narrow {lines : List Str} {m : Option Nat} (h : Least lines m) (l : Str) :
    Least (lines ++ [l]) (Help.narrow m l) := by
  unfold Help.narrow
  dsimp only
  by_cases h0 : (lstrip l).length = 0
  · rw [if_pos h0]
    have hl : ∀ n, ¬ IndentedBy n l := fun n hn => ((indentedBy_iff l n).1 hn).1 h0
    cases m with
    | none =>
      intro x hx n
      rcases List.mem_append.1 hx with hx | hx
      · exact h x hx n
      · rw [List.mem_singleton.1 hx]; exact hl n
    | some m =>
      obtain ⟨⟨x, hx, hi⟩, hm⟩ := h
      refine ⟨⟨x, List.mem_append_left _ hx, hi⟩, fun y hy n hn => ?_⟩
      rcases List.mem_append.1 hy with hy | hy
      · exact hm y hy n hn
      · rw [List.mem_singleton.1 hy] at hn; exact absurd hn (hl n)
  · rw [if_neg h0]
    have hl : IndentedBy (l.length - (lstrip l).length) l := (indentedBy_iff _ _).2 ⟨h0, rfl⟩
    have hu : ∀ n, IndentedBy n l → n = l.length - (lstrip l).length := fun n hn => ((indentedBy_iff _ _).1 hn).2
    cases m with
    | none =>
      refine ⟨⟨l, by simp, hl⟩, fun y hy n hn => ?_⟩
      rcases List.mem_append.1 hy with hy | hy
      · exact absurd hn (h y hy n)
      · rw [List.mem_singleton.1 hy] at hn; exact Nat.le_of_eq (hu n hn).symm
    | some m =>
      obtain ⟨⟨x, hx, hi⟩, hm⟩ := h
      refine ⟨?_, fun y hy n hn => ?_⟩
      · show ∃ x ∈ lines ++ [l], IndentedBy (min m (l.length - (lstrip l).length)) x
        by_cases hle : m ≤ l.length - (lstrip l).length
        · rw [Nat.min_eq_left hle]; exact ⟨x, List.mem_append_left _ hx, hi⟩
        · rw [Nat.min_eq_right (by omega)]; exact ⟨l, by simp, hl⟩
      · rcases List.mem_append.1 hy with hy | hy
        · exact Nat.le_trans (Nat.min_le_left _ _) (hm y hy n hn)
        · rw [List.mem_singleton.1 hy] at hn
          exact Nat.le_trans (Nat.min_le_right _ _) (Nat.le_of_eq (hu n hn).symm)

theorem least_fold : ∀ (more lines : List Str) (m : Option Nat), Least lines m →
    Least (lines ++ more) (more.foldl Help.narrow m)
  | [], lines, m, h => by rw [List.append_nil]; exact h
  | l :: more, lines, m, h => by
    have := least_fold more (lines ++ [l]) _ (least_narrow h l)
    rw [List.append_assoc] at this
    exact this

/-- The margin of a documentation is the least indentation of the lines after the first one that are not blank, and 0 if
there is none. -/
theorem C143_margin (doc first : Str) (rest : List Str) (h : splitOn '\n' (Help.expandTabs 0 doc) = first :: rest) :
    (∀ l ∈ rest, ∀ n, IndentedBy n l → docMargin doc ≤ n) ∧
    ((∃ l ∈ rest, IndentedBy (docMargin doc) l) ∨ ((∀ l ∈ rest, ∀ n, ¬ IndentedBy n l) ∧ docMargin doc = 0)) := by
  have hf : Least rest (rest.foldl Help.narrow none) := by
    have := least_fold rest [] none (fun l hl => absurd hl (by simp))
    rwa [List.nil_append] at this
  unfold docMargin
  rw [h, List.tail_cons]
  generalize rest.foldl Help.narrow none = m at hf
  cases m with
  | none => exact ⟨fun l hl n hn => absurd hn (hf l hl n), .inr ⟨hf, rfl⟩⟩
  | some m => exact ⟨hf.2, .inl hf.1⟩

/-- A documentation with two lines that are indented, by 4 and by 2, and a blank one. -/
example : docMargin "One\n    two\n\n  three".toList = 2 := by decide +kernel

example : splitOn '\n' (Help.expandTabs 0 "One\n\ttwo".toList) = ["One".toList, "        two".toList] := by decide +kernel

/-! ## Indenting -/

theorem blank_append_newline (l : Str) : strip (l ++ ['\n']) = [] ↔ strip l = [] := by
  rw [strip_eq_nil, strip_eq_nil]
  constructor
  · intro h c hc; exact h c (List.mem_append_left _ hc)
  · intro h c hc
    rcases List.mem_append.1 hc with hc | hc
    · exact h c hc
    · rw [List.mem_singleton.1 hc]; decide

/-- Indenting a text puts the prefix before every line that is not blank, and changes nothing else. -/
theorem C143_indent (lines : List Str) (pre : Str) (hne : lines ≠ []) (h : ∀ l ∈ lines, '\n' ∉ l) :
    indentText (joinWith '\n' lines) pre =
      joinWith '\n' (lines.map fun l => if ∀ c ∈ l, isSpace c = true then l else pre ++ l) := by
  have one : ∀ l : Str, (if strip l = [] then l else pre ++ l) = if ∀ c ∈ l, isSpace c = true then l else pre ++ l := by
    intro l
    by_cases hs : strip l = []
    · rw [if_pos hs, if_pos (strip_eq_nil.1 hs)]
    · rw [if_neg hs, if_neg (fun hc => hs (strip_eq_nil.2 hc))]
  induction lines with
  | nil => exact absurd rfl hne
  | cons l ls ih =>
    cases ls with
    | nil =>
      have hl := h l (by simp)
      have hk : linesKeep l = if l = [] then [] else [l] := by
        clear ih h hne one
        induction l with
        | nil => rfl
        | cons c l ih =>
          simp only [List.mem_cons, not_or] at hl
          rw [linesKeep, if_neg (fun hc => hl.1 hc.symm), ih hl.2]
          by_cases h0 : l = []
          · rw [if_pos h0, h0]; rfl
          · rw [if_neg h0]; rfl
      show (linesKeep l).flatMap _ = _
      rw [hk]
      simp only [List.map_cons, List.map_nil, joinWith]
      by_cases h0 : l = []
      · rw [if_pos h0, h0]; simp
      · rw [if_neg h0]; simp only [List.flatMap_cons, List.flatMap_nil, List.append_nil]; exact one l
    | cons q qs =>
      have hi := ih (by simp) (fun x hx => h x (by simp [hx]))
      unfold indentText at hi ⊢
      rw [joinWith_cons _ _ (by simp), linesKeep_append (h l (by simp)), List.flatMap_cons, hi]
      rw [List.map_cons (a := l), joinWith_cons _ _ (by simp), ← one l]
      by_cases hs : strip l = []
      · rw [if_pos hs, if_pos ((blank_append_newline l).2 hs)]; simp
      · rw [if_neg hs, if_neg (fun hc => hs ((blank_append_newline l).1 hc))]; simp

example : indentText "use\n\nit".toList "  ".toList = "  use\n\n  it".toList := by decide +kernel

/-! ## What a deprecated function says -/

theorem ink_append (a b : Str) : ink (a ++ b) = ink a ++ ink b := List.filter_append _ _

theorem ink_space {w : Str} (h : ∀ c ∈ w, isSpace c = true) : ink w = [] := by
  unfold ink
  rw [List.filter_eq_nil_iff]
  intro c hc
  simp [h c hc]

theorem ink_join : ∀ lines : List Str, ink (joinWith '\n' lines) = lines.flatMap ink
  | [] => rfl
  | [l] => by simp [joinWith]
  | l :: q :: ls => by
    rw [joinWith_cons _ _ (by simp), List.flatMap_cons, ← ink_join (q :: ls), ink_append]
    rfl

theorem flatMap_ink_map (f : Str → Str) (hf : ∀ l, ink (f l) = ink l) : ∀ lines : List Str,
    (lines.map f).flatMap ink = lines.flatMap ink
  | [] => rfl
  | l :: ls => by rw [List.map_cons, List.flatMap_cons, List.flatMap_cons, hf, flatMap_ink_map f hf ls]

theorem blank_space {c : Char} (h : RFC822.isBlankChar c = true) : isSpace c = true := by
  unfold RFC822.isBlankChar at h
  rw [Bool.or_eq_true, decide_eq_true_eq, decide_eq_true_eq] at h
  rcases h with rfl | rfl <;> decide

theorem lcp_sub : ∀ a b : Str, ∀ c ∈ RFC822.lcp a b, c ∈ a
  | [], _, c, h => by simp [RFC822.lcp] at h
  | _ :: _, [], c, h => by simp [RFC822.lcp] at h
  | x :: l, y :: r, c, h => by
    unfold RFC822.lcp at h
    by_cases e : x = y
    · rw [if_pos e] at h
      rcases List.mem_cons.1 h with h | h
      · rw [h]; simp
      · exact List.mem_cons_of_mem _ (lcp_sub l r c h)
    · rw [if_neg e] at h; simp at h

theorem lcp_fold_sub : ∀ (is : List Str) (i : Str), ∀ c ∈ is.foldl RFC822.lcp i, c ∈ i
  | [], _, _, h => h
  | j :: is, i, c, h => lcp_sub i j c (lcp_fold_sub is _ c h)

theorem margin_space (lines : List Str) : ∀ c ∈ RFC822.margin lines, isSpace c = true := by
  intro c hc
  unfold RFC822.margin at hc
  cases hm : (lines.filter fun l => !(l.all RFC822.isBlankChar)).map (·.takeWhile RFC822.isBlankChar) with
  | nil => rw [hm] at hc; simp at hc
  | cons i is =>
    rw [hm] at hc
    have h1 := lcp_fold_sub is i c hc
    have h2 : i ∈ (lines.filter fun l => !(l.all RFC822.isBlankChar)).map (·.takeWhile RFC822.isBlankChar) := by
      rw [hm]; simp
    obtain ⟨l, _, rfl⟩ := List.mem_map.1 h2
    exact blank_space (mem_takeWhile h1)

theorem ink_dedent (t : Str) : ink (dedentText t) = ink t := by
  unfold dedentText RFC822.dedent
  dsimp only
  conv => rhs; rw [← join_split '\n' t]
  rw [ink_join, ink_join, flatMap_ink_map, flatMap_ink_map]
  · intro l
    by_cases h : l.all RFC822.isBlankChar = true
    · rw [if_pos h, ink_space (w := l) (fun c hc => blank_space (List.all_eq_true.1 h c hc))]; rfl
    · rw [if_neg h]
  · intro l
    generalize hm : RFC822.margin _ = m
    have hs : ∀ c ∈ m, isSpace c = true := hm ▸ margin_space _
    by_cases h : m.isPrefixOf l = true
    · rw [if_pos h]
      obtain ⟨r, rfl⟩ := List.isPrefixOf_iff_prefix.1 h
      rw [List.drop_left, ink_append, ink_space hs, List.nil_append]
    · rw [if_neg h]

theorem ink_indent (t : Str) {pre : Str} (h : ∀ c ∈ pre, isSpace c = true) : ink (indentText t pre) = ink t := by
  conv => rhs; rw [← linesKeep_flatten t]
  unfold indentText
  generalize linesKeep t = ls
  induction ls with
  | nil => rfl
  | cons l ls ih =>
    rw [List.flatMap_cons, List.flatten_cons, ink_append, ink_append, ih]
    by_cases hs : strip l = []
    · rw [if_pos hs]
    · rw [if_neg hs, ink_append, ink_space h, List.nil_append]

theorem linesKeep_nonempty : ∀ (t : Str), ∀ l ∈ linesKeep t, l ≠ []
  | [], l, h => by simp [linesKeep] at h
  | c :: t, l, h => by
    have ih := linesKeep_nonempty t
    unfold linesKeep at h
    by_cases hc : c = '\n'
    · rw [if_pos hc] at h
      rcases List.mem_cons.1 h with h | h
      · rw [h]; simp
      · exact ih l h
    · rw [if_neg hc] at h
      cases hl : linesKeep t with
      | nil => rw [hl] at h; rw [List.mem_singleton.1 h]; simp
      | cons p ps =>
        rw [hl] at h ih
        rcases List.mem_cons.1 h with h | h
        · rw [h]; simp
        · exact ih l (List.mem_cons_of_mem _ h)

theorem indent_apart (t : Str) (n : Nat) (hn : 0 < n) : Apart (indentText t (List.replicate n ' ')) := by
  unfold indentText
  cases hk : linesKeep t with
  | nil => exact .inl rfl
  | cons l ls =>
    have hl : l ≠ [] := linesKeep_nonempty t l (by rw [hk]; simp)
    right
    rw [List.flatMap_cons]
    by_cases hs : strip l = []
    · rw [if_pos hs]
      cases l with
      | nil => exact absurd rfl hl
      | cons c r => exact ⟨c, _, rfl, strip_eq_nil.1 hs c (by simp)⟩
    · rw [if_neg hs]
      cases n with
      | zero => omega
      | succ n => exact ⟨' ', _, rfl, by decide⟩

theorem indentOf_space (doc : Option Str) : ∀ c ∈ indentOf doc, isSpace c = true := by
  intro c hc
  have : c = ' ' := by
    cases doc with
    | none => exact (List.mem_replicate.1 hc).2
    | some d => exact (List.mem_replicate.1 hc).2
  rw [this]; decide

/-- The documentation of a deprecated function: what it was, a line feed, the directive with the version on a line with the
margin, and then what the explanation says. It is claimed only for functions without a documentation, with a documentation
that has a margin, or without an explanation, that the version is not run together with the explanation: see
`C143_version_violated`. -/
theorem C143_documented_partial (version : Str) (explanation doc : Option Str) :
    ∃ start rest, deprecatedDoc version explanation doc = start ++ ".. deprecated:: ".toList ++ version ++ rest ∧
      (match doc with
        | none => start = List.replicate 4 ' '
        | some d => start = d ++ List.replicate (docMargin d) ' ' ++ '\n' :: List.replicate (docMargin d) ' ') ∧
      ink rest = ink (explanation.getD []) ∧
      ((explanation = none ∨ (∀ d, doc = some d → docMargin d ≠ 0)) → Apart rest) := by
  have hs : ∀ c ∈ indentOf doc ++ indentOf doc, isSpace c = true := by
    intro c hc
    rcases List.mem_append.1 hc with hc | hc <;> exact indentOf_space doc c hc
  refine ⟨(match doc with | none => [] | some d => d ++ indentOf doc ++ ['\n']) ++ indentOf doc,
    (match explanation with | none => [] | some e => indentText (dedentText e) (indentOf doc ++ indentOf doc)), ?_, ?_, ?_, ?_⟩
  · unfold deprecatedDoc
    dsimp only
    cases explanation <;> cases doc <;> simp
  · cases doc <;> simp [indentOf]
  · cases explanation with
    | none => rfl
    | some e => exact (ink_indent _ hs).trans (ink_dedent e)
  · intro h
    cases explanation with
    | none => exact .inl rfl
    | some e =>
      have h := h.resolve_left (by simp)
      cases doc with
      | none => exact indent_apart _ 8 (by omega)
      | some d =>
        have hd := h d rfl
        dsimp only [indentOf]
        rw [List.replicate_append_replicate]
        exact indent_apart _ _ (by omega)

theorem margin_flush {first : Str} {c : Char} {r : Str} (e : first = c :: r) (hc : isSpace c = false) (more : List Str) :
    RFC822.margin (first :: more) = [] := by
  subst e
  have hb : RFC822.isBlankChar c = false := by
    cases h : RFC822.isBlankChar c with
    | false => rfl
    | true => rw [blank_space h] at hc; cases hc
  unfold RFC822.margin
  rw [List.filter_cons, if_pos (by simp [hb]), List.map_cons, List.takeWhile_cons, if_neg (by simp [hb])]
  dsimp only
  generalize List.map _ _ = is
  induction is with
  | nil => rfl
  | cons i is ih => exact ih

/-- An explanation whose lines are blank or have text, the first one at the margin, is put behind the version with twice the
indentation before every line that is not empty. -/
theorem C143_explained (version : Str) (doc : Option Str) (first : Str) (more : List Str)
    (hn : ∀ l ∈ first :: more, '\n' ∉ l) (hf : ∃ c r, first = c :: r ∧ isSpace c = false)
    (hm : ∀ l ∈ more, l = [] ∨ ∃ c ∈ l, isSpace c = false) :
    deprecatedDoc version (some (joinWith '\n' (first :: more))) doc =
      deprecatedDoc version none doc ++ joinWith '\n' ((first :: more).map fun l =>
        if l = [] then [] else
          List.replicate (2 * (match doc with | none => 4 | some d => docMargin d)) ' ' ++ l) := by
  obtain ⟨c, r, e, hc⟩ := hf
  have ht : ∀ l ∈ first :: more, l = [] ∨ ∃ c ∈ l, isSpace c = false := by
    intro l hl
    rcases List.mem_cons.1 hl with rfl | hl
    · exact .inr ⟨c, by rw [e]; simp, hc⟩
    · exact hm l hl
  have hd : dedentText (joinWith '\n' (first :: more)) = joinWith '\n' (first :: more) := by
    unfold dedentText
    rw [split_join (by simp) hn]
    have hmap : (first :: more).map (fun l => if l.all RFC822.isBlankChar then [] else l) = first :: more := by
      conv => rhs; rw [← List.map_id (first :: more)]
      refine List.map_congr_left fun l hl => ?_
      rcases ht l hl with rfl | ⟨x, hx, hs⟩
      · rfl
      · rw [if_neg]
        · rfl
        · intro ha
          rw [blank_space (List.all_eq_true.1 ha x hx)] at hs
          cases hs
    unfold RFC822.dedent
    dsimp only
    rw [hmap, margin_flush e hc more]
    congr 1
    conv => rhs; rw [← List.map_id (first :: more)]
    exact List.map_congr_left fun l _ => rfl
  have hi : indentOf doc ++ indentOf doc =
      List.replicate (2 * (match doc with | none => 4 | some d => docMargin d)) ' ' := by
    cases doc with
    | none => rfl
    | some d => dsimp only [indentOf]; rw [List.replicate_append_replicate, Nat.two_mul]
  unfold deprecatedDoc
  dsimp only
  rw [hd, C143_indent _ _ (by simp) hn, hi]
  congr 2
  refine List.map_congr_left fun l hl => ?_
  rcases ht l hl with rfl | ⟨x, hx, hs⟩
  · rw [if_pos rfl, if_pos (by simp)]
  · rw [if_neg, if_neg]
    · rintro rfl; simp at hx
    · intro ha; rw [ha x hx] at hs; cases hs

example : deprecatedDoc "1".toList (some "use\n\n  it".toList) none =
    "    .. deprecated:: 1        use\n\n          it".toList := by decide +kernel

theorem lcp_append (w a b : Str) : RFC822.lcp (w ++ a) (w ++ b) = w ++ RFC822.lcp a b := by
  induction w with
  | nil => rfl
  | cons c w ih => rw [List.cons_append, List.cons_append, RFC822.lcp, if_pos rfl, ih]; rfl

theorem fold_lcp_append (w : Str) : ∀ (is : List Str) (i : Str),
    (is.map (w ++ ·)).foldl RFC822.lcp (w ++ i) = w ++ is.foldl RFC822.lcp i
  | [], _ => rfl
  | j :: is, i => by rw [List.map_cons, List.foldl_cons, lcp_append, fold_lcp_append w is, List.foldl_cons]

/-- Put something before every line that is not empty. -/
def shifted (w : Str) (l : Str) : Str := if l = [] then [] else w ++ l

theorem takeWhile_all_append {p : Char → Bool} {w : Str} (hw : ∀ c ∈ w, p c = true) (l : Str) :
    (w ++ l).takeWhile p = w ++ l.takeWhile p := by
  rw [List.takeWhile_append_of_pos hw]

theorem margin_shifted {w : Str} (hw : ∀ c ∈ w, RFC822.isBlankChar c = true) {first : Str} {c : Char} {r : Str}
    (e : first = c :: r) (hc : isSpace c = false) (more : List Str) (hm : ∀ l ∈ more, l = [] ∨ ∃ c ∈ l, isSpace c = false) :
    RFC822.margin ((first :: more).map (shifted w)) = w := by
  have key : ∀ ls : List Str, (∀ l ∈ ls, l = [] ∨ ∃ c ∈ l, isSpace c = false) →
      ((ls.map (shifted w)).filter fun l => !(l.all RFC822.isBlankChar)).map (·.takeWhile RFC822.isBlankChar) =
        ((ls.filter fun l => !(l.all RFC822.isBlankChar)).map (·.takeWhile RFC822.isBlankChar)).map (w ++ ·) := by
    intro ls
    induction ls with
    | nil => intro _; rfl
    | cons l ls ih =>
      intro h
      have ih := ih (fun x hx => h x (List.mem_cons_of_mem _ hx))
      rw [List.map_cons, List.filter_cons, List.filter_cons]
      rcases h l (by simp) with rfl | ⟨x, hx, hs⟩
      · rw [if_neg (by simp [shifted]), if_neg (by simp)]; exact ih
      · have hl : l ≠ [] := by rintro rfl; simp at hx
        have hxb : RFC822.isBlankChar x = false := by
          cases h : RFC822.isBlankChar x with
          | false => rfl
          | true => rw [blank_space h] at hs; cases hs
        have e1 : shifted w l = w ++ l := if_neg hl
        have h1 : (!((w ++ l).all RFC822.isBlankChar)) = true := by
          rw [Bool.not_eq_true', Bool.eq_false_iff]
          intro ha
          rw [List.all_eq_true.1 ha x (List.mem_append_right _ hx)] at hxb
          cases hxb
        have h2 : (!(l.all RFC822.isBlankChar)) = true := by
          rw [Bool.not_eq_true', Bool.eq_false_iff]
          intro ha
          rw [List.all_eq_true.1 ha x hx] at hxb
          cases hxb
        rw [e1, if_pos h1, if_pos h2, List.map_cons, List.map_cons, List.map_cons, ih, takeWhile_all_append hw]
  have hall : ∀ l ∈ first :: more, l = [] ∨ ∃ c ∈ l, isSpace c = false := by
    intro l hl
    rcases List.mem_cons.1 hl with rfl | hl
    · exact .inr ⟨c, by rw [e]; simp, hc⟩
    · exact hm l hl
  have h0 := margin_flush e hc more
  have hne : ((first :: more).filter fun l => !(l.all RFC822.isBlankChar)).map (·.takeWhile RFC822.isBlankChar) ≠ [] := by
    have hb : RFC822.isBlankChar c = false := by
      cases h : RFC822.isBlankChar c with
      | false => rfl
      | true => rw [blank_space h] at hc; cases hc
    rw [e, List.filter_cons, if_pos (by simp [hb])]
    simp
  unfold RFC822.margin at h0 ⊢
  rw [key _ hall]
  generalize ((first :: more).filter fun l => !(l.all RFC822.isBlankChar)).map (·.takeWhile RFC822.isBlankChar) = is at h0 hne ⊢
  cases is with
  | nil => exact absurd rfl hne
  | cons i is =>
    rw [List.map_cons]
    dsimp only at h0 ⊢
    rw [fold_lcp_append, h0, List.append_nil]

theorem dedent_shifted {w first : Str} {more : List Str} (hw : ∀ c ∈ w, c = ' ' ∨ c = '\t')
    (hn : ∀ l ∈ first :: more, '\n' ∉ l) (hf : ∃ c r, first = c :: r ∧ isSpace c = false)
    (hm : ∀ l ∈ more, l = [] ∨ ∃ c ∈ l, isSpace c = false) :
    dedentText (joinWith '\n' ((first :: more).map (shifted w))) = joinWith '\n' (first :: more) := by
  obtain ⟨c, r, e, hc⟩ := hf
  have hwb : ∀ c ∈ w, RFC822.isBlankChar c = true := by
    intro x hx
    rcases hw x hx with rfl | rfl <;> decide
  have ht : ∀ l ∈ first :: more, l = [] ∨ ∃ c ∈ l, isSpace c = false := by
    intro l hl
    rcases List.mem_cons.1 hl with rfl | hl
    · exact .inr ⟨c, by rw [e]; simp, hc⟩
    · exact hm l hl
  have hn' : ∀ l ∈ (first :: more).map (shifted w), '\n' ∉ l := by
    intro l hl
    obtain ⟨x, hx, rfl⟩ := List.mem_map.1 hl
    unfold shifted
    split
    · simp
    · intro h
      rcases List.mem_append.1 h with h | h
      · rcases hw _ h with h | h <;> exact absurd h (by decide)
      · exact hn x hx h
  unfold dedentText
  rw [split_join (by simp) hn']
  have hmap : ((first :: more).map (shifted w)).map (fun l => if l.all RFC822.isBlankChar then [] else l) =
      (first :: more).map (shifted w) := by
    conv => rhs; rw [← List.map_id ((first :: more).map (shifted w))]
    refine List.map_congr_left fun l hl => ?_
    obtain ⟨y, hy, rfl⟩ := List.mem_map.1 hl
    rcases ht y hy with rfl | ⟨x, hx, hs⟩
    · rfl
    · rw [if_neg]
      · rfl
      · intro ha
        have hy0 : y ≠ [] := by rintro rfl; simp at hx
        have e1 : shifted w y = w ++ y := if_neg hy0
        rw [e1] at ha
        rw [blank_space (List.all_eq_true.1 ha x (List.mem_append_right _ hx))] at hs
        cases hs
  unfold RFC822.dedent
  dsimp only
  rw [hmap, margin_shifted hwb e hc more hm, List.map_map]
  congr 1
  conv => rhs; rw [← List.map_id (first :: more)]
  refine List.map_congr_left fun l _ => ?_
  show (if w.isPrefixOf (shifted w l) = true then (shifted w l).drop w.length else shifted w l) = l
  by_cases h0 : l = []
  · subst h0
    have : shifted w [] = [] := rfl
    rw [this]
    split <;> simp
  · have e1 : shifted w l = w ++ l := if_neg h0
    rw [e1, if_pos (by simp), List.drop_left]

/-- An explanation that is indented as a whole, by spaces and tabs, is put there like one that is not. -/
theorem C143_dedented (version : Str) (doc : Option Str) (w first : Str) (more : List Str)
    (hw : ∀ c ∈ w, c = ' ' ∨ c = '\t')
    (hn : ∀ l ∈ first :: more, '\n' ∉ l) (hf : ∃ c r, first = c :: r ∧ isSpace c = false)
    (hm : ∀ l ∈ more, l = [] ∨ ∃ c ∈ l, isSpace c = false) :
    deprecatedDoc version (some (joinWith '\n' ((first :: more).map fun l => if l = [] then [] else w ++ l))) doc =
      deprecatedDoc version (some (joinWith '\n' (first :: more))) doc := by
  have h1 := dedent_shifted hw hn hf hm
  have h2 := dedent_shifted (w := []) (fun c hc => absurd hc (by simp)) hn hf hm
  have h3 : (first :: more).map (shifted []) = first :: more := by
    conv => rhs; rw [← List.map_id (first :: more)]
    refine List.map_congr_left fun l _ => ?_
    unfold shifted
    split
    · rename_i h; exact h.symm
    · rfl
  rw [h3] at h2
  unfold deprecatedDoc
  dsimp only
  rw [h2]
  unfold shifted at h1
  rw [h1]

example : deprecatedDoc "1".toList (some "  use\n\n    it".toList) none = deprecatedDoc "1".toList (some "use\n\n  it".toList) none := by
  decide +kernel

/-- The method of the session state that is deprecated: the explanation follows the version on the same line. -/
example : deprecatedDoc "0.9".toList (some "use the add_unit() method instead".toList) (some "Add it.\n\n  :returns: it\n".toList) =
    "Add it.\n\n  :returns: it\n  \n  .. deprecated:: 0.9    use the add_unit() method instead".toList := by decide +kernel

/-- The version is run together with the explanation if the documentation is one line. -/
theorem C143_version_violated : ∃ version explanation doc,
    ¬ ∃ start rest, deprecatedDoc version (some explanation) (some doc) = start ++ ".. deprecated:: ".toList ++ version ++ rest ∧
      start = doc ++ ['\n'] ∧ Apart rest := by
  refine ⟨"0.9".toList, "use it".toList, "One.".toList, ?_⟩
  rintro ⟨start, rest, h, rfl, ha⟩
  have e : deprecatedDoc "0.9".toList (some "use it".toList) (some "One.".toList) =
      "One.".toList ++ ['\n'] ++ ".. deprecated:: ".toList ++ "0.9".toList ++ "use it".toList := by decide +kernel
  rw [e] at h
  have hr := List.append_cancel_left h
  rcases ha with ha | ⟨c, r, ha, hc⟩
  · rw [ha] at hr; exact absurd hr (by decide)
  · rw [ha] at hr
    have hc' : 'u' = c := by
      have h2 : some 'u' = some c := (congrArg List.head? hr :)
      exact Option.some.inj h2
    rw [← hc'] at hc
    exact absurd hc (by decide)

/-! ## What a deprecated function does -/

/-- Marking a function needs a version. The function that is made has its name; calls do the same and end the same as calls
of the function itself, and every call adds one warning with its name and the version. -/
theorem C143_forwards {S A V : Type} (filter : Str → Option Str) (version explanation : Option Str) (f : Func S A V) :
    (deprecated filter version explanation f = none ↔ version = none) ∧
    ∀ v g, version = some v → deprecated filter version explanation f = some g →
      g.name = f.name ∧ g.doc = some (deprecatedDoc v explanation f.doc) ∧
      (filter (f.name ++ " is deprecated since version ".toList ++ v) = none → ∀ (w : World S) (as : List A),
        (calls g.call w as).2 = (calls f.call w.state as).2 ∧
        (calls g.call w as).1.state = (calls f.call w.state as).1 ∧
        (calls g.call w as).1.warnings =
          w.warnings ++ List.replicate as.length (f.name ++ " is deprecated since version ".toList ++ v)) := by
  constructor
  · cases version <;> simp [deprecated]
  · rintro v g rfl hg
    simp only [deprecated, Option.some.injEq] at hg
    subst hg
    refine ⟨rfl, rfl, fun hf w as => ?_⟩
    have hm : filter (message f.name v) = none := hf
    dsimp only
    rw [hm]
    dsimp only
    induction as generalizing w with
    | nil => simp [calls]
    | cons a as ih =>
      obtain ⟨h1, h2, h3⟩ := ih ⟨(f.call w.state a).1, w.warnings ++ [message f.name v]⟩
      refine ⟨?_, ?_, ?_⟩
      · simp only [calls]; rw [h1]
      · simp only [calls]; rw [h2]
      · simp only [calls]; rw [h3, List.length_cons, List.replicate_succ, List.append_assoc]; rfl

/-- If warnings are exceptions then a call of the function ends with the warning, and the function itself is not called. -/
theorem C143_error {S A V : Type} (filter : Str → Option Str) (v : Str) (explanation : Option Str) (f : Func S A V)
    (g : Func (World S) A V) (hg : deprecated filter (some v) explanation f = some g) (e : Str)
    (hf : filter (f.name ++ " is deprecated since version ".toList ++ v) = some e) (w : World S) (a : A) :
    (g.call w a).2 = .exc e ∧ (g.call w a).1.state = w.state := by
  simp only [deprecated, Option.some.injEq] at hg
  subst hg
  have hm : filter (message f.name v) = some e := hf
  dsimp only
  rw [hm]
  exact ⟨rfl, rfl⟩

/-- A counter: two calls count to 5, and there are two warnings. -/
example : ((deprecated (S := Nat) (A := Nat) (V := Nat) (fun _ => none) (some "1".toList) none
      ⟨"f".toList, none, fun s a => (s + a, .ret s)⟩).map fun g =>
        let r := calls g.call ⟨0, []⟩ [2, 3]
        (r.1.state, r.1.warnings, r.2)) =
    some (5, ["f is deprecated since version 1".toList, "f is deprecated since version 1".toList], [.ret 0, .ret 2]) := by
  decide +kernel

/-! ## Public functions -/

theorem splitPath_plain {path : Str} (shim : Str) (h : ':' ∉ path) : splitPath path shim = (path, shim) := by
  unfold splitPath
  have : path.dropWhile (· ≠ ':') = [] := by
    rw [dropWhile_eq_nil]
    intro x hx
    exact decide_eq_true (fun e => h (e ▸ hx))
  rw [this]

theorem splitPath_colon {m : Str} (f shim : Str) (h : ':' ∉ m) : splitPath (m ++ ':' :: f) shim = (m, f) := by
  unfold splitPath
  have hp : ∀ x ∈ m, decide (x ≠ ':') = true := fun x hx => decide_eq_true (fun e => h (e ▸ hx))
  have h1 : (m ++ ':' :: f).dropWhile (· ≠ ':') = ':' :: f := by
    rw [List.dropWhile_append_of_pos hp, List.dropWhile_cons, if_neg (by simp)]
  have h2 : (m ++ ':' :: f).takeWhile (· ≠ ':') = m := by
    rw [List.takeWhile_append_of_pos hp, List.takeWhile_cons, if_neg (by simp), List.append_nil]
  rw [h1, h2]

/-- Where the implementation is: after the first colon of the path, or with the name of the function if there is none. -/
inductive Located (path shim : Str) : Str → Str → Prop
  | plain : ':' ∉ path → Located path shim path shim
  | colon (m f : Str) : ':' ∉ m → path = m ++ ':' :: f → Located path shim m f

theorem located_split {path shim m f : Str} (h : Located path shim m f) : splitPath path shim = (m, f) := by
  cases h with
  | plain h => exact splitPath_plain _ h
  | colon _ _ h e => rw [e]; exact splitPath_colon _ _ h

/-- A path has one place. -/
theorem C143_located (path shim : Str) : ∃ m f, Located path shim m f ∧ ∀ m' f', Located path shim m' f' → m' = m ∧ f' = f := by
  have key : ∀ m f, Located path shim m f → ∃ m f, Located path shim m f ∧ ∀ m' f', Located path shim m' f' → m' = m ∧ f' = f := by
    intro m f h
    refine ⟨m, f, h, fun m' f' h' => ?_⟩
    have := (located_split h').symm.trans (located_split h)
    exact ⟨congrArg Prod.fst this, congrArg Prod.snd this⟩
  by_cases h : ':' ∈ path
  · have : ∃ m f, ':' ∉ m ∧ path = m ++ ':' :: f := by
      clear key
      induction path with
      | nil => simp at h
      | cons c p ih =>
        by_cases hc : c = ':'
        · exact ⟨[], p, by simp, by rw [hc]; rfl⟩
        · obtain ⟨m, f, hm, e⟩ := ih ((List.mem_cons.1 h).resolve_left (fun e => hc e.symm))
          exact ⟨c :: m, f, by simp only [List.mem_cons, not_or]; exact ⟨fun e => hc e.symm, hm⟩, by rw [e]; rfl⟩
    obtain ⟨m, f, hm, e⟩ := this
    exact key m f (.colon m f hm e)
  · exact key path shim (.plain h)

/-- When making a function public fails, and with what. -/
theorem C143_refused {S A V : Type} (modules : Str → Option (Str → Option (Func S A V))) (path : Str)
    (introduced deprecated : Option Str) (shim : Func S A V) (m f : Str) (h : Located path shim.name m f) :
    (makePublic modules path introduced deprecated shim = .error .importError ↔ modules m = none) ∧
    (∀ t, makePublic modules path introduced deprecated shim = .error (.notImplemented t) ↔
      (∃ attrs, modules m = some attrs ∧ attrs f = none) ∧ t = m ++ ".".toList ++ f ++ " does not exist".toList) ∧
    (makePublic modules path introduced deprecated shim = .error .typeError ↔
      (∃ attrs, modules m = some attrs ∧ (attrs f).isSome) ∧ shim.doc = none) := by
  unfold makePublic
  rw [located_split h]
  dsimp only
  cases hm : modules m with
  | none => simp
  | some attrs =>
    dsimp only
    cases ha : attrs f with
    | none =>
      dsimp only
      refine ⟨by simp, fun t => ?_, by simp [ha]⟩
      constructor
      · intro e
        injection e with e
        injection e with e
        exact ⟨⟨attrs, rfl, ha⟩, e.symm⟩
      · rintro ⟨_, rfl⟩; rfl
    | some impl =>
      dsimp only
      cases hd : shim.doc with
      | none => simp [ha]
      | some doc => simp [ha]

theorem inside (a b i v c : Str) : (i ++ v) <:+: a ++ (b ++ i ++ v) ++ c := ⟨a ++ b, c, by simp⟩

theorem middle (a b i v c d : Str) : (i ++ v) <:+: a ++ (b ++ i ++ v) ++ c ++ d := ⟨a ++ b, c ++ d, by simp⟩

theorem front (a n r c d : Str) : (a ++ n) <+: a ++ (n ++ r) ++ c ++ d := ⟨r ++ c ++ d, by simp⟩

/-- A public function has the name of the shim and does what the implementation does; its documentation begins with the one
of the shim and ends with the one of the implementation. That it tells where the implementation is, is claimed only for paths
without a colon: see `C143_where_violated`. -/
theorem C143_public_partial {S A V : Type} (modules : Str → Option (Str → Option (Func S A V))) (path : Str)
    (introduced deprecated : Option Str) (shim g : Func S A V) (m f : Str) (h : Located path shim.name m f)
    (hg : makePublic modules path introduced deprecated shim = .ok g) :
    ∃ attrs impl doc, modules m = some attrs ∧ attrs f = some impl ∧ shim.doc = some doc ∧
      g.name = shim.name ∧ (∀ s as, calls g.call s as = calls impl.call s as) ∧
      ∃ rest, g.doc = some (doc ++ "\n    This function is a part of the public API\n    ".toList ++ rest) ∧
        (∀ d, impl.doc = some d → d <:+ rest) ∧
        (∀ v, introduced = some v → ("This function was introduced in version: ".toList ++ v) <:+: rest) ∧
        (∀ v, deprecated = some v → ("It will be removed in version: ".toList ++ v) <:+: rest) ∧
        (':' ∉ path → ("The private implementation is in ".toList ++ m ++ ":".toList ++ f ++ "\n".toList) <+: rest) := by
  have hs := located_split h
  unfold makePublic at hg
  rw [hs] at hg
  dsimp only at hg
  cases hm : modules m with
  | none => rw [hm] at hg; cases hg
  | some attrs =>
    rw [hm] at hg
    dsimp only at hg
    cases ha : attrs f with
    | none => rw [ha] at hg; cases hg
    | some impl =>
      rw [ha] at hg
      dsimp only at hg
      cases hd : shim.doc with
      | none => rw [hd] at hg; cases hg
      | some doc =>
        rw [hd] at hg
        injection hg with hg
        subst hg
        refine ⟨attrs, impl, doc, rfl, ha, rfl, rfl, fun _ _ => rfl, ?_⟩
        refine ⟨"The private implementation is in ".toList ++ path ++ ":".toList ++ shim.name ++
          (match introduced with
            | none => "\n    This function was introduced in the initial version of plainbox".toList
            | some v => "\n    This function was introduced in version: ".toList ++ v) ++
          (match deprecated with
            | none => []
            | some v => "    warn:\n        This function is deprecated\n        It will be removed in version: ".toList ++ v) ++
          (match impl.doc with
            | none => []
            | some d => "    Additional documentation from the private implementation:".toList ++ d), ?_, ?_, ?_, ?_, ?_⟩
        · have e : "\n    This function is a part of the public API\n    The private implementation is in ".toList =
              "\n    This function is a part of the public API\n    ".toList ++ "The private implementation is in ".toList := by
            decide +kernel
          show some (publicDoc _ _ _ _ _ _) = _
          unfold publicDoc
          rw [e]
          simp only [List.append_assoc]
          cases introduced <;> cases deprecated <;> cases impl.doc <;> rfl
        · intro d hd'
          rw [hd']
          exact ⟨_, by rw [← List.append_assoc]⟩
        · rintro v rfl
          have e : "\n    This function was introduced in version: ".toList =
            "\n    ".toList ++ "This function was introduced in version: ".toList := by decide +kernel
          dsimp only
          rw [e]
          exact middle _ _ _ _ _ _
        · rintro v rfl
          have e : "    warn:\n        This function is deprecated\n        It will be removed in version: ".toList =
            "    warn:\n        This function is deprecated\n        ".toList ++ "It will be removed in version: ".toList := by
            decide +kernel
          dsimp only
          rw [e]
          exact inside _ _ _ _ _
        · intro hc
          rw [splitPath_plain _ hc] at hs
          obtain ⟨rfl, rfl⟩ : path = m ∧ shim.name = f := ⟨congrArg Prod.fst hs, congrArg Prod.snd hs⟩
          have : ∃ r, (match introduced with
            | none => "\n    This function was introduced in the initial version of plainbox".toList
            | some v => "\n    This function was introduced in version: ".toList ++ v) = "\n".toList ++ r := by
            cases introduced with
            | none => exact ⟨"    This function was introduced in the initial version of plainbox".toList, by decide +kernel⟩
            | some v => exact ⟨"    This function was introduced in version: ".toList ++ v, by
                rw [← List.append_assoc]; congr 1⟩
          obtain ⟨r, hr⟩ := this
          rw [hr]
          exact front _ _ _ _ _

/-- A module with one function. -/
example : ((makePublic (S := Unit) (A := Nat) (V := Nat)
      (fun m => if m = "impl.mod".toList then some fun n => if n = "run".toList then
        some ⟨"run".toList, some "Runs.".toList, fun s a => (s, .ret (a + 1))⟩ else none else none)
      "impl.mod".toList (some "0.5".toList) none ⟨"run".toList, some "Shim.".toList, fun s _ => (s, .exc "no".toList)⟩).toOption.map
        fun g => ((g.call () 3).2, g.doc)) =
    some (.ret 4, some ("Shim.\n    This function is a part of the public API\n    The private implementation is in " ++
      "impl.mod:run\n    This function was introduced in version: 0.5    Additional documentation from the private " ++
      "implementation:Runs.").toList) := by decide +kernel

example : Located "m:f".toList "g".toList "m".toList "f".toList :=
  .colon "m".toList "f".toList (by decide) rfl

/-- The place that the documentation names is wrong if the path has a colon. -/
theorem C143_where_violated : ∃ (path shim m f : Str), Located path shim m f ∧
    publicDoc path shim none none [] none =
      "\n    This function is a part of the public API\n    The private implementation is in m:f:g".toList ++
      "\n    This function was introduced in the initial version of plainbox".toList ∧ (m, f) = ("m".toList, "f".toList) :=
  ⟨"m:f".toList, "g".toList, "m".toList, "f".toList, .colon "m".toList "f".toList (by decide) rfl, by decide +kernel, rfl⟩

end Verif.Wrappers
