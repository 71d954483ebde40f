import Verif.Model.Locate
import Verif.Lemmas.Text
import Verif.Props.Checksum

/-!
# C111: What is said about where a problem is leads to it
-/

namespace Verif.Locate

open Verif.Path (Str join)
open Verif.Text (splitOn joinWith)
open Verif.Origin (Origin)

/-! ## Specification: where paths lead -/

/-- The path ends here or goes on with a slash. -/
def Ends (s : Str) : Prop := s = [] ∨ ∃ t, s = '/' :: t

/-- Following a path from one directory, written as the list of names from the root, leads to another. -/
inductive Goes : List Str → Str → List Str → Prop
  | here {d : List Str} : Goes d [] d
  | slash {d e : List Str} {s : Str} : Goes d s e → Goes d ('/' :: s) e
  | dot {d e : List Str} {s : Str} : Ends s → Goes d s e → Goes d ('.' :: s) e
  | up {d e : List Str} {s : Str} : Ends s → Goes d.dropLast s e → Goes d ('.' :: '.' :: s) e
  | down {d e : List Str} {n s : Str} : n ≠ [] → '/' ∉ n → n ≠ ['.'] → n ≠ ['.', '.'] → Ends s → Goes (d ++ [n]) s e →
      Goes d (n ++ s) e

/-- Where a path leads in a directory: absolute paths begin at the root. -/
def Leads (dir : List Str) (path : Str) (to : List Str) : Prop :=
  (path.head? = some '/' → Goes [] path to) ∧ (path.head? ≠ some '/' → Goes dir path to)

/-! ## Lemmas -/

theorem collapse_append (d xs ys : List Str) : collapse d (xs ++ ys) = collapse (collapse d xs) ys := by
  induction xs generalizing d with
  | nil => rfl
  | cons c cs ih =>
    simp only [List.cons_append, collapse]
    split
    · exact ih _
    · split
      · exact ih _
      · exact ih _

theorem collapse_skip (d cs : List Str) : collapse d ([] :: cs) = collapse d cs := by
  rw [collapse, if_pos (.inl rfl)]

theorem word_split {n s : Str} (hn : '/' ∉ n) (he : Ends s) :
    ∃ rest, splitOn '/' (n ++ s) = n :: rest ∧ ∀ d, collapse d (splitOn '/' s) = collapse d rest := by
  rcases he with rfl | ⟨t, rfl⟩
  · refine ⟨[], ?_, fun d => ?_⟩
    · rw [List.append_nil, Text.split_no_sep hn]
    · rw [splitOn, collapse_skip]
  · refine ⟨splitOn '/' t, Text.split_append hn, fun d => ?_⟩
    rw [splitOn, if_pos rfl, collapse_skip]

theorem goes_collapse {d e : List Str} {s : Str} (h : Goes d s e) : e = collapse d (splitOn '/' s) := by
  induction h with
  | here => rw [splitOn, collapse_skip]; rfl
  | slash _ ih => rw [splitOn, if_pos rfl, collapse_skip]; exact ih
  | @dot d e s hs _ ih =>
    obtain ⟨rest, h1, h2⟩ := word_split (n := ['.']) (by decide) hs
    rw [show '.' :: s = ['.'] ++ s from rfl, h1, collapse, if_pos (.inr rfl), ← h2]
    exact ih
  | @up d e s hs _ ih =>
    obtain ⟨rest, h1, h2⟩ := word_split (n := ['.', '.']) (by decide) hs
    rw [show '.' :: '.' :: s = ['.', '.'] ++ s from rfl, h1, collapse, if_neg (by decide), if_neg (by decide), ← h2]
    exact ih
  | @down d e n s h0 h1 h2 h3 hs _ ih =>
    obtain ⟨rest, g1, g2⟩ := word_split h1 hs
    rw [g1, collapse, if_neg (fun h => h.elim h0 h2), if_pos h3, ← g2]
    exact ih

theorem ends_drop (s : Str) : Ends (s.dropWhile (· ≠ '/')) := by
  cases h : s.dropWhile (· ≠ '/') with
  | nil => exact .inl rfl
  | cons c t =>
    have := List.head_dropWhile_not (· ≠ '/') (l := s) (by rw [h]; simp)
    simp only [h, List.head_cons] at this
    have hc : c = '/' := by simpa using this
    subst hc
    exact .inr ⟨t, rfl⟩

theorem goes_total : ∀ (k : Nat) (s : Str), s.length ≤ k → ∀ d, ∃ e, Goes d s e := by
  intro k
  induction k with
  | zero =>
    intro s hs d
    rw [List.eq_nil_of_length_eq_zero (Nat.le_zero.1 hs)]
    exact ⟨d, .here⟩
  | succ k ih =>
    intro s hs d
    cases s with
    | nil => exact ⟨d, .here⟩
    | cons c t =>
      by_cases hc : c = '/'
      · subst hc
        obtain ⟨e, he⟩ := ih t (by simpa using hs) d
        exact ⟨e, .slash he⟩
      · have hsplit := List.takeWhile_append_dropWhile (p := (· ≠ '/')) (l := c :: t)
        have hne : (c :: t).takeWhile (· ≠ '/') ≠ [] := by simp [hc]
        have hns : '/' ∉ (c :: t).takeWhile (· ≠ '/') := by
          intro hm
          have := List.all_takeWhile (p := (· ≠ '/')) (l := c :: t)
          rw [List.all_eq_true] at this
          simpa using this _ hm
        have hen := ends_drop (c :: t)
        have hlen : ((c :: t).dropWhile (· ≠ '/')).length ≤ k := by
          have h1 := congrArg List.length hsplit
          rw [List.length_append] at h1
          have h2 := List.length_pos_iff.2 hne
          simp only [List.length_cons] at h1 hs
          omega
        generalize (c :: t).takeWhile (· ≠ '/') = n at *
        generalize (c :: t).dropWhile (· ≠ '/') = r at *
        rw [← hsplit]
        by_cases h1 : n = ['.']
        · subst h1
          obtain ⟨e, he⟩ := ih r hlen d
          exact ⟨e, .dot hen he⟩
        · by_cases h2 : n = ['.', '.']
          · subst h2
            obtain ⟨e, he⟩ := ih r hlen d.dropLast
            exact ⟨e, .up hen he⟩
          · obtain ⟨e, he⟩ := ih r hlen (d ++ [n])
            exact ⟨e, .down hne hns h1 h2 hen he⟩

theorem goes_iff {d e : List Str} {s : Str} : Goes d s e ↔ e = collapse d (splitOn '/' s) := by
  refine ⟨goes_collapse, ?_⟩
  rintro rfl
  obtain ⟨e, he⟩ := goes_total _ s (Nat.le_refl _) d
  rw [← goes_collapse he]
  exact he

/-- Paths lead to one place only. -/
theorem leads_unique {d e e' : List Str} {s : Str} (h : Leads d s e) (h' : Leads d s e') : e = e' := by
  by_cases hs : s.head? = some '/'
  · rw [goes_collapse (h.1 hs), goes_collapse (h'.1 hs)]
  · rw [goes_collapse (h.2 hs), goes_collapse (h'.2 hs)]

theorem splitOn_sep (a b : Str) : splitOn '/' (a ++ '/' :: b) = splitOn '/' a ++ splitOn '/' b := by
  induction a with
  | nil => simp [splitOn]
  | cons c a ih =>
    rw [List.cons_append]
    by_cases hc : c = '/'
    · rw [splitOn, if_pos hc, splitOn, if_pos hc, ih]
      rfl
    · rw [splitOn, if_neg hc, splitOn, if_neg hc, ih]
      cases h : splitOn '/' a with
      | nil => exact absurd h (Text.splitOn_ne_nil _ _)
      | cons p ps => rfl

theorem parts_leads {cwd path : Str} {c e : List Str} (h0 : cwd.head? = some '/') (hc : Goes [] cwd c)
    (h : Leads c path e) : parts cwd path = e := by
  unfold parts join
  by_cases hp : path.head? = some '/'
  · rw [if_pos hp]
    exact (goes_collapse (h.1 hp)).symm
  · rw [if_neg hp]
    have hg := goes_collapse (h.2 hp)
    have hc := goes_collapse hc
    rw [hg, hc]
    split
    · rename_i hl
      rcases hl with rfl | hl
      · cases h0
      · have hd : cwd = cwd.dropLast ++ ['/'] := by
          rw [List.getLast?_eq_some_iff] at hl
          obtain ⟨ys, rfl⟩ := hl
          simp
        rw [hd, List.append_assoc, List.singleton_append, splitOn_sep, splitOn_sep, collapse_append, collapse_append,
          show splitOn '/' [] = [[]] from rfl, collapse_skip]
        rfl
    · rw [splitOn_sep, collapse_append]

/-- A name of an entry in a directory. -/
def Name (n : Str) : Prop := n ≠ [] ∧ '/' ∉ n ∧ n ≠ ['.'] ∧ n ≠ ['.', '.']

theorem goes_names {d e : List Str} {s : Str} (h : Goes d s e) (hd : ∀ n ∈ d, Name n) : ∀ n ∈ e, Name n := by
  induction h with
  | here => exact hd
  | slash _ ih => exact ih hd
  | dot _ _ ih => exact ih hd
  | up _ _ ih => exact ih fun n hn => hd n ((List.dropLast_sublist _).subset hn)
  | down h0 h1 h2 h3 _ _ ih =>
    refine ih fun n hn => ?_
    rcases List.mem_append.1 hn with hn | hn
    · exact hd n hn
    · rw [List.mem_singleton.1 hn]
      exact ⟨h0, h1, h2, h3⟩

theorem common_take (a b : List Str) : a.take (common a b) = b.take (common a b) ∧ common a b ≤ a.length := by
  induction a generalizing b with
  | nil => simp [common]
  | cons x a ih =>
    cases b with
    | nil => simp [common]
    | cons y b =>
      unfold common
      split
      · rename_i h
        subst h
        have := ih b
        refine ⟨by rw [List.take_succ_cons, List.take_succ_cons, this.1], ?_⟩
        have := this.2
        simp only [List.length_cons]
        omega
      · simp

theorem common_prefix (a r : List Str) : common a (a ++ r) = a.length := by
  induction a with
  | nil => simp [common]
  | cons x a ih => simp [common, ih]

theorem collapse_up (k : Nat) (d : List Str) : collapse d (List.replicate k ['.', '.']) = d.take (d.length - k) := by
  induction k generalizing d with
  | zero => simp [collapse]
  | succ k ih =>
    rw [List.replicate_succ, collapse, if_neg (by decide), if_neg (by decide), ih, List.dropLast_eq_take, List.take_take,
      List.length_take]
    congr 1
    omega

theorem collapse_down (d ns : List Str) (h : ∀ n ∈ ns, Name n) : collapse d ns = d ++ ns := by
  induction ns generalizing d with
  | nil => simp [collapse]
  | cons n ns ih =>
    have hn := h n List.mem_cons_self
    rw [collapse, if_neg (fun h => h.elim hn.1 hn.2.2.1), if_pos hn.2.2.2,
      ih _ fun m hm => h m (List.mem_cons_of_mem _ hm), List.append_assoc]
    rfl

/-- **C111, relative names.** The relative name of a file leads from the directory to the same file. -/
theorem C111_relpath (cwd path base : Str) (c b e : List Str) (h0 : cwd.head? = some '/') (hc : Goes [] cwd c)
    (hb : Leads c base b) (he : Leads c path e) (hp : path ≠ []) :
    ∃ r, relpath cwd path base = some r ∧ r.head? ≠ some '/' ∧ Leads b r e ∧
      ∀ rest, e = b ++ rest → rest ≠ [] → splitOn '/' r = rest := by
  have hcn := goes_names hc (by simp)
  have name : ∀ {p : Str} {x : List Str}, Leads c p x → ∀ n ∈ x, Name n := by
    intro p x h
    by_cases hs : p.head? = some '/'
    · exact goes_names (h.1 hs) (by simp)
    · exact goes_names (h.2 hs) hcn
  have hbn := name hb
  have hen := name he
  unfold relpath
  rw [if_neg hp, parts_leads h0 hc hb, parts_leads h0 hc he]
  dsimp only
  have hi := common_take b e
  have hx : ∀ n ∈ List.replicate (b.length - common b e) ['.', '.'] ++ e.drop (common b e), n ≠ [] ∧ '/' ∉ n := by
    intro n hn
    rcases List.mem_append.1 hn with hn | hn
    · rw [(List.mem_replicate.1 hn).2]
      decide
    · have := hen n (List.mem_of_mem_drop hn)
      exact ⟨this.1, this.2.1⟩
  have hgo : collapse b (List.replicate (b.length - common b e) ['.', '.'] ++ e.drop (common b e)) = e := by
    rw [collapse_append, collapse_up, collapse_down _ _ fun n hn => hen n (List.mem_of_mem_drop hn),
      show b.length - (b.length - common b e) = common b e by omega, hi.1, List.take_append_drop]
  have hin : ∀ rest, e = b ++ rest → List.replicate (b.length - common b e) ['.', '.'] ++ e.drop (common b e) = rest := by
    rintro rest rfl
    rw [common_prefix]
    simp
  generalize List.replicate (b.length - common b e) ['.', '.'] ++ e.drop (common b e) = rel at *
  refine ⟨_, rfl, ?_⟩
  split
  · rename_i hr
    subst hr
    refine ⟨by decide, ⟨fun h => absurd h (by decide), fun _ => goes_iff.2 ?_⟩, fun rest h hr => absurd (hin rest h).symm hr⟩
    rw [← hgo]
    rfl
  · rename_i hr
    have hs : splitOn '/' (slashed rel) = rel := Text.split_join hr fun n hn => (hx n hn).2
    have hh : (slashed rel).head? ≠ some '/' := by
      intro hh
      cases hq : slashed rel with
      | nil => rw [hq] at hh; cases hh
      | cons x y =>
        rw [hq] at hh hs
        injection hh with hh
        subst hh
        rw [splitOn, if_pos rfl] at hs
        exact (hx [] (by rw [← hs]; simp)).1 rfl
    refine ⟨hh, ⟨fun h => absurd h hh, fun _ => goes_iff.2 ?_⟩, fun rest h _ => ?_⟩
    · rw [hs, hgo]
    · rw [hs]
      exact hin rest h

/-- **C111, origins.** An origin relative to a directory has the same lines; its file, if it is one, is the same file as seen from
that directory. -/
theorem C111_origin (cwd base : Str) (c b : List Str) (h0 : cwd.head? = some '/') (hc : Goes [] cwd c)
    (hb : Leads c base b) (o : Place) (ho : ∀ p, o.source ≠ .file p []) :
    ∃ s, relativeTo cwd base o = some ⟨s, o.lineStart, o.lineEnd⟩ ∧
      ((∀ p n, o.source ≠ .file p n) → s = o.source) ∧
      ∀ p n e, o.source = .file p n → Leads c n e → ∃ r, s = .file p r ∧ Leads b r e := by
  obtain ⟨src, x, y⟩ := o
  cases src with
  | file p n =>
    have total : ∃ e, Leads c n e := by
      by_cases hn : n.head? = some '/'
      · obtain ⟨e, he⟩ := goes_total _ n (Nat.le_refl _) []
        exact ⟨e, fun _ => he, fun h => absurd hn h⟩
      · obtain ⟨e, he⟩ := goes_total _ n (Nat.le_refl _) c
        exact ⟨e, fun h => absurd h hn, fun _ => he⟩
    obtain ⟨e, he⟩ := total
    obtain ⟨r, hr, -, hl, -⟩ := C111_relpath cwd n base c b e h0 hc hb he (fun h => ho p (by rw [h]))
    refine ⟨.file p r, ?_, fun h => absurd rfl (h p n), ?_⟩
    · unfold relativeTo Source.relativeTo
      dsimp only
      rw [hr]
      rfl
    · intro p' n' e' h he'
      injection h with h1 h2
      subst h1
      subst h2
      rw [leads_unique he' he]
      exact ⟨r, rfl, hl⟩
  | _ =>
    refine ⟨_, rfl, fun _ => rfl, ?_⟩
    intro p n e h
    cases h

/-- **C111, different files.** Relative to one directory, origins in different files are said to be in different files. -/
theorem C111_distinct (cwd base : Str) (c : List Str) (h0 : cwd.head? = some '/') (hc : Goes [] cwd c) (p : Bool)
    (n n' : Str) (e e' : List Str) (h : Leads c n e) (h' : Leads c n' e') (hn : n ≠ []) (hn' : n' ≠ []) :
    (Source.file p n).relativeTo cwd base = (Source.file p n').relativeTo cwd base ↔ e = e' := by
  have total : ∃ b, Leads c base b := by
    by_cases hn : base.head? = some '/'
    · obtain ⟨e, he⟩ := goes_total _ base (Nat.le_refl _) []
      exact ⟨e, fun _ => he, fun h => absurd hn h⟩
    · obtain ⟨e, he⟩ := goes_total _ base (Nat.le_refl _) c
      exact ⟨e, fun h => absurd h hn, fun _ => he⟩
  obtain ⟨b, hb⟩ := total
  obtain ⟨r, hr, -, hl, -⟩ := C111_relpath cwd n base c b e h0 hc hb h hn
  obtain ⟨r', hr', -, hl', -⟩ := C111_relpath cwd n' base c b e' h0 hc hb h' hn'
  constructor
  · intro he
    unfold Source.relativeTo at he
    dsimp only at he
    rw [hr, hr'] at he
    injection he with he
    injection he with _ he
    subst he
    exact leads_unique hl hl'
  · rintro rfl
    have : relpath cwd n base = relpath cwd n' base := by
      unfold relpath
      rw [if_neg hn, if_neg hn', parts_leads h0 hc h, parts_leads h0 hc h']
    unfold Source.relativeTo
    dsimp only
    rw [this]

/-! ## Texts -/

/-- The numbers are those of lines. -/
def Lines (o : Place) : Prop := (∀ n, o.lineStart = some n → 0 ≤ n) ∧ ∀ n, o.lineEnd = some n → 0 ≤ n

/-- The origin is in a file whose name has no colon. -/
def InFile (o : Place) (name : Str) : Prop := (∃ p, o.source = .file p name) ∧ ':' ∉ name

theorem digit_ok {n : Nat} {c : Char} (h : c ∈ Nat.toDigits 10 n) : c ≠ '-' ∧ c ≠ ':' ∧ c ≠ ' ' ∧ c ≠ 'N' := by
  have := Nat.isDigit_of_mem_toDigits (by omega) (by omega) h
  refine ⟨?_, ?_, ?_, ?_⟩ <;> (rintro rfl; revert this; decide)

theorem line_chars {x : Option Int} (h : ∀ n, x = some n → 0 ≤ n) : ∀ c ∈ line x, c ≠ '-' ∧ c ≠ ':' ∧ c ≠ ' ' := by
  cases x with
  | none => decide +kernel
  | some n =>
    have := h n rfl
    intro c hc
    unfold line at hc
    dsimp only at hc
    rw [if_neg (by omega), List.nil_append] at hc
    have := digit_ok hc
    exact ⟨this.1, this.2.1, this.2.2.1⟩

theorem line_ne (x : Option Int) : line x ≠ [] := by
  cases x with
  | none => decide
  | some n =>
    unfold line
    intro h
    exact Nat.toDigits_ne_nil (List.append_eq_nil_iff.1 h).2

theorem line_inj {x y : Option Int} (hx : ∀ n, x = some n → 0 ≤ n) (hy : ∀ n, y = some n → 0 ≤ n)
    (h : line x = line y) : x = y := by
  have key : ∀ n : Int, 0 ≤ n → line (some n) = Nat.toDigits 10 n.natAbs := by
    intro n hn
    unfold line
    dsimp only
    rw [if_neg (by omega), List.nil_append]
  have no : ∀ n : Nat, "None".toList ≠ Nat.toDigits 10 n := by
    intro n hn
    exact (digit_ok (n := n) (c := 'N') (by rw [← hn]; decide)).2.2.2 rfl
  cases x with
  | none =>
    cases y with
    | none => rfl
    | some n => rw [key n (hy n rfl)] at h; exact absurd h (no _)
  | some m =>
    cases y with
    | none => rw [key m (hx m rfl)] at h; exact absurd h.symm (no _)
    | some n =>
      rw [key n (hy n rfl), key m (hx m rfl)] at h
      have := Checksum.digits_inj h
      have h1 := hx m rfl
      have h2 := hy n rfl
      congr 1
      omega

/-- What is shown behind the name of the file and the colon. -/
def tail (o : Place) : Str :=
  if o.lineStart = o.lineEnd then line o.lineStart else line o.lineStart ++ '-' :: line o.lineEnd

theorem show_eq (o : Place) : show' o = if o.lineStart = none ∧ o.lineEnd = none then o.source.str
    else o.source.str ++ ':' :: tail o := by
  unfold show' Origin.mode tail
  by_cases h : o.lineStart = none ∧ o.lineEnd = none
  · rw [if_pos h, if_pos h]
  · rw [if_neg h, if_neg h]
    by_cases h' : o.lineStart = o.lineEnd
    · rw [if_pos h', if_pos h']
    · rw [if_neg h', if_neg h']
      simp

theorem tail_chars {o : Place} (h : Lines o) : ∀ c ∈ tail o, c ≠ ':' ∧ c ≠ ' ' := by
  intro c hc
  unfold tail at hc
  split at hc
  · exact (line_chars h.1 c hc).2
  · rcases List.mem_append.1 hc with hc | hc
    · exact (line_chars h.1 c hc).2
    · rcases List.mem_cons.1 hc with rfl | hc
      · decide
      · exact (line_chars h.2 c hc).2

theorem tail_ne (o : Place) : tail o ≠ [] := by
  unfold tail
  split
  · exact line_ne _
  · intro h
    exact line_ne _ (List.append_eq_nil_iff.1 h).1

theorem tail_inj {o o' : Place} (h : Lines o) (h' : Lines o') (he : tail o = tail o') :
    o.lineStart = o'.lineStart ∧ o.lineEnd = o'.lineEnd := by
  have split : ∀ {a b : Option Int} {x y : Str}, (∀ n, a = some n → 0 ≤ n) → (∀ n, b = some n → 0 ≤ n) →
      (∀ c t, x = c :: t → c = '-') → (∀ c t, y = c :: t → c = '-') → line a ++ x = line b ++ y → a = b ∧ x = y := by
    intro a b x y ha hb hx hy h
    obtain ⟨h1, h2⟩ := Checksum.prefix_split (p := fun c => decide (c ≠ '-'))
      (fun c hc => by simpa using (line_chars ha c hc).1) (fun c hc => by simpa using (line_chars hb c hc).1)
      (fun c t h => by simpa using hx c t h) (fun c t h => by simpa using hy c t h) h
    exact ⟨line_inj ha hb h1, h2⟩
  unfold tail at he
  have d : ∀ (z : Str) (c : Char) (t : Str), '-' :: z = c :: t → c = '-' := by
    intro z c t h
    injection h with h _
    exact h.symm
  have n : ∀ (c : Char) (t : Str), ([] : Str) = c :: t → c = '-' := by
    intro c t h
    cases h
  split at he <;> split at he
  · rename_i h1 h2
    have := line_inj h.1 h'.1 he
    exact ⟨this, by rw [← h1, ← h2, this]⟩
  · rw [← List.append_nil (line o.lineStart)] at he
    have := (split h.1 h'.1 n (d _) he).2
    cases this
  · rw [← List.append_nil (line o'.lineStart)] at he
    have := (split h.1 h'.1 (d _) n he).2
    cases this
  · obtain ⟨h1, h2⟩ := split h.1 h'.1 (d _) (d _) he
    injection h2 with _ h2
    exact ⟨h1, line_inj h.2 h'.2 h2⟩

theorem no_colon {a : Str} (h : ':' ∉ a) : ∀ c ∈ a, decide (c ≠ ':') = true := by
  intro c hc
  rw [decide_eq_true_eq]
  rintro rfl
  exact h hc

/-- **C111, what is shown of an origin** tells the file and the lines. Partial: if the name of the file has no colon. -/
theorem C111_shown_partial (o o' : Place) (n n' : Str) (h : InFile o n) (h' : InFile o' n') (hl : Lines o) (hl' : Lines o')
    (he : show' o = show' o') : n = n' ∧ o.lineStart = o'.lineStart ∧ o.lineEnd = o'.lineEnd := by
  obtain ⟨⟨p, hp⟩, hn⟩ := h
  obtain ⟨⟨p', hp'⟩, hn'⟩ := h'
  rw [show_eq, show_eq, hp, hp'] at he
  change (if _ then n else n ++ ':' :: tail o) = (if _ then n' else n' ++ ':' :: tail o') at he
  have cut : ∀ {x y : Str}, (∀ c t, x = c :: t → c = ':') → (∀ c t, y = c :: t → c = ':') → n ++ x = n' ++ y →
      n = n' ∧ x = y := by
    intro x y hx hy h
    exact Checksum.prefix_split (p := fun c => decide (c ≠ ':')) (no_colon hn)
      (no_colon hn') (fun c t h => by simpa using hx c t h)
      (fun c t h => by simpa using hy c t h) h
  have d : ∀ (z : Str) (c : Char) (t : Str), ':' :: z = c :: t → c = ':' := by
    intro z c t h
    injection h with h _
    exact h.symm
  have e : ∀ (c : Char) (t : Str), ([] : Str) = c :: t → c = ':' := by
    intro c t h
    cases h
  split at he <;> split at he
  · rename_i h1 h2
    exact ⟨he, by rw [h1.1, h2.1], by rw [h1.2, h2.2]⟩
  · rw [← List.append_nil n] at he
    cases (cut e (d _) he).2
  · rw [← List.append_nil n'] at he
    cases (cut (d _) e he).2
  · obtain ⟨h1, h2⟩ := cut (d _) (d _) he
    injection h2 with _ h2
    exact ⟨h1, tail_inj hl hl' h2⟩

theorem coloured_chars (tty : Bool) (s : Severity) : ':' ∉ coloured tty s := by
  cases tty <;> cases s <;> decide +kernel

theorem coloured_inj (tty : Bool) (s s' : Severity) (h : coloured tty s = coloured tty s') : s = s' := by
  cases tty <;> cases s <;> cases s' <;> first | rfl | (revert h; decide +kernel)

/-- **C111, what is shown of an issue** tells how severe it is, the file, the lines and the message. Partial: for issues that have an
origin in a file whose name has no colon. -/
theorem C111_issue_partial (tty : Bool) (i i' : Issue) (o o' : Place) (n n' : Str) (hi : i.origin = some o)
    (hi' : i'.origin = some o') (h : InFile o n) (h' : InFile o' n') (hl : Lines o) (hl' : Lines o')
    (he : i.str tty = i'.str tty) :
    i.severity = i'.severity ∧ n = n' ∧ o.lineStart = o'.lineStart ∧ o.lineEnd = o'.lineEnd ∧ i.message = i'.message := by
  unfold Issue.str at he
  rw [hi, hi'] at he
  dsimp only at he
  obtain ⟨⟨p, hp⟩, hn⟩ := h
  obtain ⟨⟨p', hp'⟩, hn'⟩ := h'
  have cut : ∀ {a b x y : Str}, ':' ∉ a → ':' ∉ b → a ++ ':' :: x = b ++ ':' :: y → a = b ∧ x = y := by
    intro a b x y ha hb h
    obtain ⟨h1, h2⟩ := Checksum.prefix_split (p := fun c => decide (c ≠ ':')) (no_colon ha)
      (no_colon hb)
      (fun c t h => by injection h with h _; simp [← h])
      (fun c t h => by injection h with h _; simp [← h]) h
    injection h2 with _ h2
    exact ⟨h1, h2⟩
  have ce : ": ".toList = [':', ' '] := rfl
  rw [ce] at he
  simp only [List.append_assoc, List.cons_append, List.nil_append] at he
  obtain ⟨h1, h2⟩ := cut (coloured_chars _ _) (coloured_chars _ _) he
  injection h2 with _ h2
  have hs := coloured_inj _ _ _ h1
  have form : ∀ (o : Place) (p : Bool) (n m : Str), o.source = .file p n → show' o ++ ':' :: ' ' :: m =
      n ++ ':' :: (if o.lineStart = none ∧ o.lineEnd = none then ' ' :: m else tail o ++ ':' :: ' ' :: m) := by
    intro o p n m hp
    rw [show_eq, hp, show (Source.file p n).str = n from rfl]
    by_cases hz : o.lineStart = none ∧ o.lineEnd = none
    · rw [if_pos hz, if_pos hz]
    · rw [if_neg hz, if_neg hz, List.append_assoc, List.cons_append]
  rw [form o p n _ hp, form o' p' n' _ hp'] at h2
  obtain ⟨h3, h4⟩ := cut hn hn' h2
  have first : ∀ (o : Place) (m x : Str), Lines o → ' ' :: m ≠ tail o ++ x := by
    intro o m x hl h
    cases ht : tail o with
    | nil => exact tail_ne o ht
    | cons c t =>
      rw [ht] at h
      injection h with h _
      exact (tail_chars hl c (by rw [ht]; simp)).2 h.symm
  refine ⟨hs, h3, ?_⟩
  split at h4 <;> split at h4
  · rename_i a b
    injection h4 with _ h4
    exact ⟨by rw [a.1, b.1], by rw [a.2, b.2], h4⟩
  · exact absurd h4 (first _ _ _ hl')
  · exact absurd h4.symm (first _ _ _ hl)
  · obtain ⟨h5, h6⟩ := cut (fun h => (tail_chars hl _ h).1 rfl) (fun h => (tail_chars hl' _ h).1 rfl) h4
    injection h6 with _ h6
    obtain ⟨h7, h8⟩ := tail_inj hl hl' h5
    exact ⟨h7, h8, h6⟩

/-! ## The whole text -/

/-- How a source is named. -/
inductive Named : Source → Str → Prop
  | unknown : Named .unknown "???".toList
  | file (p : Bool) (n : Str) : Named (.file p n) n
  | job (i : Str) : Named (.job i) i
  | argument (v : Str) : Named (.argument none v) ("command line argument ".toList ++ v)
  | option (n v : Str) : Named (.argument (some n) v) ("command line argument ".toList ++ n ++ ['='] ++ v)

/-- The place that is shown: the name of the source, one line, or the first and the last. -/
inductive Placed : Place → Str → Prop
  | whole {s : Source} {t : Str} : Named s t → Placed ⟨s, none, none⟩ t
  | line {s : Source} {t : Str} (n : Int) : Named s t → Placed ⟨s, some n, some n⟩ (t ++ [':'] ++ (toString n).toList)
  | lines {s : Source} {t : Str} (n m : Int) : Named s t → n ≠ m →
      Placed ⟨s, some n, some m⟩ (t ++ [':'] ++ (toString n).toList ++ ['-'] ++ (toString m).toList)

/-- The code of a colour for terminals. -/
def code (n : String) : Str := [Char.ofNat 27, '['] ++ n.toList ++ ['m']

/-- The word for a severity. -/
inductive Word : Severity → String → Prop
  | error : Word .error "error"
  | warning : Word .warning "warning"
  | advice : Word .advice "advice"

/-- The beginning of the text for an issue with a place: a word, on terminals red and bold, yellow or blue. -/
inductive Marked : Bool → Severity → Str → Prop
  | plain {s : Severity} {w : String} : Word s w → Marked false s w.toList
  | error : Marked true .error (code "31" ++ code "1" ++ "error".toList ++ code "0")
  | warning : Marked true .warning (code "33" ++ "warning".toList ++ code "0")
  | advice : Marked true .advice (code "34" ++ "advice".toList ++ code "0")

theorem line_text (n : Int) : line (some n) = (toString n).toList := by
  unfold line
  dsimp only
  cases n with
  | ofNat n =>
    rw [if_neg (by simp)]
    show Nat.toDigits 10 n = (Nat.repr n).toList
    rw [Nat.repr_eq_ofList_toDigits]
    exact String.toList_ofList.symm
  | negSucc n =>
    rw [if_pos (Int.negSucc_lt_zero n)]
    show _ = (("-" : String) ++ Nat.repr (n + 1)).toList
    rw [String.toList_append, Nat.repr_eq_ofList_toDigits]
    exact congrArg (['-'] ++ ·) String.toList_ofList.symm

/-- **C111**: the text for a place is the name of the source and the lines. -/
theorem C111_place {o : Place} {t : Str} (h : Placed o t) : show' o = t := by
  have name : ∀ {s : Source} {t : Str}, Named s t → s.str = t := by
    intro s t h
    cases h <;> first | rfl | (show _ ++ _ ++ '=' :: _ = _; simp)
  rw [show_eq]
  cases h with
  | whole h => rw [if_pos ⟨rfl, rfl⟩]; exact name h
  | line n h =>
    rw [if_neg (fun h => by cases h.1)]
    unfold tail
    rw [if_pos rfl, line_text, name h]
    simp
  | lines n m h hne =>
    rw [if_neg (fun h => by cases h.1)]
    unfold tail
    rw [if_neg (fun h => hne (Option.some.inj h)), line_text, line_text, name h]
    simp

/-- **C111**: the text for an issue is a word for the severity, which is coloured on terminals if there is a place, the place and the
message. -/
theorem C111_text (tty : Bool) (i : Issue) :
    (∀ o t m, i.origin = some o → Placed o t → Marked tty i.severity m →
      i.str tty = m ++ ": ".toList ++ t ++ ": ".toList ++ i.message) ∧
    (∀ w, i.origin = none → Word i.severity w → i.str tty = w.toList ++ ": ".toList ++ i.message) := by
  have word : ∀ {s : Severity} {w : String}, Word s w → s.str = w.toList := by
    intro s w h
    cases h <;> rfl
  constructor
  · intro o t m ho hp hm
    unfold Issue.str
    rw [ho]
    dsimp only
    rw [C111_place hp]
    have : coloured tty i.severity = m := by
      generalize i.severity = s at hm
      cases hm with
      | plain h => rw [← word h]; cases s <;> exact List.append_nil _
      | error => rfl
      | warning => rfl
      | advice => rfl
    rw [this]
  · intro w ho hw
    unfold Issue.str
    rw [ho]
    dsimp only
    rw [word hw]

/-- **C111**: an issue relative to a directory has the same severity and message, and its place is the former one relative to the
directory. -/
theorem C111_issue_relative (cwd base : Str) (i : Issue) :
    (i.origin = none → i.relativeTo cwd base = some i) ∧
    (∀ o p, i.origin = some o → relativeTo cwd base o = some p → i.relativeTo cwd base = some ⟨i.message, i.severity, some p⟩) ∧
    (∀ o, i.origin = some o → relativeTo cwd base o = none → i.relativeTo cwd base = none) := by
  refine ⟨?_, ?_, ?_⟩
  · intro h
    unfold Issue.relativeTo
    rw [h]
  · intro o p h hp
    unfold Issue.relativeTo
    rw [h]
    dsimp only
    rw [hp]
    rfl
  · intro o h hp
    unfold Issue.relativeTo
    rw [h]
    dsimp only
    rw [hp]
    rfl

/-- On a terminal the word is red and bold; the place is an argument of the command line. -/
example : (Issue.str true ⟨"bad".toList, .error, some ⟨.argument (some "-i".toList) "'x'".toList, some 2, some 5⟩⟩) =
    code "31" ++ code "1" ++ "error".toList ++ code "0" ++ ": ".toList ++ "command line argument -i='x':2-5".toList ++
      ": ".toList ++ "bad".toList := by
  rw [(C111_text true _).1 _ _ _ rfl (.lines 2 5 (.option "-i".toList "'x'".toList) (by decide)) .error]
  decide +kernel

/-! ## Examples and violations -/

/-- Relative to a directory beside the one of the file. -/
example : relpath "/home/u".toList "p/./units/../jobs/a.pxu".toList "/home/u/p/data".toList = some "../jobs/a.pxu".toList := by
  decide +kernel

/-- The hypotheses of `C111_relpath` and `C111_origin` are met: the file is in the directory of the provider. -/
example : ∃ r, relpath "/home/u".toList "p/units/../jobs/a.pxu".toList "/home/u/p".toList = some r ∧
    splitOn '/' r = ["jobs".toList, "a.pxu".toList] := by
  obtain ⟨r, h, -, -, hr⟩ := C111_relpath "/home/u".toList "p/units/../jobs/a.pxu".toList "/home/u/p".toList
    ["home".toList, "u".toList] ["home".toList, "u".toList, "p".toList]
    ["home".toList, "u".toList, "p".toList, "jobs".toList, "a.pxu".toList] (by decide) (goes_iff.2 (by decide +kernel))
    ⟨fun _ => goes_iff.2 (by decide +kernel), fun h => absurd (by decide) h⟩
    ⟨fun h => absurd h (by decide), fun _ => goes_iff.2 (by decide +kernel)⟩ (by decide)
  exact ⟨r, h, hr ["jobs".toList, "a.pxu".toList] rfl (by simp)⟩

/-- The path followed step by step. -/
example : Goes ["p".toList] "../q/./a".toList ["q".toList, "a".toList] := by
  refine .up (.inr ⟨_, rfl⟩) (.slash (.down (n := ['q']) (s := "/./a".toList) (by decide) (by decide) (by decide) (by decide)
    (.inr ⟨_, rfl⟩) (.slash (.dot (.inr ⟨_, rfl⟩) (.slash (.down (n := ['a']) (s := []) (by decide) (by decide) (by decide)
      (by decide) (.inl rfl) .here))))))

/-- Origins with a single line and with several. -/
example : show' ⟨.file false "a.pxu".toList, some 3, some 3⟩ = "a.pxu:3".toList ∧
    show' ⟨.file false "a.pxu".toList, some 3, some 12⟩ = "a.pxu:3-12".toList ∧
    InFile ⟨.file false "a.pxu".toList, some 3, some 12⟩ "a.pxu".toList ∧ Lines ⟨.file false "a.pxu".toList, some 3, some 12⟩ := by
  refine ⟨by decide +kernel, by decide +kernel, ⟨⟨_, rfl⟩, by decide +kernel⟩, ?_, ?_⟩
  · intro n h; injection h with h; omega
  · intro n h; injection h with h; omega

/-- An issue as it is shown. -/
example : (Issue.str false ⟨"field 'id', required field missing".toList, .error, some ⟨.file false "a.pxu".toList, some 3, some 3⟩⟩) =
    "error: a.pxu:3: field 'id', required field missing".toList := by decide +kernel

/-- **C111** is violated by names with colons: a file and a line of another file look the same. -/
theorem C111_colon_violated : ∃ o o' : Place, o.source ≠ o'.source ∧ show' o = show' o' :=
  ⟨⟨.file false "a:3".toList, none, none⟩, ⟨.file false "a".toList, some 3, some 3⟩, by decide +kernel⟩

/-- **C111** is violated by sources of different kinds: a file may have the name of the job that made the text, or be named like a
source that is not known. -/
theorem C111_kind_violated (i : Str) (a b : Option Int) : show' ⟨.file false i, a, b⟩ = show' ⟨.job i, a, b⟩ ∧
    show' ⟨.file false "???".toList, a, b⟩ = show' ⟨.unknown, a, b⟩ := by
  constructor <;> rw [show_eq, show_eq] <;> rfl

/-- **C111** is violated by issues without an origin: the beginning of the message is taken for one. -/
theorem C111_nowhere_violated : ∃ i i' : Issue, i.origin = none ∧ i'.origin ≠ none ∧ i.str false = i'.str false :=
  ⟨⟨"a: b".toList, .error, none⟩, ⟨"b".toList, .error, some ⟨.file false "a".toList, none, none⟩⟩, by decide +kernel⟩

/-- **C111** is violated by files without a name: there is no origin relative to a directory, but an exception. -/
theorem C111_nameless_violated (cwd base : Str) (p : Bool) (a b : Option Int) : relativeTo cwd base ⟨.file p [], a, b⟩ = none := rfl

end Verif.Locate
