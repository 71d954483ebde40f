import Verif.Model.Help
import Verif.Lemmas.Text
import Verif.Lemmas.Where
import Verif.Lemmas.Sibling
import Verif.Props.Packaging

/-!
# C125: what is written in the docstring of a command is what its help shows

The specification says how docstrings are *written*: a help line on the first or on the second line, the
other lines indented, blocks of lines for the description and the epilog with any number of blank lines
around them.  It does not use `cleandoc` or the splitting of the model.
-/

namespace Verif.Help

open Verif.Text
open Verif.Where (splitLines isBreak splitLines_join join_snoc)

/-- Characters of a line: no line break and no tab. -/
def Plain (l : Str) : Prop := ∀ c ∈ l, isBreak c = false ∧ c ≠ '\t'

/-- A block of lines: it neither begins nor ends with white space. -/
def Block (ls : List Str) : Prop :=
  (∀ l ∈ ls, Plain l) ∧ (∃ c s, ls.head? = some (c :: s) ∧ isSpace c = false) ∧
  (∃ c s, ls.getLast? = some (s ++ [c]) ∧ isSpace c = false)

/-- The mark between the description and the epilog. -/
def mark : Str := "@EPILOG@".toList

/-- The lines after the help line: what they are as a description and as an epilog. -/
inductive Parts : List Str → Str → Option Str → Prop
  | nothing : Parts [] [] none
  | description (a : Nat) (ls : List Str) : Block ls → ¬ mark <:+: joinWith '\n' ls →
      Parts (List.replicate a [] ++ ls) (joinWith '\n' ls) none
  | epilog (a c : Nat) (es : List Str) : Block es →
      Parts (List.replicate a [] ++ mark :: (List.replicate c [] ++ es)) [] (some (joinWith '\n' es))
  | both (a b c : Nat) (ls es : List Str) : Block ls → ¬ mark <:+: joinWith '\n' ls → Block es →
      Parts (List.replicate a [] ++ (ls ++ (List.replicate b [] ++ mark :: (List.replicate c [] ++ es))))
        (joinWith '\n' ls) (some (joinWith '\n' es))

/-- A line as it is written in the program, indented unless it is empty. -/
def indented (n : Nat) (l : Str) : Str := if l = [] then [] else List.replicate n ' ' ++ l

/-- A docstring with this help line and these lines after it: in one line; with the help line on the
first line; with the help line below the quotes.  The closing quotes are on a line of their own. -/
inductive Written (help : Str) : List Str → Str → Prop
  | one : Written help [] help
  | first (n m : Nat) (rest : List Str) : rest ≠ [] → m ≤ n →
      Written help rest (joinWith '\n' (help :: (rest.map (indented n) ++ [List.replicate m ' '])))
  | below (n m : Nat) (rest : List Str) : m ≤ n →
      Written help rest (joinWith '\n' ([] :: ((help :: rest).map (indented n) ++ [List.replicate m ' '])))

/-! ## Lemmas -/

private theorem expand_id (s : Str) (h : '\t' ∉ s) (col : Nat) : expandTabs col s = s := by
  induction s generalizing col with
  | nil => rfl
  | cons c s ih =>
    have hc : c ≠ '\t' := fun e => h (by simp [e])
    have hs : '\t' ∉ s := fun e => h (by simp [e])
    rw [expandTabs, if_neg hc]
    split <;> rw [ih hs]

private theorem mem_join {c : Char} {ps : List Str} (h : c ∈ joinWith '\n' ps) :
    c = '\n' ∨ ∃ p ∈ ps, c ∈ p := by
  induction ps with
  | nil => simp [joinWith] at h
  | cons p ps ih =>
    cases ps with
    | nil => exact .inr ⟨p, by simp, h⟩
    | cons q qs =>
      rw [joinWith_cons _ _ (by simp)] at h
      rcases List.mem_append.1 h with h | h
      · exact .inr ⟨p, by simp, h⟩
      · rcases List.mem_cons.1 h with h | h
        · exact .inl h
        · rcases ih h with h | ⟨r, hr, h⟩
          · exact .inl h
          · exact .inr ⟨r, by simp [hr], h⟩

private theorem join_append {X Y : List Str} (hX : X ≠ []) (hY : Y ≠ []) :
    joinWith '\n' (X ++ Y) = joinWith '\n' X ++ '\n' :: joinWith '\n' Y := by
  induction X with
  | nil => exact absurd rfl hX
  | cons p X ih =>
    rw [List.cons_append, joinWith_cons _ _ (by simp [hY])]
    cases X with
    | nil => rfl
    | cons q X => rw [ih (by simp), joinWith_cons '\n' p (ps := q :: X) (by simp)]; simp

private theorem join_blank (a : Nat) {X : List Str} (hX : X ≠ []) :
    joinWith '\n' (List.replicate a [] ++ X) = List.replicate a '\n' ++ joinWith '\n' X := by
  induction a with
  | zero => rfl
  | succ a ih =>
    rw [List.replicate_succ, List.cons_append, joinWith_cons _ _ (by simp [hX]), ih]
    rfl

private theorem join_mark (b : Nat) {X : List Str} (hX : X ≠ []) :
    joinWith '\n' (List.replicate b [] ++ mark :: X) =
      List.replicate b '\n' ++ (mark ++ '\n' :: joinWith '\n' X) := by
  rw [join_blank b (by simp), joinWith_cons _ _ hX]

private theorem lstrip_spaces (n : Nat) (l : Str) : lstrip (List.replicate n ' ' ++ l) = lstrip l := by
  induction n with
  | zero => rfl
  | succ n ih =>
    rw [List.replicate_succ, List.cons_append]
    unfold lstrip
    rw [List.dropWhile_cons, if_pos (by decide)]
    exact ih

/-- A line that is not blank and not indented. -/
private def Flush (l : Str) : Prop := ∃ c s, l = c :: s ∧ isSpace c = false

private theorem lstrip_flush {l : Str} (h : Flush l) : lstrip l = l := by
  obtain ⟨c, s, rfl, hc⟩ := h
  unfold lstrip
  rw [List.dropWhile_cons, if_neg (by simp [hc])]

private theorem lstrip_len (l : Str) : (lstrip l).length ≤ l.length :=
  (List.dropWhile_sublist _).length_le

/-- The margin while lines indented by `n` are looked at. -/
private def Above (n : Nat) (m : Option Nat) : Prop := ∀ k, m = some k → n ≤ k

private theorem narrow_indented {n : Nat} {m : Option Nat} (hm : Above n m) (l : Str) :
    Above n (narrow m (indented n l)) ∧ (m = some n → narrow m (indented n l) = some n) ∧
      (Flush l → narrow m (indented n l) = some n) := by
  by_cases hl : l = []
  · subst hl
    rw [indented, if_pos rfl]
    refine ⟨hm, fun h => h, ?_⟩
    rintro ⟨c, s, h, -⟩
    exact absurd h (by simp)
  · rw [indented, if_neg hl]
    have hlen := lstrip_len l
    unfold narrow
    rw [lstrip_spaces]
    dsimp only
    by_cases h0 : (lstrip l).length = 0
    · rw [if_pos h0]
      refine ⟨hm, fun h => h, fun hf => ?_⟩
      rw [lstrip_flush hf] at h0
      exact absurd (List.length_eq_zero_iff.1 h0) hl
    · rw [if_neg h0, List.length_append, List.length_replicate]
      have hf : Flush l → n + l.length - (lstrip l).length = n := by
        intro hf
        rw [lstrip_flush hf]
        omega
      cases m with
      | none =>
        dsimp only
        refine ⟨fun k hk => ?_, fun h => absurd h (by simp), fun h => by rw [hf h]⟩
        injection hk with hk
        omega
      | some m =>
        have := hm m rfl
        dsimp only
        refine ⟨fun k hk => ?_, fun h => ?_, fun h => ?_⟩
        · injection hk with hk
          omega
        · injection h with h
          congr 1
          omega
        · rw [hf h]
          congr 1
          omega

private theorem narrow_blank (m : Option Nat) (k : Nat) : narrow m (List.replicate k ' ') = m := by
  have := lstrip_spaces k []
  rw [List.append_nil] at this
  unfold narrow
  rw [this]
  rfl

private theorem margin_fold {n : Nat} (L : List Str) (m : Option Nat) (hm : Above n m) :
    (m = some n → (L.map (indented n)).foldl narrow m = some n) ∧
    ((∃ l ∈ L, Flush l) → (L.map (indented n)).foldl narrow m = some n) := by
  induction L generalizing m with
  | nil => exact ⟨fun h => h, by simp⟩
  | cons l L ih =>
    obtain ⟨h1, h2, h3⟩ := narrow_indented hm l
    obtain ⟨i1, i2⟩ := ih _ h1
    rw [List.map_cons, List.foldl_cons]
    refine ⟨fun h => i1 (h2 h), ?_⟩
    rintro ⟨x, hx, hf⟩
    rcases List.mem_cons.1 hx with rfl | hx
    · exact i1 (h3 hf)
    · exact i2 ⟨x, hx, hf⟩

private theorem drop_indented (n : Nat) (L : List Str) : (L.map (indented n)).map (List.drop n) = L := by
  induction L with
  | nil => rfl
  | cons l L ih =>
    rw [List.map_cons, List.map_cons, ih]
    congr 1
    unfold indented
    split
    · rename_i h; rw [h]; simp
    · rw [List.drop_left' (by simp)]

private theorem trim_self {Y : List Str} (h1 : ∀ l, Y.head? = some l → l ≠ [])
    (h2 : ∀ l, Y.getLast? = some l → l ≠ []) (k : Nat) (k' : Nat) :
    trim (List.replicate k [] ++ (Y ++ List.replicate k' [])) = Y ∨ Y = [] := by
  by_cases hY : Y = []
  · exact .inr hY
  left
  unfold trim
  rw [List.reverse_append, List.reverse_append, List.reverse_replicate, List.reverse_replicate]
  have e1 : ∀ (j : Nat) (Z : List Str), Z ≠ [] → (∀ l, Z.head? = some l → l ≠ []) →
      (List.replicate j [] ++ Z).dropWhile List.isEmpty = Z := by
    intro j Z hZ hh
    induction j with
    | zero =>
      cases Z with
      | nil => exact absurd rfl hZ
      | cons z Z =>
        rw [List.replicate_zero, List.nil_append, List.dropWhile_cons, if_neg]
        have := hh z rfl
        simpa using this
    | succ j ih => rw [List.replicate_succ, List.cons_append, List.dropWhile_cons, if_pos (by rfl), ih]
  rw [List.append_assoc, e1 k' _ (by simp [hY])]
  · rw [List.reverse_append, List.reverse_replicate, List.reverse_reverse, e1 k Y hY h1]
  · intro l hl
    cases hr : Y.reverse with
    | nil => exact absurd (List.reverse_eq_nil_iff.1 hr) hY
    | cons z Z =>
      rw [hr] at hl
      refine h2 l ?_
      rw [← List.head?_reverse, hr]
      exact hl

private theorem plain_nl {l : Str} (h : Plain l) : '\n' ∉ l := fun hm =>
  absurd (h _ hm).1 (by decide)

private theorem plain_spaces (n : Nat) : Plain (List.replicate n ' ') := by
  intro c hc
  rw [List.eq_of_mem_replicate hc]
  decide

private theorem plain_indented {n : Nat} {l : Str} (h : Plain l) : Plain (indented n l) := by
  unfold indented
  split
  · simp [Plain]
  · intro c hc
    rcases List.mem_append.1 hc with hc | hc
    · exact plain_spaces n c hc
    · exact h c hc

/-- The lines with the help line and the others, as they are meant. -/
private theorem clean_lines {help : Str} {rest : List Str} {doc : Str} (hw : Written help rest doc)
    (hh : Flush help) (hp : ∀ l ∈ help :: rest, Plain l) (hr : rest ≠ [] → ∃ l ∈ rest, Flush l)
    (hl : ∀ l, (help :: rest).getLast? = some l → l ≠ []) :
    cleandoc doc = joinWith '\n' (help :: rest) := by
  have hne : help ≠ [] := by
    obtain ⟨c, s, rfl, -⟩ := hh
    simp
  have split : ∀ ps : List Str, ps ≠ [] → (∀ l ∈ ps, Plain l) →
      splitOn '\n' (expandTabs 0 (joinWith '\n' ps)) = ps := by
    intro ps h0 h1
    rw [expand_id]
    · exact split_join h0 fun p hp => plain_nl (h1 p hp)
    · intro hm
      rcases mem_join hm with h | ⟨p, hp, h⟩
      · exact absurd h (by decide)
      · exact (h1 p hp _ h).2 rfl
  have hhead : ∀ l, (help :: rest).head? = some l → l ≠ [] := by
    intro l hl
    injection hl with hl
    rw [← hl]
    exact hne
  cases hw with
  | one =>
    have := split [help] (by simp) (by simpa using hp)
    unfold cleandoc
    rw [show joinWith '\n' [help] = help from rfl] at this
    rw [this]
    dsimp only [List.foldl_nil]
    rw [lstrip_flush hh]
    rcases trim_self hhead hl 0 0 with h | h
    · simpa using congrArg (joinWith '\n') h
    · simp at h
  | first n m _ h0 hmn =>
    unfold cleandoc
    rw [split _ (by simp) ?_]
    · dsimp only
      rw [List.foldl_append, List.foldl_cons, List.foldl_nil,
        (margin_fold rest none (fun k hk => absurd hk (by simp))).2 (hr h0), narrow_blank]
      dsimp only
      rw [List.map_append, drop_indented, lstrip_flush hh, List.map_singleton,
        List.drop_eq_nil_of_le (by simpa using hmn)]
      rcases trim_self hhead hl 0 1 with h | h
      · simpa using congrArg (joinWith '\n') h
      · simp at h
    · intro l hm
      rcases List.mem_cons.1 hm with rfl | hm
      · exact hp _ (by simp)
      · rcases List.mem_append.1 hm with hm | hm
        · obtain ⟨x, hx, rfl⟩ := List.mem_map.1 hm
          exact plain_indented (hp x (by simp [hx]))
        · rw [List.mem_singleton.1 hm]
          exact plain_spaces m
  | below n m _ hmn =>
    unfold cleandoc
    rw [split _ (by simp) ?_]
    · dsimp only
      rw [List.foldl_append, List.foldl_cons, List.foldl_nil,
        (margin_fold (help :: rest) none (fun k hk => absurd hk (by simp))).2 ⟨help, by simp, hh⟩,
        narrow_blank]
      dsimp only
      rw [List.map_append, drop_indented, List.map_singleton,
        List.drop_eq_nil_of_le (by simpa using hmn)]
      rcases trim_self hhead hl 1 1 with h | h
      · simpa [lstrip] using congrArg (joinWith '\n') h
      · simp at h
    · intro l hm
      rcases List.mem_cons.1 hm with rfl | hm
      · simp [Plain]
      · rcases List.mem_append.1 hm with hm | hm
        · obtain ⟨x, hx, rfl⟩ := List.mem_map.1 hm
          exact plain_indented (hp x hx)
        · rw [List.mem_singleton.1 hm]
          exact plain_spaces m

private theorem plain_mark : Plain mark := by
  unfold Plain mark
  decide

private theorem split_first {a b : Str} (h : ¬ mark <:+: a) :
    splitFirst mark (a ++ '\n' :: (mark ++ b)) = some (a ++ ['\n'], b) ∧
      splitFirst mark (mark ++ b) = some ([], b) ∧ splitFirst mark a = none := by
  have hm : mark ≠ [] := by decide
  have h2 : splitFirst mark (mark ++ b) = some ([], b) := by
    obtain ⟨c, s, hs⟩ := List.exists_cons_of_ne_nil hm
    have : splitFirst mark ((c :: s) ++ b) = some ([], b) := by
      rw [List.cons_append, splitFirst, if_pos]
      · rw [← List.cons_append, ← hs, List.drop_left]
      · rw [List.isPrefixOf_iff_prefix, ← List.cons_append, ← hs]
        exact List.prefix_append _ _
    rw [← hs] at this
    exact this
  refine ⟨?_, h2, ?_⟩
  · induction a with
    | nil =>
      rw [List.nil_append, splitFirst, if_neg, h2]
      · rfl
      · rw [List.isPrefixOf_iff_prefix]
        rintro ⟨t, ht⟩
        have : mark.head? = some '\n' := by
          obtain ⟨c, s, hs⟩ := List.exists_cons_of_ne_nil hm
          rw [hs] at ht ⊢
          rw [List.cons_append] at ht
          injection ht with ht
          rw [ht]
          rfl
        exact absurd this (by decide)
    | cons c a ih =>
      rw [List.cons_append, splitFirst, if_neg, ih]
      · rfl
      · intro hi
        exact h (hi.trans (List.suffix_cons c a).isInfix)
      · rw [List.isPrefixOf_iff_prefix]
        intro hpre
        apply h
        have hnl : '\n' ∉ mark := by decide
        have hlen : mark.length ≤ (c :: a).length := by
          apply Classical.byContradiction
          intro hlt
          have hlt : (c :: a).length < mark.length := by omega
          obtain ⟨t, ht⟩ := hpre
          have e1 : (mark ++ t)[(c :: a).length]? = some '\n' := by
            rw [ht, ← List.cons_append, List.getElem?_append_right (by simp)]
            simp
          rw [List.getElem?_append_left hlt] at e1
          exact hnl (List.mem_of_getElem? e1)
        have : mark <+: c :: a := by
          rw [← List.cons_append] at hpre
          exact List.prefix_of_prefix_length_le hpre (List.prefix_append _ _) hlen
        exact this.isInfix
  · induction a with
    | nil => rw [splitFirst, if_neg hm]
    | cons c a ih =>
      rw [splitFirst, if_neg, ih]
      · rfl
      · intro hi
        exact h (hi.trans (List.suffix_cons c a).isInfix)
      · rw [List.isPrefixOf_iff_prefix]
        exact fun hp => h hp.isInfix

private theorem block_ne {ls : List Str} (h : Block ls) : ls ≠ [] := by
  obtain ⟨-, ⟨c, s, h, -⟩, -⟩ := h
  rintro rfl
  simp at h

private theorem block_flush {ls : List Str} (h : Block ls) : ∃ l ∈ ls, Flush l := by
  obtain ⟨-, ⟨c, s, h, hc⟩, -⟩ := h
  exact ⟨c :: s, List.mem_of_head? h, c, s, rfl, hc⟩

private theorem block_last {ls : List Str} (h : Block ls) (pre : List Str) :
    ∀ l, (pre ++ ls).getLast? = some l → l ≠ [] := by
  obtain ⟨-, -, ⟨c, s, hl, -⟩⟩ := h
  intro l h
  rw [List.getLast?_append, hl] at h
  simp only [Option.some_or, Option.some.injEq] at h
  rw [← h]
  simp

private theorem block_strip {ls : List Str} (h : Block ls) : strip (joinWith '\n' ls) = joinWith '\n' ls := by
  obtain ⟨-, ⟨c, s, hh, hc⟩, ⟨d, t, hl, hd⟩⟩ := h
  have h1 : ∃ r, joinWith '\n' ls = c :: r := by
    cases ls with
    | nil => simp at hh
    | cons l ls =>
      simp only [List.head?_cons, Option.some.injEq] at hh
      subst hh
      cases ls with
      | nil => exact ⟨s, rfl⟩
      | cons q qs => exact ⟨_, by rw [joinWith_cons _ _ (by simp)]; rfl⟩
  have h2 : ∃ r, joinWith '\n' ls = r ++ [d] := by
    rcases List.eq_nil_or_concat ls with rfl | ⟨A, x, rfl⟩
    · simp at hl
    · simp only [List.concat_eq_append, List.getLast?_concat, Option.some.injEq] at hl
      subst hl
      exact ⟨_, by rw [List.concat_eq_append, join_snoc, ← List.append_assoc]⟩
  obtain ⟨r1, e1⟩ := h1
  obtain ⟨r2, e2⟩ := h2
  rw [strip_eq_self]
  constructor
  · intro x hx
    rw [e1] at hx
    simp only [List.head?_cons, Option.some.injEq] at hx
    rw [← hx]
    exact hc
  · intro x hx
    rw [e2] at hx
    simp only [List.getLast?_concat, Option.some.injEq] at hx
    rw [← hx]
    exact hd

private theorem nl_space {n : Nat} : ∀ c ∈ List.replicate n '\n', isSpace c = true := by
  intro c hc
  rw [List.eq_of_mem_replicate hc]
  decide

/-- Everything about the lines after the help line. -/
private theorem parts_spec {rest : List Str} {d : Str} {e : Option Str} (h : Parts rest d e) :
    (∀ l ∈ rest, Plain l) ∧ (rest ≠ [] → ∃ l ∈ rest, Flush l) ∧
    (∀ x : Str, x ≠ [] → ∀ l, (x :: rest).getLast? = some l → l ≠ []) ∧
    ((splitFirst mark (joinWith '\n' rest) = none ∧ strip (joinWith '\n' rest) = d ∧ e = none) ∨
      ∃ a b, splitFirst mark (joinWith '\n' rest) = some (a, b) ∧ strip a = d ∧ e = some (strip b)) := by
  have hblank : ∀ (a : Nat) (l : Str), l ∈ List.replicate a [] → Plain l := by
    intro a l hl
    rw [List.eq_of_mem_replicate hl]
    simp [Plain]
  have hmf : Flush mark := ⟨'@', "EPILOG@".toList, by decide, by decide⟩
  have noblank : ∀ (a : Nat) (s : Str), ¬ mark <:+: s → ¬ mark <:+: List.replicate a '\n' ++ s := by
    intro a s hs
    induction a with
    | zero => exact hs
    | succ a ih =>
      rintro hi
      rw [List.replicate_succ, List.cons_append, List.infix_cons_iff] at hi
      rcases hi with hi | hi
      · obtain ⟨t, ht⟩ := hi
        have : mark.head? = some '\n' := by
          obtain ⟨c, s, hs⟩ := List.exists_cons_of_ne_nil (show mark ≠ [] by decide)
          rw [hs] at ht ⊢
          rw [List.cons_append] at ht
          injection ht with ht
          rw [ht]
          rfl
        exact absurd this (by decide)
      · exact ih hi
  have noend : ∀ (s : Str) (b : Nat), ¬ mark <:+: s → ¬ mark <:+: s ++ List.replicate b '\n' := by
    intro s b hs
    have key : ¬ mark.reverse <:+: (s ++ List.replicate b '\n').reverse := by
      rw [List.reverse_append, List.reverse_replicate]
      have hs' : ¬ mark.reverse <:+: s.reverse := by rwa [List.reverse_infix]
      induction b with
      | zero => exact hs'
      | succ b ih =>
        intro hi
        rw [List.replicate_succ, List.cons_append, List.infix_cons_iff] at hi
        rcases hi with hi | hi
        · obtain ⟨t, ht⟩ := hi
          have : mark.reverse.head? = some '\n' := by
            obtain ⟨c, s, hs⟩ := List.exists_cons_of_ne_nil (show mark.reverse ≠ [] by decide)
            rw [hs] at ht ⊢
            rw [List.cons_append] at ht
            injection ht with ht
            rw [ht]
            rfl
          exact absurd this (by decide)
        · exact ih hi
    rwa [List.reverse_infix] at key
  have gap : ∀ b (s : Str), List.replicate (b + 1) '\n' ++ s = List.replicate b '\n' ++ '\n' :: s := by
    intro b s
    rw [List.replicate_succ', List.append_assoc]
    rfl
  cases h with
  | nothing =>
    refine ⟨by simp, by simp, ?_, .inl ⟨by decide, by decide, rfl⟩⟩
    intro x hx l hl
    simp only [List.getLast?_singleton, Option.some.injEq] at hl
    rw [← hl]
    exact hx
  | description a ls hb hn =>
    refine ⟨?_, fun _ => ?_, fun x _ => ?_, .inl ⟨?_, ?_, rfl⟩⟩
    · intro l hl
      rcases List.mem_append.1 hl with hl | hl
      · exact hblank a l hl
      · exact hb.1 l hl
    · obtain ⟨l, hl, hf⟩ := block_flush hb
      exact ⟨l, by simp [hl], hf⟩
    · have := block_last hb (x :: List.replicate a [])
      simpa using this
    · rw [join_blank a (block_ne hb)]
      exact (split_first (b := []) (noblank a _ hn)).2.2
    · rw [join_blank a (block_ne hb)]
      have := Packaging.strip_around (w := List.replicate a '\n') (d := joinWith '\n' ls) (w' := [])
        nl_space (by simp)
      rw [List.append_nil] at this
      rw [this, block_strip hb]
  | epilog a c es hb =>
    refine ⟨?_, fun _ => ⟨mark, by simp, hmf⟩, fun x _ => ?_, .inr ⟨List.replicate a '\n',
      '\n' :: joinWith '\n' (List.replicate c [] ++ es), ?_, ?_, ?_⟩⟩
    · intro l hl
      simp only [List.mem_append, List.mem_cons] at hl
      rcases hl with hl | rfl | hl | hl
      · exact hblank a l hl
      · exact plain_mark
      · exact hblank c l hl
      · exact hb.1 l hl
    · have := block_last hb (x :: (List.replicate a [] ++ mark :: List.replicate c []))
      simpa using this
    · rw [join_mark a (by simp [block_ne hb])]
      cases a with
      | zero =>
        exact (split_first (a := []) (by decide)).2.1
      | succ a =>
        have h0 := noblank a [] (by decide)
        rw [List.append_nil] at h0
        rw [gap, (split_first h0).1, List.replicate_succ']
    · have := Packaging.strip_around (w := List.replicate a '\n') (d := []) (w' := []) nl_space (by simp)
      simpa [strip, lstrip, rstrip] using this
    · rw [join_blank c (block_ne hb)]
      have := Packaging.strip_around (w := List.replicate (c + 1) '\n') (d := joinWith '\n' es) (w' := [])
        nl_space (by simp)
      rw [List.append_nil, block_strip hb, List.replicate_succ, List.cons_append] at this
      rw [this]
  | both a b c ls es hl hn hb =>
    refine ⟨?_, fun _ => ⟨mark, by simp, hmf⟩, fun x _ => ?_, .inr
      ⟨List.replicate a '\n' ++ joinWith '\n' ls ++ List.replicate (b + 1) '\n',
      '\n' :: joinWith '\n' (List.replicate c [] ++ es), ?_, ?_, ?_⟩⟩
    · intro l hm
      simp only [List.mem_append, List.mem_cons] at hm
      rcases hm with hm | hm | hm | rfl | hm | hm
      · exact hblank a l hm
      · exact hl.1 l hm
      · exact hblank b l hm
      · exact plain_mark
      · exact hblank c l hm
      · exact hb.1 l hm
    · have := block_last hb (x :: (List.replicate a [] ++ (ls ++ (List.replicate b [] ++
        mark :: List.replicate c []))))
      simpa using this
    · rw [join_blank a (by simp [block_ne hl]), join_append (block_ne hl) (by simp),
        join_mark b (by simp [block_ne hb])]
      have := (split_first (b := '\n' :: joinWith '\n' (List.replicate c [] ++ es))
        (noend _ b (noblank a _ hn))).1
      rw [List.replicate_succ', ← List.append_assoc (List.replicate a '\n' ++ joinWith '\n' ls), ← this]
      congr 1
      have e : '\n' :: (List.replicate b '\n' ++
          (mark ++ '\n' :: joinWith '\n' (List.replicate c [] ++ es))) =
          List.replicate b '\n' ++ '\n' :: (mark ++ '\n' :: joinWith '\n' (List.replicate c [] ++ es)) := by
        rw [← gap]
        rfl
      rw [e]
      simp only [List.append_assoc]
    · rw [Packaging.strip_around nl_space nl_space, block_strip hl]
    · rw [join_blank c (block_ne hb)]
      have := Packaging.strip_around (w := List.replicate (c + 1) '\n') (d := joinWith '\n' es) (w' := [])
        nl_space (by simp)
      rw [List.append_nil, block_strip hb, List.replicate_succ, List.cons_append] at this
      rw [this]

/-- C125, texts: a command whose (translated) docstring is written with a help line, a description and
an epilog shows exactly these, however far the docstring is indented, however many blank lines there
are, and wherever the help line is. -/
theorem C125_texts (tr : Str → Str) (c : Command) (source doc help d : Str) (rest : List Str)
    (e : Option Str) (hs : c.doc = some source) (ht : tr source = doc) (hw : Written help rest doc)
    (hh : Block [help]) (hp : Parts rest d e) :
    (c.help = none → commandHelp tr c = some help) ∧
    (c.description = none → commandDescription tr c = some d) ∧
    (c.epilog = none → commandEpilog tr c = e) := by
  obtain ⟨p1, p2, p3, p4⟩ := parts_spec hp
  have hf : Flush help := by
    obtain ⟨x, s, h, hx⟩ := hh.2.1
    simp only [List.head?_cons, Option.some.injEq] at h
    exact ⟨x, s, h, hx⟩
  have hne : help ≠ [] := by
    obtain ⟨x, s, rfl, -⟩ := hf
    simp
  have hpl : ∀ l ∈ help :: rest, Plain l := by
    intro l hl
    rcases List.mem_cons.1 hl with rfl | hl
    · exact hh.1 _ (by simp)
    · exact p1 l hl
  have hdoc : docstring tr c = some (joinWith '\n' (help :: rest)) := by
    unfold docstring
    rw [hs, Option.map_some, ht, clean_lines hw hf hpl p2 (p3 help hne)]
  have hlines : splitLines (joinWith '\n' (help :: rest)) = help :: rest := by
    obtain ⟨A, x, hA⟩ : ∃ A x, help :: rest = A ++ [x] := by
      rcases List.eq_nil_or_concat (help :: rest) with h | ⟨A, x, h⟩
      · simp at h
      · exact ⟨A, x, by rw [h, List.concat_eq_append]⟩
    have hx : x ≠ [] := p3 help hne x (by rw [hA, List.getLast?_concat])
    rw [hA, join_snoc]
    refine splitLines_join (fun p hp c hc => ?_) hx
    rw [← hA] at hp
    exact (hpl p hp c hc).1
  have hbody : body (joinWith '\n' (help :: rest)) = joinWith '\n' rest := by
    unfold body
    rw [hlines]
    rfl
  refine ⟨fun h => ?_, fun h => ?_, fun h => ?_⟩
  · simp only [commandHelp, h, hdoc, Option.bind_some, hlines, List.head?_cons]
  · simp only [commandDescription, h, hdoc, Option.map_some, hbody]
    rcases p4 with ⟨q1, q2, q3⟩ | ⟨a, b, q1, q2, q3⟩
    · rw [show splitFirst "@EPILOG@".toList (joinWith '\n' rest) = none from q1]
      dsimp only
      rw [q2]
    · rw [show splitFirst "@EPILOG@".toList (joinWith '\n' rest) = some (a, b) from q1]
      dsimp only
      rw [q2]
  · simp only [commandEpilog, h, hdoc, Option.bind_some, hbody]
    rcases p4 with ⟨q1, q2, q3⟩ | ⟨a, b, q1, q2, q3⟩
    · rw [show splitFirst "@EPILOG@".toList (joinWith '\n' rest) = none from q1]
      exact q3.symm
    · rw [show splitFirst "@EPILOG@".toList (joinWith '\n' rest) = some (a, b) from q1]
      exact q3.symm

/-- A docstring as in the program. -/
def exDoc : Str := "
    install this provider

    Copies everything
      to its place.

    @EPILOG@

    Layouts:
    flat
    ".toList

example : Written "install this provider".toList
    (List.replicate 1 [] ++ (["Copies everything".toList, "  to its place.".toList] ++
      (List.replicate 1 [] ++ mark :: (List.replicate 1 [] ++ ["Layouts:".toList, "flat".toList])))) exDoc := by
  have h : exDoc = joinWith '\n' ([] :: (("install this provider".toList ::
    (List.replicate 1 [] ++ (["Copies everything".toList, "  to its place.".toList] ++
      (List.replicate 1 [] ++ mark :: (List.replicate 1 [] ++ ["Layouts:".toList, "flat".toList]))))).map
      (indented 4) ++ [List.replicate 4 ' '])) := by decide +kernel
  rw [h]
  exact .below 4 4 _ (by decide)

example : Parts (List.replicate 1 [] ++ (["Copies everything".toList, "  to its place.".toList] ++
      (List.replicate 1 [] ++ mark :: (List.replicate 1 [] ++ ["Layouts:".toList, "flat".toList]))))
    "Copies everything\n  to its place.".toList (some "Layouts:\nflat".toList) := by
  refine .both 1 1 1 ["Copies everything".toList, "  to its place.".toList] ["Layouts:".toList, "flat".toList]
    ⟨?_, ⟨'C', _, rfl, by decide⟩, ⟨'.', "  to its place".toList, by decide, by decide⟩⟩ ?_
    ⟨?_, ⟨'L', _, rfl, by decide⟩, ⟨'t', "fla".toList, by decide, by decide⟩⟩
  · unfold Plain; decide +kernel
  · decide +kernel
  · unfold Plain; decide +kernel

/-- C125, attributes: what is set on the class is shown as it is, and a class without a docstring has no
texts of its own (a docstring is not inherited). -/
theorem C125_attributes (tr : Str → Str) (c : Command) :
    (∀ n, c.name = some n → commandName c = n) ∧
    (∀ h, c.help = some h → commandHelp tr c = some h) ∧
    (∀ d, c.description = some d → commandDescription tr c = some d) ∧
    (∀ e, c.epilog = some e → commandEpilog tr c = some e) ∧
    (c.doc = none → commandHelp tr c = c.help ∧ commandDescription tr c = c.description ∧
      commandEpilog tr c = c.epilog) := by
  refine ⟨?_, ?_, ?_, ?_, ?_⟩
  · intro n h; simp [commandName, h]
  · intro n h; simp [commandHelp, h]
  · intro n h; simp [commandDescription, h]
  · intro n h; simp [commandEpilog, h]
  · intro h
    refine ⟨?_, ?_, ?_⟩
    · cases h' : c.help <;> simp [commandHelp, h', docstring, h]
    · cases h' : c.description <;> simp [commandDescription, h', docstring, h]
    · cases h' : c.epilog <;> simp [commandEpilog, h', docstring, h]

/-! ## Names -/

private theorem replace_end (base : Str) (h : ¬ "command".toList <:+: base) (fuel : Nat)
    (hf : base.length < fuel) : Export.replaceAll "command".toList [] fuel (base ++ "command".toList) = base := by
  induction base generalizing fuel with
  | nil =>
    cases fuel with
    | zero => simp at hf
    | succ n =>
      have e : ([] ++ "command".toList : Str) = 'c' :: "ommand".toList := by decide
      rw [e, Export.replaceAll, if_pos (by decide)]
      have e' : ('c' :: "ommand".toList : Str).drop "command".toList.length = [] := by decide
      rw [e', Sibling.replaceAll_nil]
      rfl
  | cons c s ih =>
    cases fuel with
    | zero => simp at hf
    | succ n =>
      rw [List.cons_append, Export.replaceAll, if_neg, ih]
      · intro hi
        exact h (hi.trans (List.suffix_cons c s).isInfix)
      · simp only [List.length_cons] at hf
        omega
      · rw [List.isPrefixOf_iff_prefix]
        rintro hpre
        by_cases hlen : "command".toList.length ≤ (c :: s).length
        · apply h
          rw [← List.cons_append] at hpre
          exact (List.prefix_of_prefix_length_le hpre (List.prefix_append _ _) hlen).isInfix
        · have hk : (c :: s).length < 7 := by
            have : "command".toList.length = 7 := by decide
            omega
          rw [← List.cons_append] at hpre
          have h1 : (c :: s) <+: "command".toList :=
            List.prefix_of_prefix_length_le (List.prefix_append _ _) hpre (by
              have : "command".toList.length = 7 := by decide
              omega)
          have h2 : "command".toList.drop (c :: s).length <+: "command".toList := by
            obtain ⟨t, ht⟩ := h1
            obtain ⟨u, hu⟩ := hpre
            rw [← ht, List.drop_left]
            conv at hu => lhs; rw [← ht]
            rw [List.append_assoc] at hu
            exact ⟨u, by rw [List.append_cancel_left hu, ht]⟩
          have h3 : ∀ k : Nat, k < 7 → 0 < k → ¬ "command".toList.drop k <+: "command".toList := by decide
          exact h3 _ hk (by simp) h2

/-- C125, names, partial: a class `FooCommand` is the command `foo`, and a class whose name does not end
so is the command with its name in lower case.  Missing: names with the word in another place too
(`C125_name_violated`). -/
theorem C125_name_partial (c : Command) (hn : c.name = none) (base : Str) :
    (c.className = base ++ "Command".toList → ¬ "command".toList <:+: base.map Char.toLower →
      commandName c = base.map Char.toLower) ∧
    (¬ "command".toList <:+ c.className.map Char.toLower → commandName c = c.className.map Char.toLower) := by
  constructor
  · intro hc hb
    have e : lower c.className = base.map Char.toLower ++ "command".toList := by
      unfold lower
      rw [hc, List.map_append]
      congr 1
    unfold commandName
    rw [hn]
    dsimp only
    rw [e, if_pos]
    · exact replace_end _ hb _ (by simp)
    · rw [List.isSuffixOf_iff_suffix]
      exact List.suffix_append _ _
  · intro h
    unfold commandName
    rw [hn]
    dsimp only
    rw [if_neg]
    · rfl
    · rw [List.isSuffixOf_iff_suffix]
      exact h

example : commandName { className := "CheckConfigCommand".toList, doc := none } = "checkconfig".toList ∧
    ¬ "command".toList <:+: "CheckConfig".toList.map Char.toLower ∧
    commandName { className := "Foo".toList, doc := none } = "foo".toList := by
  decide +kernel

/-- C125 violated: two classes with different names are the same command, and a class `Command` has no
name at all. -/
theorem C125_name_violated :
    commandName { className := "CommandLineCommand".toList, doc := none } = "line".toList ∧
    commandName { className := "LineCommand".toList, doc := none } = "line".toList ∧
    commandName { className := "Command".toList, doc := none } = [] := by
  decide +kernel

/-! ## Extensions of manage.py -/

/-- C125, extensions: a class made from `ManageCommand` is added at the end; a class made from one of
the commands takes its place; anything else fails. -/
theorem C125_extend {C : Type} [DecidableEq C] (root : C) (cmds : List C) (base cls : C) :
    (base = root → extend root cmds base cls = .ok (cmds ++ [cls])) ∧
    (∀ pre post, base ≠ root → cmds = pre ++ base :: post → base ∉ pre →
      extend root cmds base cls = .ok (pre ++ cls :: post)) ∧
    (base ≠ root → base ∉ cmds → extend root cmds base cls = .error .valueError) := by
  refine ⟨?_, ?_, ?_⟩
  · intro h; simp [extend, h]
  · rintro pre post h rfl hp
    rw [extend, if_neg h, if_pos (by simp)]
    congr 1
    induction pre with
    | nil => simp
    | cons p pre ih =>
      simp only [List.mem_cons, not_or] at hp
      rw [List.cons_append, List.replace_cons, beq_false_of_ne hp.1, ih hp.2]
      rfl
  · intro h h'; simp [extend, h, h']

example : extend 0 [1, 2, 3] 2 7 = .ok [1, 7, 3] ∧ extend 0 [1, 2, 3] 0 7 = .ok [1, 2, 3, 7] := by decide

/-- What argparse is to know of a command: its name, and the texts that are set on the class or written in
the docstring; the epilog of the install command has the layouts filled in. -/
def Told (tr layouts : Str → Str) (c : Bool × Command) (x : Entry) : Prop :=
  (∀ n, c.2.name = some n → x.name = n) ∧
  (∀ h, c.2.help = some h → x.help = some h) ∧
  (∀ d, c.2.description = some d → x.description = some d) ∧
  (∀ e, c.2.epilog = some e → x.epilog = some (if c.1 then layouts e else e)) ∧
  ∀ source help d rest e, c.2.doc = some source → Written help rest (tr source) → Block [help] →
    Parts rest d e → (c.2.help = none → x.help = some help) ∧ (c.2.description = none → x.description = some d) ∧
      (c.2.epilog = none → x.epilog = e.map (if c.1 then layouts else fun s => s))

/-- C125, registration: when the commands are registered argparse is told, for every command in its place, what
is set on its class or written in its docstring. -/
theorem C125_registered (tr layouts : Str → Str) (cmds : List (Bool × Command)) (entries : List Entry)
    (h : register tr layouts cmds = .ok entries) : List.Forall₂ (Told tr layouts) cmds entries := by
  have one : ∀ c x, addSubcommand tr layouts c.1 c.2 = .ok x → Told tr layouts c x := by
    rintro ⟨b, c⟩ x h
    dsimp only at h
    have hx : x.name = commandName c ∧ x.help = commandHelp tr c ∧ x.description = commandDescription tr c ∧
        x.epilog = (commandEpilog tr c).map (if b then layouts else fun s => s) := by
      unfold addSubcommand at h
      cases b with
      | false =>
        rw [if_neg (by simp)] at h
        cases h
        exact ⟨rfl, rfl, rfl, by cases commandEpilog tr c <;> rfl⟩
      | true =>
        rw [if_pos rfl] at h
        cases he : commandEpilog tr c with
        | none => rw [he] at h; cases h
        | some e => rw [he] at h; cases h; exact ⟨rfl, rfl, rfl, rfl⟩
    obtain ⟨a1, a2, a3, a4, -⟩ := C125_attributes tr c
    obtain ⟨x1, x2, x3, x4⟩ := hx
    refine ⟨fun n h => x1.trans (a1 n h), fun n h => x2.trans (a2 n h), fun n h => x3.trans (a3 n h), ?_, ?_⟩
    · intro e h
      rw [x4, a4 e h]
      cases b <;> rfl
    · intro source help d rest e hs hw hh hp
      obtain ⟨t1, t2, t3⟩ := C125_texts tr c source _ help d rest e hs rfl hw hh hp
      exact ⟨fun h => x2.trans (t1 h), fun h => x3.trans (t2 h), fun h => by rw [x4, t3 h]⟩
  unfold register at h
  induction cmds generalizing entries with
  | nil =>
    rw [List.mapM_nil] at h
    cases h
    exact .nil
  | cons c cmds ih =>
    rw [List.mapM_cons] at h
    cases h1 : addSubcommand tr layouts c.1 c.2 with
    | error x => rw [h1] at h; cases h
    | ok x =>
      rw [h1] at h
      cases h2 : cmds.mapM (fun c => addSubcommand tr layouts c.1 c.2) with
      | error y =>
        rw [show (Except.ok x >>= fun y => List.mapM (fun c => addSubcommand tr layouts c.1 c.2) cmds >>=
          fun ys => pure (y :: ys)) = (List.mapM (fun c => addSubcommand tr layouts c.1 c.2) cmds >>=
          fun ys => pure (x :: ys)) from rfl, h2] at h
        cases h
      | ok l =>
        rw [show (Except.ok x >>= fun y => List.mapM (fun c => addSubcommand tr layouts c.1 c.2) cmds >>=
          fun ys => pure (y :: ys)) = (List.mapM (fun c => addSubcommand tr layouts c.1 c.2) cmds >>=
          fun ys => pure (x :: ys)) from rfl, h2] at h
        cases h
        exact .cons (one c x h1) (ih l h2)

example : register (fun s => s) (fun s => s ++ "!".toList)
    [(true, { className := "InstallCommand".toList, doc := some exDoc }),
     (false, { className := "SdistCommand".toList, doc := none, help := some "pack".toList })] =
    .ok [⟨"install".toList, some "install this provider".toList, some "Copies everything\n  to its place.".toList,
      some "Layouts:\nflat!".toList⟩, ⟨"sdist".toList, some "pack".toList, none, none⟩] := by decide +kernel

/-- C125 violated: a second extension of the same command fails, although the first was fine. -/
theorem C125_twice_violated :
    ∃ cmds, extend 0 [1, 2, 3] 2 7 = .ok cmds ∧ extend 0 cmds 2 8 = .error .valueError :=
  ⟨[1, 7, 3], by decide, by decide⟩

/-- C125 violated: with an extension of the install command whose docstring has no epilog, written as
the tests do it, no command of manage.py works any more; and the command would not be called
`install`. -/
theorem C125_install_violated :
    ∃ c : Command, c.doc = some "
            Improved version of an existing command
            ".toList ∧ commandName c = "betterinstall".toList ∧
      ∀ (tr layouts : Str → Str) (before after : List (Bool × Command)) , (∀ s, tr s = s) →
        ∃ x, register tr layouts (before ++ (true, c) :: after) = .error x := by
  refine ⟨{ className := "BetterInstallCommand".toList, doc := some _ }, rfl, by decide +kernel, ?_⟩
  intro tr layouts before after htr
  have htr : tr = fun s => s := funext htr
  subst htr
  have h0 : addSubcommand (fun s => s) layouts true { className := "BetterInstallCommand".toList, doc := some "
            Improved version of an existing command
            ".toList } = .error .typeError := by
    unfold addSubcommand
    rw [if_pos rfl, show commandEpilog (fun s => s) { className := "BetterInstallCommand".toList, doc := some "
            Improved version of an existing command
            ".toList } = none by decide +kernel]
  unfold register
  induction before with
  | nil => exact ⟨.typeError, by rw [List.nil_append, List.mapM_cons, h0]; rfl⟩
  | cons b before ih =>
    obtain ⟨x, hx⟩ := ih
    rw [List.cons_append, List.mapM_cons]
    cases hb : addSubcommand (fun s => s) layouts b.1 b.2 with
    | error y => exact ⟨y, rfl⟩
    | ok y => exact ⟨x, by rw [hx]; rfl⟩

end Verif.Help
