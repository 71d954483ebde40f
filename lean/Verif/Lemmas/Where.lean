import Verif.Model.Where
import Verif.Props.RFC822
import Verif.Lemmas.Words

/-! # Lemmas about lines of fields (C92) -/

namespace Verif.Where

open Verif.Text
open Verif.Words (Str Exc getToken nul)
open Verif.Origin (Origin)
open Verif.RFC822 (kind Kind Good gen normalize NLine sections numbered specRec collect fieldLines undot)

set_option linter.unusedSimpArgs false

/-! ## Lemmas: the first token of a line -/

theorem break_space {c : Char} (h : isSpace c = false) : isBreak c = false := by
  simp only [isSpace, isBreak, Bool.or_eq_false_iff, Bool.and_eq_false_iff, decide_eq_false_iff_not, Nat.not_le,
    beq_eq_false_iff_ne] at h ⊢
  omega

theorem first_token {t : Str} (ht : ∀ c ∈ t, isBreak c = false ∧ c ≠ nul) {x : Words.Tok × Option Str × Nat}
    (h : getToken t 0 = .ok x) : x.1 = .eof ↔ lstrip t = [] ∨ (lstrip t).head? = some '#' := by
  obtain ⟨w, r, rfl, hw, hr⟩ := Words.span_spec isSpace t
  have hl : lstrip (w ++ r) = r := by
    unfold lstrip
    exact (takeWhile_append_stop isSpace w r hw (by rintro c r' rfl; exact hr c rfl)).2
  rw [hl]
  have hs : ∀ r', Words.Skips r r' → Words.Skips (w ++ r) r' := by
    intro r' h'
    by_cases hwn : w = []
    · subst hwn; exact h'
    · exact .step (.space w r hwn hw hr) rfl h'
  have fin : ∀ r', Words.Skips r r' → Words.AtEnd r' → x.1 = .eof := by
    intro r' h1 h2
    obtain ⟨p, hp⟩ := Words.get_end (Words.At.self _) (hs _ h1) h2
    rw [hp] at h
    cases h
    rfl
  cases r with
  | nil => simp [fin [] (.refl _) (.inl rfl)]
  | cons d c =>
    have hd : isSpace d = false := hr d rfl
    have hdn : d ≠ nul := (ht d (by simp)).2
    by_cases hh : d = '#'
    · subst hh
      have : Words.Step ('#' :: c) .comment ('#' :: c) [] := by
        refine .commentEnd c ?_
        intro e he
        obtain ⟨h1, h2⟩ := ht e (by simp [he])
        refine ⟨?_, h2⟩
        rintro rfl
        exact absurd h1 (by decide)
      simp [fin [] (.step this rfl (.refl _)) (.inl rfl)]
    · have hne : x.1 ≠ .eof := by
        rcases Words.step_total (d :: c) with h1 | h1 | ⟨t', l, r', h1⟩
        · rcases h1 with h1 | ⟨r', h1⟩
          · cases h1
          · cases h1
            exact absurd rfl hdn
        · obtain ⟨p, -, -, -, hp⟩ := Words.get_open (Words.At.self _) (hs _ (.refl _)) h1
          rw [hp] at h
          split at h
          · cases h
          · cases h
            simp
        · have hi : t'.irrelevant = false := by
            cases ht' : t'.irrelevant with
            | false => rfl
            | true =>
              generalize hg : d :: c = y at h1
              cases h1 with
              | space _ r' hw1 hw2 _ =>
                cases l with
                | nil => exact absurd rfl hw1
                | cons a w' =>
                  rw [List.cons_append] at hg
                  cases hg
                  rw [hw2 d (by simp)] at hd
                  cases hd
              | commentNl w' r' _ => cases hg; exact absurd rfl hh
              | commentNul w' r' _ => cases hg; exact absurd rfl hh
              | commentEnd w' _ => cases hg; exact absurd rfl hh
              | _ => cases ht'
          obtain ⟨p, hp, -⟩ := Words.get_step (Words.At.self _) (hs _ (.refl _)) h1 hi
          rw [hp] at h
          cases h
          exact h1.not_eof.1
      simp [hne, hh]

/-! ## Lemmas: lines of a normalized value -/

theorem splitLines_cons {p r : Str} (h : ∀ c ∈ p, isBreak c = false) :
    splitLines (p ++ '\n' :: r) = p :: splitLines r := by
  unfold splitLines
  induction p with
  | nil => rw [List.nil_append, splitLines']; simp [show isBreak '\n' = true by decide]
  | cons c p ih =>
    have hc := h c (by simp)
    rw [List.cons_append, splitLines', ih (fun d hd => h d (by simp [hd]))]
    simp [hc]

theorem splitLines_one {p : Str} (h : ∀ c ∈ p, isBreak c = false) (hp : p ≠ []) : splitLines p = [p] := by
  unfold splitLines
  induction p with
  | nil => exact absurd rfl hp
  | cons c p ih =>
    have hc := h c (by simp)
    rw [splitLines']
    cases p with
    | nil => simp [hc, splitLines']
    | cons d p =>
      rw [ih (fun d hd => h d (by simp [hd])) (by simp)]
      simp [hc]

theorem splitLines_join {A : List Str} {x : Str} (hA : ∀ p ∈ A ++ [x], ∀ c ∈ p, isBreak c = false) (hx : x ≠ []) :
    splitLines ((A.map (· ++ ['\n'])).flatten ++ x) = A ++ [x] := by
  induction A with
  | nil => simpa using splitLines_one (hA x (by simp)) hx
  | cons p A ih =>
    have := splitLines_cons (p := p) (r := (A.map (· ++ ['\n'])).flatten ++ x) (hA p (by simp))
    simp only [List.map_cons, List.flatten_cons, List.append_assoc, List.cons_append, List.nil_append]
    rw [this, ih (fun q hq => hA q (by simp only [List.cons_append, List.mem_cons]; exact .inr hq))]

theorem join_snoc (A : List Str) (x : Str) : joinWith '\n' (A ++ [x]) = (A.map (· ++ ['\n'])).flatten ++ x := by
  induction A with
  | nil => rfl
  | cons p A ih =>
    rw [List.cons_append, joinWith_cons _ _ (by simp), ih]
    simp

theorem strip_lstrip (l : Str) : strip (lstrip l) = strip l := by
  unfold strip
  congr 1
  rw [lstrip_eq_self]
  intro c hc
  cases h : lstrip l with
  | nil => rw [h] at hc; cases hc
  | cons a r => rw [h] at hc; cases hc; exact dropWhile_head h

theorem lstrip_space_append {w l : Str} (h : ∀ c ∈ w, isSpace c = true) : lstrip (w ++ l) = lstrip l := by
  induction w with
  | nil => rfl
  | cons c w ih =>
    unfold lstrip at ih ⊢
    rw [List.cons_append, List.dropWhile_cons, if_pos (h c (by simp))]
    exact ih fun d hd => h d (by simp [hd])

theorem strip_space_append {w l : Str} (h : ∀ c ∈ w, isSpace c = true) : strip (w ++ l) = strip l := by
  unfold strip
  rw [lstrip_space_append h]

theorem strip_append_space {w l : Str} (h : ∀ c ∈ w, isSpace c = true) : strip (l ++ w) = strip l := by
  by_cases hl : ∀ c ∈ l, isSpace c = true
  · rw [strip_eq_nil.2 hl, strip_eq_nil]
    intro c hc
    rcases List.mem_append.1 hc with hc | hc
    · exact hl c hc
    · exact h c hc
  · unfold strip
    rw [lstrip_append_of_not_all hl, rstrip_append_space h]

theorem rstrip_not_all {l r : Str} (h : ¬ ∀ c ∈ r, isSpace c = true) : rstrip (l ++ r) = l ++ rstrip r := by
  unfold rstrip
  rw [List.reverse_append]
  have : ¬ ∀ c ∈ r.reverse, isSpace c = true := by simpa using h
  have := lstrip_append_of_not_all (r := l.reverse) this
  unfold lstrip at this
  rw [this]
  simp

theorem strip_rstrip (l : Str) : strip (rstrip l) = strip l := by
  have : ∃ w, l = rstrip l ++ w ∧ ∀ c ∈ w, isSpace c = true := by
    refine ⟨(l.reverse.takeWhile isSpace).reverse, ?_, ?_⟩
    · unfold rstrip
      rw [← List.reverse_append, List.takeWhile_append_dropWhile, List.reverse_reverse]
    · intro c hc
      exact mem_takeWhile (List.mem_reverse.1 hc)
  obtain ⟨w, hw, hs⟩ := this
  conv => rhs; rw [hw]
  exact (strip_append_space hs).symm

theorem lstrip_sub {l : Str} {c : Char} (h : c ∈ lstrip l) : c ∈ l := (List.dropWhile_suffix _).subset h

theorem rstrip_sub {l : Str} {c : Char} (h : c ∈ rstrip l) : c ∈ l := by
  unfold rstrip at h
  exact List.mem_reverse.1 ((List.dropWhile_suffix _).subset (List.mem_reverse.1 h))

/-- Lines up to the last one that is not blank. -/
theorem last_full (L : List Str) (h : ∃ l ∈ L, ¬ ∀ c ∈ l, isSpace c = true) :
    ∃ A x B, L = A ++ [x] ++ B ∧ (¬ ∀ c ∈ x, isSpace c = true) ∧ ∀ b ∈ B, ∀ c ∈ b, isSpace c = true := by
  induction L with
  | nil => obtain ⟨l, hl, -⟩ := h; cases hl
  | cons y L ih =>
    by_cases hL : ∃ l ∈ L, ¬ ∀ c ∈ l, isSpace c = true
    · obtain ⟨A, x, B, rfl, h1, h2⟩ := ih hL
      exact ⟨y :: A, x, B, rfl, h1, h2⟩
    · obtain ⟨l, hl, hn⟩ := h
      rcases List.mem_cons.1 hl with rfl | hl
      · refine ⟨[], l, L, rfl, hn, ?_⟩
        intro b hb
        apply Classical.byContradiction
        intro hb'
        exact hL ⟨b, hb, hb'⟩
      · exact absurd ⟨l, hl, hn⟩ hL

theorem lines_strip {f : Str} {rest : List Str} (hb : ∀ l ∈ f :: rest, ∀ c ∈ l, isBreak c = false)
    (hf : ¬ ∀ c ∈ f, isSpace c = true) :
    ∃ m, (∀ l ∈ splitLines (strip (joinWith '\n' (f :: rest))), ∃ l' ∈ f :: rest, ∀ c ∈ l, c ∈ l') ∧
      (splitLines (strip (joinWith '\n' (f :: rest)))).map strip ++ List.replicate m [] = (f :: rest).map strip := by
  obtain ⟨A, x, B, hL, hx, hB⟩ := last_full (f :: rest) ⟨f, by simp, hf⟩
  have hspace : isSpace '\n' = true := by decide
  -- the text is the lines up to that one, and white space
  have hjoin : ∃ s, joinWith '\n' (f :: rest) = ((A.map (· ++ ['\n'])).flatten ++ x) ++ s ∧ ∀ c ∈ s, isSpace c = true := by
    rw [hL]
    clear hL
    induction B using List.reverseRecOn with
    | nil => exact ⟨[], by rw [List.append_nil, join_snoc, List.append_nil], by simp⟩
    | append_singleton B y ih =>
      obtain ⟨s, hs, hw⟩ := ih (fun b hb => hB b (by simp [hb]))
      refine ⟨s ++ '\n' :: y, ?_, ?_⟩
      · rw [← List.append_assoc, join_snoc]
        have e : ((A ++ [x] ++ B).map (· ++ ['\n'])).flatten = joinWith '\n' (A ++ [x] ++ B) ++ ['\n'] := by
          have : ∃ C z, A ++ [x] ++ B = C ++ [z] := by
            rcases List.eq_nil_or_concat (A ++ [x] ++ B) with h | ⟨C, z, h⟩
            · simp at h
            · exact ⟨C, z, by rw [h, List.concat_eq_append]⟩
          obtain ⟨C, z, hC⟩ := this
          rw [hC, join_snoc]
          simp
        rw [e, hs]
        simp
      · intro c hc
        rcases List.mem_append.1 hc with hc | hc
        · exact hw c hc
        · rcases List.mem_cons.1 hc with rfl | hc
          · exact hspace
          · exact hB y (by simp) c hc
  obtain ⟨s, hs, hw⟩ := hjoin
  have hfB : ((B.map strip) : List Str) = List.replicate B.length [] := by
    rw [List.eq_replicate_iff]
    refine ⟨by simp, ?_⟩
    intro b hb
    obtain ⟨b', hb', rfl⟩ := List.mem_map.1 hb
    exact strip_eq_nil.2 (hB b' hb')
  refine ⟨B.length, ?_⟩
  -- what is left of the text
  have hA : A = [] ∧ x = f ∨ ∃ A', A = f :: A' := by
    cases A with
    | nil => left; simp only [List.nil_append, List.cons_append, List.cons.injEq] at hL; exact ⟨rfl, hL.1.symm⟩
    | cons a A' => right; simp only [List.cons_append, List.cons.injEq] at hL; exact ⟨A', by rw [hL.1]⟩
  have hbx : ∀ c ∈ x, isBreak c = false := hb x (by rw [hL]; simp)
  have hbA : ∀ p ∈ A, ∀ c ∈ p, isBreak c = false := fun p hp => hb p (by rw [hL]; simp [hp])
  have hxr : rstrip x ≠ [] := by
    intro h
    apply hx
    have := strip_rstrip x
    rw [h] at this
    exact strip_eq_nil.1 this.symm
  rcases hA with ⟨rfl, rfl⟩ | ⟨A', rfl⟩
  · have e : strip (joinWith '\n' (x :: rest)) = strip x := by
      rw [hs]
      simp only [List.map_nil, List.flatten_nil, List.nil_append]
      exact strip_append_space hw
    have hne : strip x ≠ [] := fun h => hx (strip_eq_nil.1 h)
    have hsub : ∀ c ∈ strip x, c ∈ x := fun c hc => lstrip_sub (rstrip_sub hc)
    rw [e, splitLines_one (fun c hc => hbx c (hsub c hc)) hne]
    constructor
    · intro l hl
      rw [List.mem_singleton] at hl
      subst hl
      exact ⟨x, by simp, hsub⟩
    · rw [← hfB, hL]
      simp [strip_idem]
  · have e : strip (joinWith '\n' (f :: rest)) = (((lstrip f :: A').map (· ++ ['\n'])).flatten ++ rstrip x) := by
      rw [hs, strip_append_space hw]
      simp only [List.map_cons, List.flatten_cons, List.append_assoc]
      unfold strip
      rw [lstrip_append_of_not_all hf, ← List.append_assoc, ← List.append_assoc, rstrip_not_all hx]
      simp
    rw [e, splitLines_join (by
      intro p hp c hc
      simp only [List.cons_append, List.mem_cons, List.mem_append, List.not_mem_nil, or_false] at hp
      rcases hp with rfl | hp | rfl
      · exact hbA f (by simp) c (lstrip_sub hc)
      · exact hbA p (by simp [hp]) c hc
      · exact hbx c (rstrip_sub hc)) hxr]
    constructor
    · intro l hl
      simp only [List.cons_append, List.mem_cons, List.mem_append, List.not_mem_nil, or_false] at hl
      rcases hl with rfl | hl | rfl
      · exact ⟨f, by simp, fun c hc => lstrip_sub hc⟩
      · exact ⟨l, by rw [hL]; simp [hl], fun c hc => hc⟩
      · exact ⟨x, by rw [hL]; simp, fun c hc => rstrip_sub hc⟩
    · rw [← hfB, hL]
      simp [strip_lstrip, strip_rstrip]

theorem lcp_prefix : ∀ (a b : Str), ∀ c ∈ RFC822.lcp a b, c ∈ a
  | [], _, c, h => by rw [RFC822.lcp_nil] at h; cases h
  | x :: l, [], c, h => by simp [RFC822.lcp] at h
  | x :: l, y :: r, c, h => by
    rw [RFC822.lcp] at h
    split at h
    · rcases List.mem_cons.1 h with rfl | h
      · simp
      · exact List.mem_cons_of_mem _ (lcp_prefix l r c h)
    · cases h

theorem margin_space (ls : List Str) : ∀ c ∈ RFC822.margin ls, isSpace c = true := by
  have key : ∀ (is : List Str) (i : Str), (∀ c ∈ i, isSpace c = true) → ∀ c ∈ is.foldl RFC822.lcp i, isSpace c = true := by
    intro is
    induction is with
    | nil => intro i h; exact h
    | cons j is ih =>
      intro i h
      exact ih _ fun c hc => h c (lcp_prefix i j c hc)
  unfold RFC822.margin
  split
  · simp
  · next i is h =>
    refine key is i ?_
    intro c hc
    have : i ∈ (ls.filter fun l => !(l.all RFC822.isBlankChar)).map (·.takeWhile RFC822.isBlankChar) := by rw [h]; simp
    obtain ⟨l, -, rfl⟩ := List.mem_map.1 this
    exact RFC822.blank_isSpace (mem_takeWhile hc)

theorem dedent_strip (ls : List Str) : (RFC822.dedent ls).map strip = ls.map strip ∧
    (RFC822.dedent ls).length = ls.length ∧ ∀ l ∈ RFC822.dedent ls, l = [] ∨ ∃ l' ∈ ls, ∀ c ∈ l, c ∈ l' := by
  unfold RFC822.dedent
  dsimp only
  generalize hm : RFC822.margin (ls.map fun l => if l.all RFC822.isBlankChar then [] else l) = m
  have hsp : ∀ c ∈ m, isSpace c = true := by rw [← hm]; exact margin_space _
  refine ⟨?_, by simp, ?_⟩
  · rw [List.map_map, List.map_map]
    refine List.map_congr_left ?_
    intro l _
    simp only [Function.comp]
    have h1 : ∀ l : Str, strip (if m.isPrefixOf l then l.drop m.length else l) = strip l := by
      intro l
      split
      · next h =>
        obtain ⟨t, rfl⟩ := List.isPrefixOf_iff_prefix.1 h
        rw [List.drop_left, strip_space_append hsp]
      · rfl
    rw [h1]
    split
    · next h =>
      rw [eq_comm, strip_eq_nil.2 (fun c hc => RFC822.blank_isSpace (List.all_eq_true.1 h c hc))]
      rfl
    · rfl
  · intro l hl
    rw [List.map_map, List.mem_map] at hl
    obtain ⟨l', hl', rfl⟩ := hl
    simp only [Function.comp]
    by_cases h : l'.all RFC822.isBlankChar
    · rw [if_pos h]
      left
      split <;> simp
    · rw [if_neg h]
      right
      refine ⟨l', hl', ?_⟩
      split
      · intro c hc; exact (List.drop_suffix _ _).subset hc
      · intro c hc; exact hc


theorem undot_sub {u : Str} {c : Char} (h : c ∈ undot u) : c ∈ u := by
  unfold undot at h
  split at h
  · next w hw =>
    split at h
    · have : u = w.reverse ++ ['.'] := by rw [← List.reverse_reverse u, hw]; simp
      rw [this]
      simp at h ⊢
      exact .inl h
    · exact h
  · exact h

theorem count_flatten (us : List Str) (h : ∀ u ∈ us, '\n' ∉ u) :
    ((us.map (· ++ ['\n'])).flatten).count '\n' = us.length := by
  induction us with
  | nil => rfl
  | cons u us ih =>
    rw [List.map_cons, List.flatten_cons, List.count_append, List.count_append, ih (fun v hv => h v (by simp [hv])),
      List.count_eq_zero.2 (h u (by simp))]
    simp
    omega

/-- The lines of a normalized value of several lines. -/
theorem normalize_many {f g : Str} {rest : List Str} (hb : ∀ u ∈ f :: g :: rest, ∀ c ∈ u, isBreak c = false)
    (hf : ¬ ∀ c ∈ undot f, isSpace c = true) :
    ∃ m, (∀ l ∈ splitLines (normalize (((f :: g :: rest).map (· ++ ['\n'])).flatten)),
        ∀ c ∈ l, ∃ u ∈ f :: g :: rest, c ∈ u) ∧
      (splitLines (normalize (((f :: g :: rest).map (· ++ ['\n'])).flatten))).map strip ++ List.replicate m [] =
        (f :: g :: rest).map (fun u => strip (undot u)) ++ [[]] := by
  have hnl : ∀ u ∈ f :: g :: rest, '\n' ∉ u := by
    intro u hu h
    exact absurd (hb u hu _ h) (by decide)
  generalize hus : f :: g :: rest = us at *
  have hlen : 1 < us.length := by rw [← hus]; simp
  unfold normalize
  rw [count_flatten us hnl, if_pos hlen]
  have hsplit : splitOn '\n' ((us.map (· ++ ['\n'])).flatten) = us ++ [[]] := by
    have := join_snoc us []
    rw [List.append_nil] at this
    rw [← this]
    refine split_join (by simp) ?_
    intro p hp
    rcases List.mem_append.1 hp with hp | hp
    · exact hnl p hp
    · simp at hp; subst hp; simp
  rw [hsplit]
  obtain ⟨h1, h2, h3⟩ := dedent_strip ((us ++ [[]]).map undot)
  have hs0 : ∃ f' rest', RFC822.dedent ((us ++ [[]]).map undot) = f' :: rest' := by
    cases hd : RFC822.dedent ((us ++ [[]]).map undot) with
    | nil => rw [hd] at h2; simp at h2
    | cons f' rest' => exact ⟨f', rest', rfl⟩
  obtain ⟨f', rest', hd⟩ := hs0
  rw [hd] at h1 h3 ⊢
  have hf' : ¬ ∀ c ∈ f', isSpace c = true := by
    rw [← strip_eq_nil] at hf ⊢
    rw [← hus] at h1
    simp only [List.map_cons, List.cons_append, List.cons.injEq] at h1
    rw [h1.1]
    exact hf
  have hsub : ∀ l ∈ f' :: rest', ∀ c ∈ l, ∃ u ∈ us, c ∈ u := by
    intro l hl c hc
    rcases h3 l hl with rfl | ⟨l', hl', hs⟩
    · cases hc
    · obtain ⟨u, hu, rfl⟩ := List.mem_map.1 hl'
      rcases List.mem_append.1 hu with hu | hu
      · exact ⟨u, hu, undot_sub (hs c hc)⟩
      · simp at hu
        subst hu
        exact absurd (hs c hc) (by simp [undot])
  obtain ⟨m, h4, h5⟩ := lines_strip (f := f') (rest := rest') (by
    intro l hl c hc
    obtain ⟨u, hu, hcu⟩ := hsub l hl c hc
    exact hb u hu c hcu) hf'
  refine ⟨m, ?_, ?_⟩
  · intro l hl c hc
    obtain ⟨l', hl', hs⟩ := h4 l hl
    exact hsub l' hl' c (hs c hc)
  · rw [h5, h1]
    simp only [List.map_append, List.map_map]
    rfl

/-- The line of a normalized value of one line. -/
theorem normalize_one {f : Str} (hb : ∀ c ∈ f, isBreak c = false) (hf : ¬ ∀ c ∈ f, isSpace c = true) :
    splitLines (normalize (f ++ ['\n'])) = [strip f] := by
  have hnl : '\n' ∉ f := fun h => absurd (hb _ h) (by decide)
  have e : normalize (f ++ ['\n']) = strip f := by
    unfold normalize
    rw [if_neg (by rw [List.count_append, List.count_eq_zero.2 hnl]; simp)]
    exact strip_append_space (by simp; decide)
  rw [e]
  exact splitLines_one (fun c hc => hb c (lstrip_sub (rstrip_sub hc))) (fun h => hf (strip_eq_nil.1 h))

/-! ## Lemmas: the statements -/

theorem strip_head (t : Str) : (strip t).head? = (lstrip t).head? := by
  unfold strip
  cases h : lstrip t with
  | nil => rfl
  | cons c r =>
    have hc : isSpace c = false := dropWhile_head h
    have : rstrip (c :: r) = c :: rstrip r ∨ rstrip (c :: r) = [c] := by
      by_cases hr : ∀ d ∈ r, isSpace d = true
      · right
        have := rstrip_append_space (l := [c]) hr
        rw [List.singleton_append] at this
        rw [this, rstrip_eq_self]
        intro d hd
        simp at hd
        rw [← hd]
        exact hc
      · left
        exact rstrip_not_all (l := [c]) hr
    rcases this with h | h <;> rw [h] <;> rfl

/-- Numbered lines. -/
def num (n : Nat) (L : List Str) : List (Nat × Str) := (L.zipIdx n).map fun x => (x.2, x.1)

theorem num_cons (n : Nat) (x : Str) (L : List Str) : num n (x :: L) = (n, x) :: num (n + 1) L := by
  simp [num, List.zipIdx_cons]

theorem num_append (n : Nat) (A B : List Str) : num n (A ++ B) = num n A ++ num (n + A.length) B := by
  simp [num, List.zipIdx_append]

/-- Does a line hold a statement? -/
def holds (x : Nat × Str) : Bool := decide (x.2 ≠ [] ∧ x.2.head? ≠ some '#')

theorem num_blank (n m : Nat) : (num n (List.replicate m [])).filter holds = [] := by
  rw [List.filter_eq_nil_iff]
  intro x hx
  obtain ⟨y, hy, rfl⟩ := List.mem_map.1 hx
  have := (List.mem_zipIdx hy).2.2
  have h2 : y.1 = [] := by
    have hm : y.1 ∈ List.replicate m ([] : Str) := by
      rw [this]
      exact List.getElem_mem _
    exact (List.mem_replicate.1 hm).2
  simp [holds, h2]

theorem include_spec (ls : List Str) : ∀ (n : Nat) (es : List (Nat × Str)),
    (∀ l ∈ ls, ∀ c ∈ l, isBreak c = false ∧ c ≠ nul) → includeLoop n ls = .ok es →
    es.map (fun e => (e.1, strip e.2)) = (num n (ls.map strip)).filter holds := by
  induction ls with
  | nil =>
    intro n es _ h
    rw [includeLoop] at h
    rw [← Except.ok.inj h]
    rfl
  | cons l ls ih =>
    intro n es hl h
    rw [includeLoop] at h
    generalize ht : getToken l 0 = t at h
    unfold includeOne at h
    rcases t with e | x
    · simp at h
    · simp only at h
      have ih := ih (n + 1)
      generalize includeLoop (n + 1) ls = r at h ih
      rcases r with e | es'
      · simp at h
      · simp only [Except.ok.injEq] at h
        have ih := ih es' (fun l' h' => hl l' (by simp [h'])) rfl
        have hx := first_token (hl l (by simp)) ht
        have hx' : x.1 = .eof ↔ holds (n, strip l) = false := by
          rw [hx]
          simp only [holds, decide_eq_false_iff_not, strip_head]
          have : strip l = [] ↔ lstrip l = [] := by
            rw [← strip_lstrip]
            exact RFC822.value_blank l
          simp only [ne_eq, this]
          by_cases h1 : lstrip l = [] <;> by_cases h2 : (lstrip l).head? = some '#' <;> simp [h1, h2]
        rw [List.map_cons, num_cons]
        by_cases he : x.1 = .eof
        · rw [if_pos he] at h
          rw [← h, ih, List.filter_cons_of_neg (by rw [hx'.1 he]; simp)]
        · rw [if_neg he] at h
          have : holds (n, strip l) = true := by
            cases hh : holds (n, strip l) with
            | true => rfl
            | false => exact absurd (hx'.2 hh) he
          rw [← h, List.filter_cons_of_pos this, List.map_cons, ih]

/-! ## Lemmas: the record -/

/-- One step of `sections`. -/
def secStep (acc : List (List NLine) × List NLine) (x : NLine) : List (List NLine) × List NLine :=
  if x.2 = .blank then (acc.1 ++ [acc.2], []) else (acc.1, acc.2 ++ [x])

theorem fold_nonblank : ∀ (M : List NLine) (acc : List (List NLine) × List NLine), (∀ x ∈ M, x.2 ≠ .blank) →
    M.foldl secStep acc = (acc.1, acc.2 ++ M)
  | [], acc, _ => by simp
  | x :: M, acc, h => by
    rw [List.foldl_cons, fold_nonblank M _ (fun y hy => h y (by simp [hy])), secStep, if_neg (h x (by simp))]
    simp

theorem fold_old : ∀ (L : List NLine) (acc : List (List NLine) × List NLine) (p : List NLine), p ∈ acc.1 →
    p ∈ (L.foldl secStep acc).1
  | [], _, _, h => h
  | x :: L, acc, p, h => by
    rw [List.foldl_cons]
    refine fold_old L _ p ?_
    unfold secStep
    split
    · exact List.mem_append_left _ h
    · exact h

theorem fold_keeps : ∀ (L : List NLine) (acc : List (List NLine) × List NLine), ∃ D E, L = D ++ E ∧
    (∀ x ∈ D, x.2 ≠ .blank) ∧ acc.2 ++ D ∈ (L.foldl secStep acc).1 ++ [(L.foldl secStep acc).2]
  | [], acc => ⟨[], [], rfl, by simp, by simp⟩
  | x :: L, acc => by
    by_cases hx : x.2 = .blank
    · refine ⟨[], x :: L, rfl, by simp, ?_⟩
      rw [List.foldl_cons, List.append_nil]
      refine List.mem_append_left _ (fold_old L _ _ ?_)
      rw [secStep, if_pos hx]
      simp
    · obtain ⟨D, E, rfl, h1, h2⟩ := fold_keeps L (acc.1, acc.2 ++ [x])
      refine ⟨x :: D, E, rfl, ?_, ?_⟩
      · intro y hy
        rcases List.mem_cons.1 hy with rfl | hy
        · exact hx
        · exact h1 y hy
      · rw [List.foldl_cons, secStep, if_neg hx]
        simpa using h2

theorem collect_before : ∀ (A Q : List NLine), (collect Q).1 = [] →
    (collect (A ++ Q)).2 = (collect A).2 ++ (collect Q).2 ∧ (collect (A ++ Q)).1 = (collect A).1
  | [], Q, h => by simp [collect, h]
  | (n, kd) :: A, Q, h => by
    obtain ⟨h1, h2⟩ := collect_before A Q h
    cases kd <;> simp [collect, h1, h2]

theorem collect_conts : ∀ (C D : List NLine) (ts : List Str), C.map Prod.snd = ts.map Kind.cont →
    (collect (C ++ D)).1 = ts.flatten ++ (collect D).1 ∧ (collect (C ++ D)).2 = (collect D).2
  | [], D, [], _ => by simp
  | [], D, t :: ts, h => by cases h
  | (n, kd) :: C, D, [], h => by cases h
  | (n, kd) :: C, D, t :: ts, h => by
    simp only [List.map_cons, List.cons.injEq] at h
    obtain ⟨rfl, h⟩ := h
    obtain ⟨h1, h2⟩ := collect_conts C D ts h
    simp [collect, h1, h2]

theorem collect_ended : ∀ (D : List NLine), (∀ x ∈ D, x.2 ≠ .blank ∧ x.2 ≠ .junk) →
    (∀ cs l rest, D = cs ++ l :: rest → (∀ c ∈ cs, c.2 = .comment) → ∀ t, l.2 ≠ .cont t) → (collect D).1 = []
  | [], _, _ => rfl
  | (n, kd) :: D, h1, h2 => by
    have hh := h1 (n, kd) (by simp)
    cases kd with
    | field k v => simp [collect]
    | cont t => exact absurd rfl (h2 [] (n, .cont t) D rfl (by simp) t)
    | blank => exact absurd rfl hh.1
    | junk => exact absurd rfl hh.2
    | comment =>
      rw [collect]
      · refine collect_ended D (fun x hx => h1 x (by simp [hx])) ?_
        intro cs l rest he hc t
        refine h2 ((n, .comment) :: cs) l rest (by rw [he]; rfl) ?_ t
        intro c hc'
        rcases List.mem_cons.1 hc' with rfl | hc'
        · rfl
        · exact hc c hc'
      all_goals (intros; simp_all)

theorem lookup_middle {α : Type} (A B : List (Str × α)) (k : Str) (v : α) (h : k ∉ A.map (·.1)) :
    (A ++ (k, v) :: B).lookup k = some v := by
  induction A with
  | nil => simp
  | cons x A ih =>
    simp only [List.map_cons, List.mem_cons, not_or] at h
    rw [List.cons_append, List.lookup_cons]
    have : (k == x.1) = false := by simpa using h.1
    rw [this]
    exact ih h.2

end Verif.Where
