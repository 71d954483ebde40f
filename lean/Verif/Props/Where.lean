import Verif.Lemmas.Where

/-! # C92: origins name the line on which a statement was written -/

namespace Verif.Where

open Verif.Text
open Verif.Words (Str Exc getToken nul)
open Verif.Origin (Origin)
open Verif.RFC822 (kind Kind Good gen normalize NLine sections numbered specRec collect fieldLines undot)

set_option linter.unusedSimpArgs false

/-! ## Specification -/

/-- The characters at which `str.splitlines` ends a line. (specification) -/
def boundary (c : Char) : Bool :=
  c ∈ ['\n', '\x0b', '\x0c', '\r', '\x1c', '\x1d', '\x1e', '\u0085', '\u2028', '\u2029']

/-- A line that ends with a line feed and has no other line boundary, and no NUL. -/
def Plain (line : Str) : Prop := ∃ u, line = u ++ ['\n'] ∧ ∀ c ∈ u, boundary c = false ∧ c ≠ nul

theorem boundary_eq (c : Char) : boundary c = isBreak c := by
  have key : ∀ d : Char, c = d ↔ c.toNat = d.toNat := fun d =>
    ⟨fun h => by rw [h], fun h => Char.toNat_inj.1 h⟩
  rw [Bool.eq_iff_iff]
  simp only [boundary, isBreak, decide_eq_true_eq, List.mem_cons, List.not_mem_nil, or_false, key, Bool.or_eq_true,
    Bool.and_eq_true, beq_iff_eq]
  simp only [show '\n'.toNat = 10 from rfl, show '\x0b'.toNat = 11 from rfl, show '\x0c'.toNat = 12 from rfl,
    show '\r'.toNat = 13 from rfl, show '\x1c'.toNat = 28 from rfl, show '\x1d'.toNat = 29 from rfl,
    show '\x1e'.toNat = 30 from rfl, show '\u0085'.toNat = 0x85 from rfl, show '\u2028'.toNat = 0x2028 from rfl,
    show '\u2029'.toNat = 0x2029 from rfl]
  omega

theorem Plain.break {line : Str} (h : Plain line) : ∃ u, line = u ++ ['\n'] ∧ ∀ c ∈ u, isBreak c = false ∧ c ≠ nul := by
  simpa only [Plain, boundary_eq] using h

/-- No continuation line follows, also not after comments. -/
def Ended (post : List Str) : Prop :=
  ∀ cs l rest, post = cs ++ l :: rest → (∀ c ∈ cs, kind c = .comment) → ∀ t, kind l ≠ .cont t

/-- The text on the lines of a field that begins on line `n`, with the line numbers: what is behind the colon, and the
continuation lines. -/
def body (n : Nat) (v : Str) (conts : List Str) : List (Nat × Str) :=
  (if v = [] then [] else [(n, v)]) ++ conts.zipIdx.map fun c => (n + 1 + c.2, c.1.tail)

/-- What is left of a line without white space around it; a single dot stands for an empty line, unless it is the only
line. -/
def shown (only : Bool) (t : Str) : Str := if only = false ∧ lstrip t = ".\n".toList then [] else strip t

/-- The lines that hold something else than a comment. -/
def written (n : Nat) (v : Str) (conts : List Str) : List (Nat × Str) :=
  ((body n v conts).map fun x => (x.1, shown (decide ((body n v conts).length = 1)) x.2)).filter
    fun x => decide (x.2 ≠ [] ∧ x.2.head? ≠ some '#')

/-! ## Lemmas -/

/-- The texts of `body`. -/
def texts (v : Str) (conts : List Str) : List Str := (if v = [] then [] else [v]) ++ conts.map List.tail

theorem conts_num (n : Nat) (conts : List Str) (k : Nat) :
    ((conts.zipIdx k).map fun c => (n + c.2, c.1.tail)) = num (n + k) (conts.map List.tail) := by
  induction conts generalizing k with
  | nil => rfl
  | cons c conts ih => rw [List.zipIdx_cons, List.map_cons, List.map_cons, num_cons, ih]; rfl

theorem body_num (n : Nat) (v : Str) (conts : List Str) :
    body n v conts = num (if v = [] then n + 1 else n) (texts v conts) := by
  unfold body texts
  have := conts_num (n + 1) conts 0
  by_cases h : v = []
  · rw [if_pos h, if_pos h, if_pos h, List.nil_append, List.nil_append]
    exact this
  · rw [if_neg h, if_neg h, if_neg h, List.singleton_append, List.singleton_append, num_cons]
    rw [← Nat.add_zero (n + 1), ← this]

theorem num_map (f : Str → Str) (n : Nat) (L : List Str) :
    (num n L).map (fun x => (x.1, f x.2)) = num n (L.map f) := by
  induction L generalizing n with
  | nil => rfl
  | cons x L ih => rw [List.map_cons, num_cons, num_cons, List.map_cons, ih]

theorem num_length (n : Nat) (L : List Str) : (num n L).length = L.length := by simp [num]

theorem num_shift (a n : Nat) (L : List Str) : (num n L).map (fun x => (a + x.1, x.2)) = num (a + n) L := by
  induction L generalizing n with
  | nil => rfl
  | cons x L ih => rw [num_cons, num_cons, List.map_cons, ih]; rfl

theorem cont_text {c t : Str} (h : kind c = .cont t) (hp : Plain c) :
    t = c.tail ∧ ∃ u, c.tail = u ++ ['\n'] ∧ ∀ d ∈ u, isBreak d = false ∧ d ≠ nul := by
  unfold kind at h
  by_cases h1 : c.head? = some '#'
  · rw [if_pos h1] at h; cases h
  rw [if_neg h1] at h
  by_cases h2 : ∀ d ∈ c, isSpace d = true
  · rw [if_pos h2] at h; cases h
  rw [if_neg h2] at h
  by_cases h3 : c.head? = some ' '
  · rw [if_pos h3] at h
    cases h
    refine ⟨rfl, ?_⟩
    obtain ⟨u, rfl, hu⟩ := hp.break
    cases u with
    | nil => simp at h3
    | cons d u => exact ⟨u, rfl, fun e he => hu e (by simp [he])⟩
  · rw [if_neg h3] at h
    by_cases h4 : ':' ∈ c
    · rw [if_pos h4] at h; cases h
    · rw [if_neg h4] at h; cases h

theorem field_text {x k v : Str} (h : kind x = .field k v) (hp : Plain x) (hv : v ≠ []) :
    ∃ u, v = u ++ ['\n'] ∧ ∀ d ∈ u, isBreak d = false ∧ d ≠ nul := by
  unfold kind at h
  by_cases h1 : x.head? = some '#'
  · rw [if_pos h1] at h; cases h
  rw [if_neg h1] at h
  by_cases h2 : ∀ d ∈ x, isSpace d = true
  · rw [if_pos h2] at h; cases h
  rw [if_neg h2] at h
  by_cases h3 : x.head? = some ' '
  · rw [if_pos h3] at h; cases h
  rw [if_neg h3] at h
  by_cases h4 : ':' ∈ x
  · rw [if_pos h4] at h
    simp only [Kind.field.injEq] at h
    have hs : v <:+ x := by
      rw [← h.2]
      exact (List.dropWhile_suffix _).trans ((List.tail_suffix _).trans (List.dropWhile_suffix _))
    obtain ⟨u, rfl, hu⟩ := hp.break
    obtain ⟨p, hp⟩ := hs
    obtain ⟨v', d, rfl⟩ : ∃ v' d, v = v' ++ [d] :=
      ⟨v.dropLast, v.getLast hv, (List.dropLast_concat_getLast hv).symm⟩
    rw [← List.append_assoc] at hp
    obtain ⟨h5, h6⟩ := List.append_inj' hp rfl
    cases h6
    exact ⟨v', rfl, fun d hd => hu d (by rw [← h5]; simp [hd])⟩
  · rw [if_neg h4] at h; cases h

theorem shown_undot (u : Str) : shown false (u ++ ['\n']) = strip (undot u) := by
  unfold shown
  by_cases h : ∃ w, u = w ++ ['.'] ∧ ∀ c ∈ w, isSpace c = true
  · obtain ⟨w, rfl, hw⟩ := h
    rw [if_pos]
    · have : undot (w ++ ['.']) = w := by
        unfold undot
        rw [List.reverse_append]
        simp only [List.reverse_cons, List.reverse_nil, List.nil_append, List.singleton_append]
        rw [if_pos (by simpa using hw), List.reverse_reverse]
      rw [this, strip_eq_nil.2 hw]
    · refine ⟨rfl, ?_⟩
      rw [List.append_assoc, lstrip_space_append hw]
      decide
  · rw [RFC822.undot_of_faithful h, if_neg, strip_append_space (by simp; decide)]
    rintro ⟨_, hl⟩
    refine h ⟨(u ++ ['\n']).takeWhile isSpace, ?_, fun c hc => mem_takeWhile hc⟩
    have h2 := List.takeWhile_append_dropWhile (p := isSpace) (l := u ++ ['\n'])
    have h3 : (u ++ ['\n']).dropWhile isSpace = ['.'] ++ ['\n'] := hl
    rw [h3, ← List.append_assoc] at h2
    exact (List.append_inj' h2 rfl).1.symm

theorem shown_one (u : Str) : shown true (u ++ ['\n']) = strip u := by
  unfold shown
  rw [if_neg (by simp), strip_append_space (by simp; decide)]

/-- The statements of a value made of these lines. -/
theorem text_lines {us : List Str} (hu : ∀ u ∈ us, ∀ c ∈ u, isBreak c = false ∧ c ≠ nul)
    (h0 : ∀ u, us.head? = some u → shown (decide (us.length = 1)) (u ++ ['\n']) ≠ [])
    {es : List (Nat × Str)} (h : includeLines (normalize ((us.map (· ++ ['\n'])).flatten)) = .ok es) :
    es.map (fun e => (e.1, strip e.2)) =
      (num 0 ((us.map (· ++ ['\n'])).map (shown (decide (us.length = 1))))).filter holds := by
  unfold includeLines at h
  match us, hu, h0, h with
  | [], _, _, h =>
    have e : splitLines (normalize (([] : List Str).map (· ++ ['\n'])).flatten) = [] := by decide +kernel
    rw [e, includeLoop] at h
    rw [← Except.ok.inj h]
    rfl
  | [f], hu, h0, h =>
    have hf := h0 f rfl
    simp only [List.length_singleton, decide_true, shown_one] at hf
    rw [ne_eq, strip_eq_nil] at hf
    have e := normalize_one (fun c hc => (hu f (by simp) c hc).1) hf
    have e2 : ([f].map (· ++ ['\n'])).flatten = f ++ ['\n'] := by simp
    rw [e2, e] at h
    have := include_spec _ 0 es (by
      intro l hl c hc
      simp at hl
      subst hl
      exact hu f (by simp) c (lstrip_sub (rstrip_sub hc))) h
    rw [this]
    simp only [List.length_singleton, decide_true, List.map_cons, List.map_nil, shown_one]
    rw [strip_idem]
  | f :: g :: rest, hu, h0, h =>
    have hlen : decide ((f :: g :: rest).length = 1) = false := by simp
    have hf := h0 f rfl
    rw [hlen, shown_undot, ne_eq, strip_eq_nil] at hf
    obtain ⟨m, h1, h2⟩ := normalize_many (fun u hu' c hc => (hu u hu' c hc).1) hf
    have := include_spec _ 0 es (by
      intro l hl c hc
      obtain ⟨u, hu', hcu⟩ := h1 l hl c hc
      exact hu u hu' c hcu) h
    rw [this, hlen]
    have e : (f :: g :: rest).map (fun u => strip (undot u)) =
        ((f :: g :: rest).map (· ++ ['\n'])).map (shown false) := by
      rw [List.map_map]
      refine List.map_congr_left fun u _ => ?_
      exact (shown_undot u).symm
    rw [← e]
    have h3 := congrArg (fun L => (num 0 L).filter holds) h2
    simp only [num_append, List.filter_append, num_blank, List.append_nil] at h3
    rw [h3]
    have := num_blank (0 + ((f :: g :: rest).map (fun u => strip (undot u))).length) 1
    rw [show ([[]] : List Str) = List.replicate 1 [] from rfl, this, List.append_nil]

theorem filter_shift (a n : Nat) (L : List Str) :
    ((num n L).filter holds).map (fun x => (a + x.1, x.2)) = (num (a + n) L).filter holds := by
  rw [← num_shift, List.filter_map]
  rfl

theorem written_num (n : Nat) (v : Str) (conts : List Str) :
    written n v conts = (num (if v = [] then n + 1 else n)
      ((texts v conts).map (shown (decide ((texts v conts).length = 1))))).filter holds := by
  unfold written
  rw [body_num, num_map, num_length]
  rfl

theorem texts_plain {x k v : Str} {conts : List Str} (hx : kind x = .field k v) (hc : ∀ c ∈ conts, ∃ t, kind c = .cont t)
    (hp : ∀ c ∈ x :: conts, Plain c) :
    ∃ us : List Str, texts v conts = us.map (· ++ ['\n']) ∧ ∀ u ∈ us, ∀ c ∈ u, isBreak c = false ∧ c ≠ nul := by
  have key : ∀ conts : List Str, (∀ c ∈ conts, ∃ t, kind c = .cont t) → (∀ c ∈ conts, Plain c) →
      ∃ us : List Str, conts.map List.tail = us.map (· ++ ['\n']) ∧ ∀ u ∈ us, ∀ c ∈ u, isBreak c = false ∧ c ≠ nul := by
    intro conts
    induction conts with
    | nil => intro _ _; exact ⟨[], rfl, by simp⟩
    | cons c conts ih =>
      intro h1 h2
      obtain ⟨us, h3, h4⟩ := ih (fun d hd => h1 d (by simp [hd])) (fun d hd => h2 d (by simp [hd]))
      obtain ⟨t, ht⟩ := h1 c (by simp)
      obtain ⟨-, u, h5, h6⟩ := cont_text ht (h2 c (by simp))
      refine ⟨u :: us, by rw [List.map_cons, List.map_cons, h3, h5], ?_⟩
      intro w hw
      rcases List.mem_cons.1 hw with rfl | hw
      · exact h6
      · exact h4 w hw
  obtain ⟨us, h3, h4⟩ := key conts hc (fun d hd => hp d (by simp [hd]))
  unfold texts
  by_cases hv : v = []
  · exact ⟨us, by rw [if_pos hv, h3]; rfl, h4⟩
  · obtain ⟨u, h5, h6⟩ := field_text hx (hp x (by simp)) hv
    refine ⟨u :: us, by rw [if_neg hv, h3, h5]; rfl, ?_⟩
    intro w hw
    rcases List.mem_cons.1 hw with rfl | hw
    · exact h6
    · exact h4 w hw

theorem qualifierOrigin_spec {S : Type} [DecidableEq S] (src : S) (a : Nat) (b : Option Int) (off k : Nat) :
    qualifierOrigin ⟨src, some (a : Int), b⟩ off k =
      some ⟨src, some ((a + off + k : Nat) : Int), some ((a + off + k : Nat) : Int)⟩ := by
  simp [qualifierOrigin, Origin.justLine, Origin.withOffset, Origin.mode, Verif.Origin.addLine]

theorem numbered_from (pre rest : List Str) :
    numbered (pre ++ rest) = numbered pre ++ (rest.zipIdx pre.length).map fun x => (x.2 + 1, kind x.1) := by
  simp [numbered, List.zipIdx_append]

/-- The record of a field. -/
theorem field_record {lines pre conts post : List Str} {x k v : Str} (hl : lines = pre ++ x :: conts ++ post)
    (hg : Good lines) (hx : kind x = .field k v) (hc : ∀ c ∈ conts, ∃ t, kind c = .cont t) (he : Ended post)
    (hp : ∀ c ∈ conts, Plain c) :
    ∃ r ∈ (gen lines).1, ∃ a off, r.start = some a ∧ r.fields.lookup k = some ((texts v conts).flatten) ∧
      r.offsets.lookup k = some off ∧ a + off = if v = [] then pre.length + 1 + 1 else pre.length + 1 := by
  rw [(RFC822.C15_parse lines).1 hg]
  generalize hP0 : (sections (numbered pre)).2 = P0
  have hn : numbered lines = numbered pre ++ ((pre.length + 1, Kind.field k v) ::
      ((conts.zipIdx (pre.length + 1)).map (fun x => (x.2 + 1, kind x.1)) ++
        (post.zipIdx (pre.length + 1 + conts.length)).map (fun x => (x.2 + 1, kind x.1)))) := by
    rw [hl, List.append_assoc, numbered_from, List.cons_append, List.zipIdx_cons, List.map_cons, hx,
      List.zipIdx_append, List.map_append]
  generalize hC : (conts.zipIdx (pre.length + 1)).map (fun x => (x.2 + 1, kind x.1)) = C at hn
  have hCk : C.map Prod.snd = (conts.map List.tail).map Kind.cont := by
    rw [← hC, List.map_map, List.map_map]
    have : ∀ (n : Nat) (conts : List Str), (∀ c ∈ conts, ∃ t, kind c = .cont t) → (∀ c ∈ conts, Plain c) →
        (conts.zipIdx n).map (Prod.snd ∘ fun x => (x.2 + 1, kind x.1)) = conts.map (Kind.cont ∘ List.tail) := by
      intro n conts
      induction conts generalizing n with
      | nil => intro _ _; rfl
      | cons c conts ih =>
        intro h1 h2
        rw [List.zipIdx_cons, List.map_cons, List.map_cons, ih _ (fun d hd => h1 d (by simp [hd]))
          (fun d hd => h2 d (by simp [hd]))]
        obtain ⟨t, ht⟩ := h1 c (by simp)
        simp only [Function.comp, ht, (cont_text ht (h2 c (by simp))).1]
    exact this _ _ hc hp
  generalize hpn : (post.zipIdx (pre.length + 1 + conts.length)).map (fun x => (x.2 + 1, kind x.1)) = post' at hn
  have hsec : ∀ ls, sections ls = ls.foldl secStep ([], []) := fun _ => rfl
  have hM : ∀ y ∈ (pre.length + 1, Kind.field k v) :: C, y.2 ≠ .blank := by
    intro y hy
    rcases List.mem_cons.1 hy with rfl | hy
    · simp
    · have : y.2 ∈ C.map Prod.snd := List.mem_map_of_mem hy
      rw [hCk] at this
      obtain ⟨t, _, ht⟩ := List.mem_map.1 this
      rw [← ht]
      simp
  have hfold : sections (numbered lines) =
      post'.foldl secStep ((sections (numbered pre)).1, P0 ++ (pre.length + 1, Kind.field k v) :: C) := by
    rw [hn, ← List.cons_append, hsec, List.foldl_append, List.foldl_append, ← hsec, fold_nonblank _ _ hM, hP0]
  obtain ⟨D, E, hDE, hD, hmem⟩ := fold_keeps post'
    ((sections (numbered pre)).1, P0 ++ (pre.length + 1, Kind.field k v) :: C)
  rw [← hfold] at hmem
  simp only at hmem
  -- nothing of what follows belongs to the field
  have hD1 : (collect D).1 = [] := by
    have hmap : post'.map Prod.snd = post.map kind := by
      rw [← hpn, List.map_map]
      have : ∀ (n : Nat) (post : List Str), (post.zipIdx n).map (Prod.snd ∘ fun x => (x.2 + 1, kind x.1)) = post.map kind := by
        intro n post
        induction post generalizing n with
        | nil => rfl
        | cons c post ih => rw [List.zipIdx_cons, List.map_cons, List.map_cons, ih]; rfl
      exact this _ _
    refine collect_ended D (fun y hy => ⟨hD y hy, ?_⟩) ?_
    · intro hj
      have : y.2 ∈ post.map kind := by
        rw [← hmap]
        exact List.mem_map_of_mem (by rw [hDE]; simp [hy])
      obtain ⟨l, hl1, hl2⟩ := List.mem_map.1 this
      obtain ⟨p1, p2, rfl⟩ := List.append_of_mem hl1
      refine hg (pre ++ x :: conts ++ p1) l p2 (by rw [hl]; simp) .junk ?_
      unfold RFC822.Bad
      rw [hl2, hj]
    · intro cs l rest hd hcs t ht
      rw [hDE, hd, List.append_assoc, List.map_append, List.cons_append, List.map_cons] at hmap
      obtain ⟨q1, q2, hq, hq1, hq2⟩ := List.map_eq_append_iff.1 hmap.symm
      obtain ⟨l', q3, rfl, hl', -⟩ := List.map_eq_cons_iff.1 hq2
      refine he q1 l' q3 hq ?_ t (by rw [hl', ht])
      intro c hc'
      have : kind c ∈ cs.map Prod.snd := by rw [← hq1]; exact List.mem_map_of_mem hc'
      obtain ⟨c', hc1, hc2⟩ := List.mem_map.1 this
      rw [← hc2, hcs c' hc1]
  obtain ⟨hc1, hc2⟩ := collect_conts C D _ hCk
  have hcol : (collect (P0 ++ (pre.length + 1, Kind.field k v) :: C ++ D)).2 =
      (collect P0).2 ++ (k, (v ++ (conts.map List.tail).flatten)) :: (collect D).2 := by
    rw [List.append_assoc, List.cons_append, (collect_before P0 _ (by rw [collect])).1, collect, hc1, hc2, hD1,
      List.append_nil]
  have hfl : fieldLines (P0 ++ (pre.length + 1, Kind.field k v) :: C ++ D) =
      fieldLines P0 ++ (pre.length + 1, k, decide (v = [])) :: fieldLines (C ++ D) := by
    simp [fieldLines]
  have hk : k ∉ (fieldLines P0).map (·.2.1) := by
    intro hk
    obtain ⟨f, hf, hfk⟩ := List.mem_map.1 hk
    refine hg pre x (conts ++ post) (by rw [hl]; simp) .duplicate ?_
    unfold RFC822.Bad
    rw [hx]
    simp only
    rw [hP0]
    exact ⟨trivial, f, hf, hfk⟩
  have hle : ∀ f ∈ fieldLines P0, f.1 ≤ pre.length := by
    intro f hf
    obtain ⟨y, hy, hyf⟩ := List.mem_filterMap.1 hf
    have hy' : y ∈ numbered pre := (RFC822.sections_sublist (numbered pre)).subset (by rw [hP0]; simp [hy])
    have := ((RFC822.numbered_increasing pre).2 y hy').2
    have : f.1 = y.1 := by
      split at hyf
      · cases hyf; rfl
      · cases hyf
    omega
  have htx : (texts v conts).flatten = v ++ (conts.map List.tail).flatten := by
    unfold texts
    by_cases hv : v = []
    · rw [if_pos hv, hv]; rfl
    · rw [if_neg hv]; rfl
  cases hf0 : fieldLines P0 with
  | nil =>
    rw [hf0, List.nil_append] at hfl
    refine ⟨_, List.mem_filterMap.2 ⟨_, hmem, by unfold specRec; rw [hfl]⟩, pre.length + 1,
      if v = [] then 1 else 0, rfl, ?_, ?_, ?_⟩
    · simp only
      rw [hcol, htx]
      refine lookup_middle _ _ _ _ ?_
      rw [RFC822.collect_keys]
      exact hk
    · simp
    · split <;> omega
  | cons f F =>
    rw [hf0, List.cons_append] at hfl
    obtain ⟨a, kf, bf⟩ := f
    have ha : a ≤ pre.length := hle (a, kf, bf) (by rw [hf0]; simp)
    refine ⟨_, List.mem_filterMap.2 ⟨_, hmem, by unfold specRec; rw [hfl]⟩, a,
      (pre.length + 1 - a) + if v = [] then 1 else 0, rfl, ?_, ?_, ?_⟩
    · simp only
      rw [hcol, htx]
      refine lookup_middle _ _ _ _ ?_
      rw [RFC822.collect_keys]
      exact hk
    · simp only
      have : (if v = [] then 1 else 0) = if decide (v = []) = true then 1 else 0 := by simp
      rw [← List.cons_append, List.map_append, List.map_cons (l := fieldLines (C ++ D)), this]
      refine lookup_middle _ _ _ _ ?_
      rw [hf0] at hk
      simpa using hk
    · split <;> omega

/-! ## C92 -/

/-- **C92, part 1.** The qualifiers of the statements of a field carry the numbers of the lines on which the statements
were written. This needs that there is no comment line within the field, that no other line boundary is within a
line, and that the first line with text is not blank and not a single dot: see `C92_violation_*`. -/
theorem C92_line_partial {S : Type} [DecidableEq S] (src : S) {lines pre conts post : List Str} {x k v : Str}
    (hl : lines = pre ++ x :: conts ++ post) (hg : Good lines) (hx : kind x = .field k v)
    (hc : ∀ c ∈ conts, ∃ t, kind c = .cont t) (he : Ended post) (hp : ∀ c ∈ x :: conts, Plain c)
    (h0 : ∀ y, (body (pre.length + 1) v conts).head? = some y →
      shown (decide ((body (pre.length + 1) v conts).length = 1)) y.2 ≠ []) :
    ∃ r ∈ (gen lines).1, ∃ raw a off, r.fields.lookup k = some raw ∧ r.start = some a ∧ r.offsets.lookup k = some off ∧
      raw = ((body (pre.length + 1) v conts).map Prod.snd).flatten ∧
      ∀ (b : Option Int) es, includeLines (normalize raw) = .ok es →
        es.map (fun e => (qualifierOrigin ⟨src, some (a : Int), b⟩ off e.1, strip e.2)) =
          (written (pre.length + 1) v conts).map
            fun w => (some ⟨src, some (w.1 : Int), some (w.1 : Int)⟩, w.2) := by
  obtain ⟨r, hr, a, off, h1, h2, h3, h4⟩ := field_record hl hg hx hc he (fun c hc' => hp c (by simp [hc']))
  obtain ⟨us, hus, hu⟩ := texts_plain hx hc hp
  have hsnd : ∀ n L, (num n L).map Prod.snd = L := by
    intro n L
    induction L generalizing n with
    | nil => rfl
    | cons y L ih => rw [num_cons, List.map_cons, ih]
  refine ⟨r, hr, _, a, off, h2, h1, h3, by rw [body_num, hsnd], ?_⟩
  intro b es hes
  rw [hus] at hes
  have hlen : (texts v conts).length = us.length := by rw [hus]; simp
  have := text_lines hu (by
    intro u hu'
    cases us with
    | nil => cases hu'
    | cons u0 us =>
      cases hu'
      have := h0 ((if v = [] then pre.length + 1 + 1 else pre.length + 1), u ++ ['\n']) (by
        rw [body_num, hus, List.map_cons, num_cons]; rfl)
      rw [body_num, num_length, hlen] at this
      exact this) hes
  rw [written_num, ← h4, hlen, hus]
  have e := congrArg (List.map fun y : Nat × Str => (a + off + y.1, y.2)) this
  rw [filter_shift, Nat.add_zero, List.map_map] at e
  rw [← e, List.map_map]
  refine List.map_congr_left fun y _ => ?_
  simp only [Function.comp]
  rw [qualifierOrigin_spec]

/-- The lines of a file on which there is one record with one include field. -/
def exLines : List Str :=
  ["unit: test plan\n".toList, "include: \n".toList, " a\n".toList, " \t# not this\n".toList, " .\n".toList,
    "   b c=d\n".toList, "id: x\n".toList]

/-- Lines that the parser takes are good. -/
theorem good_of_gen {lines : List Str} (h : (gen lines).2 = none) : Good lines := by
  rcases RFC822.good_or_first_bad lines with hg | ⟨pre, line, post, r, h1, h2, h3⟩
  · exact hg
  · rw [(RFC822.C15_parse lines).2 pre line post r h1 h2 h3] at h
    cases h

theorem plain_of {ls : List Str}
    (h : ∀ l ∈ ls, l = l.dropLast ++ ['\n'] ∧ ∀ c ∈ l.dropLast, boundary c = false ∧ c ≠ nul) : ∀ l ∈ ls, Plain l :=
  fun l hl => ⟨_, h l hl⟩

theorem conts_of {ls : List Str} (h : ∀ l ∈ ls, kind l = .cont l.tail) : ∀ l ∈ ls, ∃ t, kind l = .cont t :=
  fun l hl => ⟨_, h l hl⟩

theorem ended_field {l k v : Str} {ls : List Str} (h : kind l = .field k v) : Ended (l :: ls) := by
  intro cs m rest he hc t ht
  cases cs with
  | nil =>
    rw [List.nil_append, List.cons.injEq] at he
    rw [← he.1, h] at ht
    cases ht
  | cons c cs =>
    rw [List.cons_append, List.cons.injEq] at he
    have := hc c (by simp)
    rw [← he.1, h] at this
    cases this

theorem head_of {v : Str} {conts : List Str} {n : Nat}
    (h : ∀ y ∈ (body n v conts).head?, shown (decide ((body n v conts).length = 1)) y.2 ≠ []) :
    ∀ y, (body n v conts).head? = some y → shown (decide ((body n v conts).length = 1)) y.2 ≠ [] :=
  fun y hy => h y hy

example : ∃ r ∈ (gen exLines).1, ∃ raw a off, r.fields.lookup "include".toList = some raw ∧ r.start = some a ∧
    r.offsets.lookup "include".toList = some off ∧
    raw = ((body ((exLines.take 1).length + 1) [] ((exLines.drop 2).take 4)).map Prod.snd).flatten ∧
    ∀ (b : Option Int) es, includeLines (normalize raw) = .ok es →
      es.map (fun e => (qualifierOrigin ⟨(), some (a : Int), b⟩ off e.1, strip e.2)) =
        [(3, "a".toList), (6, "b c=d".toList)].map
          fun w : Nat × Str => (some ⟨(), some (w.1 : Int), some (w.1 : Int)⟩, w.2) := by
  have e : written ((exLines.take 1).length + 1) [] ((exLines.drop 2).take 4) =
      [(3, "a".toList), (6, "b c=d".toList)] := by decide +kernel
  rw [← e]
  exact C92_line_partial () (x := "include: \n".toList) (post := ["id: x\n".toList]) (by decide +kernel)
    (good_of_gen (by decide +kernel)) (by decide +kernel) (conts_of (by decide +kernel))
    (ended_field (k := "id".toList) (v := "x\n".toList) (by decide +kernel)) (plain_of (by decide +kernel))
    (head_of (by decide +kernel))

/-- **C92, part 2.** An issue about a line of a field carries the same line as the qualifier made from it. -/
theorem C92_issue {S : Type} [DecidableEq S] (src : S) (a b : Int) (offsets : List (Str × Nat)) (field : Str)
    (off k : Nat) (h : offsets.lookup field = some off) :
    issueOrigin ⟨src, some a, some b⟩ offsets field k = qualifierOrigin ⟨src, some a, some b⟩ off k := by
  have hm : ∀ a' b' : Int, (Origin.mk src (some a') (some b')).mode ≠ .wholeFile := by
    intro a' b'
    unfold Origin.mode
    rw [if_neg (by simp)]
    split <;> simp
  have hw : ∀ (a' b' c : Int), (Origin.mk src (some a') (some b')).withOffset c =
      some ⟨src, some (a' + c), some (b' + c)⟩ := by
    intro a' b' c
    unfold Origin.withOffset
    cases hmm : (Origin.mk src (some a') (some b')).mode with
    | wholeFile => exact absurd hmm (hm a' b')
    | singleLine => rfl
    | lineRange => rfl
  unfold issueOrigin qualifierOrigin
  rw [h]
  simp only [Origin.justLine, hw, Option.map_some]
  have : a + ((off + k : Nat) : Int) = a + (off : Int) + (k : Int) := by omega
  rw [this]

example : issueOrigin ⟨(), some 1, some 7⟩ [("unit".toList, 0), ("include".toList, 2)] "include".toList 3 =
    some ⟨(), some 6, some 6⟩ := by decide +kernel

/-! ## Where it fails -/

/-- The numbers reported for the statements of a field of the only record. -/
def reported (lines : List Str) (k : Str) : List (Option Int × Str) :=
  match (gen lines).1 with
  | [r] =>
    match r.fields.lookup k, r.offsets.lookup k, r.start with
    | some raw, some off, some a =>
      match includeLines (normalize raw) with
      | .ok es => es.map fun e => ((qualifierOrigin ⟨(), some (a : Int), none⟩ off e.1).bind Origin.lineStart, strip e.2)
      | .error _ => []
    | _, _, _ => []
  | _ => []

example : reported exLines "include".toList = [(some 3, "a".toList), (some 6, "b c=d".toList)] := by decide +kernel

/-- **C92, part 3.** In a text whose lines all end with a line feed, or all with a carriage return and a line feed, the
lines that are counted are those that were written. -/
theorem C92_ends (lines : List Str) (h : ∀ l ∈ lines, ∀ c ∈ l, boundary c = false) :
    splitLines (lines.map (· ++ "\n".toList)).flatten = lines ∧ splitLines (lines.map (· ++ "\r\n".toList)).flatten = lines := by
  simp only [boundary_eq] at h
  have plain : ∀ (l : Str) (cr : Bool) (rest : Str) (first : Str) (more : List Str), (∀ c ∈ l, isBreak c = false) →
      (l ≠ [] → splitLines' false rest = first :: more) → (l = [] → splitLines' cr rest = first :: more) →
      splitLines' cr (l ++ rest) = (l ++ first) :: more := by
    intro l
    induction l with
    | nil => intro cr rest first more _ _ h2; exact h2 rfl
    | cons c l ih =>
      intro cr rest first more hb h1 _
      have hc := hb c (by simp)
      have hn : (cr && c == '\n') = false := by
        have : c ≠ '\n' := by rintro rfl; exact absurd hc (by decide)
        simp [this]
      rw [List.cons_append, splitLines'.eq_def]
      simp only [hn, hc, if_false, Bool.false_eq_true]
      rw [ih false rest first more (fun d hd => hb d (by simp [hd])) (fun _ => h1 (by simp)) (fun _ => h1 (by simp))]
      rfl
  have lf : ∀ r, splitLines' false ('\n' :: r) = [] :: splitLines' false r := by
    intro r; rw [splitLines'.eq_def]; rfl
  have cr : ∀ r, splitLines' false ('\r' :: '\n' :: r) = [] :: splitLines' false r := by
    intro r
    rw [splitLines'.eq_def]
    simp only [Bool.false_and, Bool.false_eq_true, if_false]
    rw [if_pos (by decide), show ('\r' == '\r') = true from by decide, splitLines'.eq_def]
    rfl
  unfold splitLines
  constructor
  · induction lines with
    | nil => rfl
    | cons l ls ih =>
      have ih := ih fun l hl => h l (by simp [hl])
      rw [List.map_cons, List.flatten_cons, List.append_assoc]
      have e : splitLines' false ("\n".toList ++ (ls.map (· ++ "\n".toList)).flatten) = [] :: ls := by
        exact (lf _).trans (congrArg ([] :: ·) ih)
      rw [plain l false _ [] ls (h l (by simp)) (fun _ => e) (fun _ => e), List.append_nil]
  · induction lines with
    | nil => rfl
    | cons l ls ih =>
      have ih := ih fun l hl => h l (by simp [hl])
      rw [List.map_cons, List.flatten_cons, List.append_assoc]
      have e : splitLines' false ("\r\n".toList ++ (ls.map (· ++ "\r\n".toList)).flatten) = [] :: ls := by
        exact (cr _).trans (congrArg ([] :: ·) ih)
      rw [plain l false _ [] ls (h l (by simp)) (fun _ => e) (fun _ => e), List.append_nil]

example : ∀ l ∈ ["a b".toList, [], "c".toList], ∀ c ∈ l, boundary c = false := by decide

/-- A comment within a field is not part of its value, so that all later lines are reported one line too early. -/
theorem C92_violation_comment :
    reported ["include:\n".toList, " a\n".toList, "# c\n".toList, " b\n".toList] "include".toList =
      [(some 2, "a".toList), (some 3, "b".toList)] := by decide +kernel

/-- A line with a single dot at the start of a value is removed, so that all lines are reported one line too
early. -/
theorem C92_violation_dot :
    reported ["include:\n".toList, " .\n".toList, " a\n".toList, " b\n".toList] "include".toList =
      [(some 2, "a".toList), (some 3, "b".toList)] := by decide +kernel

/-- Other line boundaries than line feeds end a line for the statements but not for the records, so that all later
lines are reported too late. -/
theorem C92_violation_break :
    reported ["include:\n".toList, " a # page".toList ++ [Char.ofNat 12, '\n'], " b\n".toList] "include".toList =
      [(some 2, "a # page".toList), (some 4, "b".toList)] ∧
    reported ["include:\n".toList, " a".toList ++ [Char.ofNat 12] ++ "c\n".toList, " b\n".toList] "include".toList =
      [(some 2, "a".toList), (some 3, "c".toList), (some 4, "b".toList)] := by decide +kernel

/-- An issue about a field that is written with an underscore (for translation) has the origin of the whole unit. -/
theorem C92_violation_translated {S : Type} [DecidableEq S] (o : Origin S) (offsets : List (Str × Nat)) (field : Str)
    (off k : Nat) (h1 : offsets.lookup field = none) (_ : offsets.lookup ('_' :: field) = some off) :
    issueOrigin o offsets field k = some o := by
  unfold issueOrigin
  rw [h1]
  simp only
  split <;> rfl

example : issueOrigin ⟨(), some 1, some 7⟩ [("unit".toList, 0), ("_summary".toList, 2)] "summary".toList 0 =
    some ⟨(), some 1, some 7⟩ := by decide +kernel

end Verif.Where
