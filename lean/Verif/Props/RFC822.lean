import Verif.Model.RFC822
import Verif.Lemmas.Text
import Mathlib.Data.List.Induction

/-! # Properties C14, C15 and C50 -/

set_option linter.unusedSimpArgs false

namespace Verif.RFC822

open Verif.Text

/-! ## Specification of the format -/

/-- What a line is. -/
inductive Kind where
  | comment | blank | junk
  | cont (text : Str)
  | field (key : Str) (value : Str)
deriving DecidableEq, Repr

/-- Classification of a line.  The value of a field on its own line is what follows the first
colon without leading white space; a value of nothing but white space counts as absent. -/
def kind (line : Str) : Kind :=
  if line.head? = some '#' then .comment
  else if ∀ c ∈ line, isSpace c = true then .blank
  else if line.head? = some ' ' then .cont line.tail
  else if ':' ∈ line then
    let v := lstrip ((line.dropWhile (· ≠ ':')).tail)
    .field (strip (line.takeWhile (· ≠ ':'))) v
  else .junk

/-- Numbered, classified lines. -/
abbrev NLine := Nat × Kind

/-- Paragraphs: those closed by a blank line, and the one still open at the end. -/
def sections (ls : List NLine) : List (List NLine) × List NLine :=
  ls.foldl (fun acc x => if x.2 = .blank then (acc.1 ++ [acc.2], []) else (acc.1, acc.2 ++ [x]))
    ([], [])

/-- Numbering from 1. -/
def numbered (lines : List Str) : List NLine := lines.zipIdx.map fun x => (x.2 + 1, kind x.1)

/-- Reading a paragraph from its end: text of the continuation lines not yet claimed by a field,
and the fields with their raw values. -/
def collect : List NLine → Str × List (Str × Str)
  | [] => ([], [])
  | (_, .field k v) :: P => ([], (k, v ++ (collect P).1) :: (collect P).2)
  | (_, .cont t) :: P => (t ++ (collect P).1, (collect P).2)
  | _ :: P => collect P

/-- Line numbers of the fields of a paragraph, and whether the first line holds a value. -/
def fieldLines (P : List NLine) : List (Nat × Str × Bool) :=
  P.filterMap fun x => match x.2 with
    | .field k v => some (x.1, k, decide (v = []))
    | _ => none

/-- Line numbers of the field and continuation lines of a paragraph. -/
def contentLines (P : List NLine) : List Nat :=
  P.filterMap fun x => match x.2 with
    | .field _ _ | .cont _ => some x.1
    | _ => none

/-- The record a paragraph stands for: nothing if it has no field. -/
def specRec (P : List NLine) : Option Rec :=
  match fieldLines P with
  | [] => none
  | (n, _, _) :: _ => some
    { fields := (collect P).2
      start := some n
      stop := (contentLines P).getLast?
      offsets := (fieldLines P).map fun f => (f.2.1, f.1 - n + if f.2.2 then 1 else 0) }

/-- A line that must not follow these lines, and why. -/
def Bad (pre : List Str) (line : Str) (r : Reason) : Prop :=
  let P := (sections (numbered pre)).2
  match kind line with
  | .junk => r = .junk
  | .cont _ => r = .multiLine ∧ fieldLines P = []
  | .field k _ => r = .duplicate ∧ ∃ f ∈ fieldLines P, f.2.1 = k
  | _ => False

/-- No line is bad. -/
def Good (lines : List Str) : Prop :=
  ∀ pre line post, lines = pre ++ line :: post → ∀ r, ¬ Bad pre line r

/-! ## The parser follows the specification -/

theorem value_blank (l : Str) : strip (lstrip l) = [] ↔ lstrip l = [] := by
  rw [strip_eq_nil]
  constructor
  · intro h
    cases hl : lstrip l with
    | nil => rfl
    | cons a r =>
      have := h a (by rw [hl]; simp)
      rw [dropWhile_head hl] at this
      simp at this
  · intro h; rw [h]; simp

theorem collect_append_field (P : List NLine) (n : Nat) (k v : Str) :
    collect (P ++ [(n, .field k v)]) = ((collect P).1, (collect P).2 ++ [(k, v)]) := by
  induction P with
  | nil => simp [collect]
  | cons x P ih =>
    obtain ⟨m, kd⟩ := x
    cases kd <;> simp [collect, ih]

theorem collect_append_other (P : List NLine) (n : Nat) :
    collect (P ++ [(n, .comment)]) = collect P := by
  induction P with
  | nil => simp [collect]
  | cons x P ih =>
    obtain ⟨m, kd⟩ := x
    cases kd <;> simp [collect, ih]

theorem collect_nil_iff (P : List NLine) : (collect P).2 = [] ↔ fieldLines P = [] := by
  induction P with
  | nil => simp [collect, fieldLines]
  | cons x P ih =>
    obtain ⟨m, kd⟩ := x
    cases kd <;> simp [collect, fieldLines] <;> simpa [fieldLines] using ih

theorem collect_keys (P : List NLine) :
    (collect P).2.map (·.1) = (fieldLines P).map (·.2.1) := by
  induction P with
  | nil => simp [collect, fieldLines]
  | cons x P ih =>
    obtain ⟨m, kd⟩ := x
    cases kd <;> simp [collect, fieldLines] <;> simpa [fieldLines] using ih

theorem collect_append_cont (P : List NLine) (n : Nat) (t : Str) :
    ((fieldLines P = []) → collect (P ++ [(n, .cont t)]) = ((collect P).1 ++ t, [])) ∧
    (∀ D k v, (collect P).2 = D ++ [(k, v)] →
      collect (P ++ [(n, .cont t)]) = ((collect P).1, D ++ [(k, v ++ t)])) := by
  induction P with
  | nil => simp [collect]
  | cons x P ih =>
    obtain ⟨m, kd⟩ := x
    cases kd with
    | field k v =>
      refine ⟨by simp [fieldLines], ?_⟩
      intro D k' v' h
      simp only [collect, List.cons_append] at h ⊢
      cases D with
      | nil =>
        simp only [List.nil_append, List.cons.injEq, Prod.mk.injEq] at h
        have hP := (collect_nil_iff P).mp h.2
        rw [ih.1 hP]
        simp [← h.1.1, ← h.1.2]
      | cons d D =>
        simp only [List.cons_append, List.cons.injEq] at h
        rw [ih.2 D k' v' h.2]
        simp [← h.1]
    | cont t' =>
      constructor
      · intro h
        have := ih.1 (by simpa [fieldLines] using h)
        simp [collect, this]
      · intro D k v h
        have := ih.2 D k v (by simpa [collect] using h)
        simp [collect, this]
    | comment =>
      exact ⟨fun h => by simpa [collect] using ih.1 (by simpa [fieldLines] using h),
        fun D k v h => by simpa [collect] using ih.2 D k v (by simpa [collect] using h)⟩
    | blank =>
      exact ⟨fun h => by simpa [collect] using ih.1 (by simpa [fieldLines] using h),
        fun D k v h => by simpa [collect] using ih.2 D k v (by simpa [collect] using h)⟩
    | junk =>
      exact ⟨fun h => by simpa [collect] using ih.1 (by simpa [fieldLines] using h),
        fun D k v h => by simpa [collect] using ih.2 D k v (by simpa [collect] using h)⟩

/-- The state of the parser stands for the open paragraph. -/
structure Rep (P : List NLine) (s : St) : Prop where
  fields : s.commit.fields = (collect P).2
  key : s.key = none → s.fields = [] ∧ fieldLines P = []
  keyed : s.key.isSome → fieldLines P ≠ []
  start : s.start = (fieldLines P).head?.map (·.1)
  stop : s.stop = (contentLines P).getLast?
  offsets : s.offsets = (fieldLines P).map fun f =>
    (f.2.1, f.1 - (s.start.getD 0) + if f.2.2 then 1 else 0)

theorem rep_new : Rep [] St.new := by
  refine ⟨rfl, fun _ => ⟨rfl, rfl⟩, by simp [St.new], rfl, rfl, rfl⟩

theorem commit_none (s : St) (h : s.key = none) : s.commit = s := by simp [St.commit, h]

theorem commit_some (s : St) {k : Str} (h : s.key = some k) :
    s.commit = { s with fields := s.fields ++ [(k, s.values.flatten)], key := none } := by
  simp [St.commit, h]

theorem commit_meta (s : St) : s.commit.start = s.start ∧ s.commit.stop = s.stop ∧
    s.commit.offsets = s.offsets ∧ s.commit.key = none := by
  unfold St.commit
  split
  · rename_i h; simp [h]
  · simp

theorem rep_emit {P : List NLine} {s : St} (h : Rep P s) :
    s.commit.emit = (specRec P).toList := by
  obtain ⟨h1, h2, h3, h4⟩ := commit_meta s
  unfold St.emit specRec
  rw [h.fields]
  cases hf : fieldLines P with
  | nil =>
    have := (collect_nil_iff P).mpr hf
    simp [this]
  | cons f fs =>
    have : (collect P).2 ≠ [] := fun hc => by
      have := (collect_nil_iff P).mp hc
      rw [hf] at this; simp at this
    obtain ⟨n, k, b⟩ := f
    have hst : s.start = some n := by rw [h.start, hf]; rfl
    simp only [List.isEmpty_iff, this, if_false, Option.toList]
    rw [h1, h2, h3, h.stop, h.offsets, hst, hf]
    rfl

theorem sections_append (ls : List NLine) (x : NLine) :
    sections (ls ++ [x]) = if x.2 = .blank then ((sections ls).1 ++ [(sections ls).2], [])
      else ((sections ls).1, (sections ls).2 ++ [x]) := by
  simp [sections, List.foldl_append]

theorem numbered_append (pre : List Str) (line : Str) :
    numbered (pre ++ [line]) = numbered pre ++ [(pre.length + 1, kind line)] := by
  simp [numbered, List.zipIdx_append]

/-- One step of the parser on a line, in terms of the paragraph. -/
theorem step_spec {P : List NLine} {s : St} (h : Rep P s) (n : Nat) (line : Str) :
    match kind line with
    | .junk => step s n line = .error .junk
    | .comment => step s n line = .ok ([], s)
    | .blank => step s n line = .ok ((specRec P).toList, St.new)
    | .cont _ => if fieldLines P = [] then step s n line = .error .multiLine
        else ∃ s', step s n line = .ok ([], s') ∧ Rep (P ++ [(n, kind line)]) s'
    | .field k _ => if ∃ f ∈ fieldLines P, f.2.1 = k then step s n line = .error .duplicate
        else ∃ s', step s n line = .ok ([], s') ∧ Rep (P ++ [(n, kind line)]) s' := by
  have hp1 : (['#'].isPrefixOf line = true) ↔ line.head? = some '#' := by
    cases line with
    | nil => simp
    | cons c l => simp [List.isPrefixOf, eq_comm (a := c)]
  have hp2 : ([' '].isPrefixOf line = true) ↔ line.head? = some ' ' := by
    cases line with
    | nil => simp
    | cons c l => simp [List.isPrefixOf, eq_comm (a := c)]
  by_cases c1 : line.head? = some '#'
  · have hk : kind line = .comment := by unfold kind; rw [if_pos c1]
    rw [hk]
    simp only
    unfold step
    rw [if_pos (hp1.mpr c1)]
  · by_cases c2 : ∀ c ∈ line, isSpace c = true
    · have hk : kind line = .blank := by unfold kind; rw [if_neg c1, if_pos c2]
      rw [hk]
      simp only
      unfold step
      rw [if_neg (fun hx => c1 (hp1.mp hx)), if_pos (strip_eq_nil.mpr c2), rep_emit h]
    · by_cases c3 : line.head? = some ' '
      · have hk : kind line = .cont line.tail := by
          unfold kind; rw [if_neg c1, if_neg c2, if_pos c3]
        rw [hk]
        simp only
        unfold step
        rw [if_neg (fun hx => c1 (hp1.mp hx)), if_neg (fun hx => c2 (strip_eq_nil.mp hx)),
          if_pos (hp2.mpr c3)]
        by_cases hf : fieldLines P = []
        · rw [if_pos hf]
          have : s.key = none := by
            cases hkey : s.key with
            | none => rfl
            | some k => exact absurd hf (h.keyed (by rw [hkey]; rfl))
          rw [this]
        · rw [if_neg hf]
          cases hkey : s.key with
          | none => exact absurd (h.key hkey).2 hf
          | some k =>
            refine ⟨_, rfl, ?_⟩
            have hfl : fieldLines (P ++ [(n, .cont line.tail)]) = fieldLines P := by
              simp [fieldLines]
            have hcf := h.fields
            rw [commit_some s hkey] at hcf
            simp only at hcf
            have hc := (collect_append_cont P n line.tail).2 s.fields k s.values.flatten hcf.symm
            constructor
            · rw [commit_some _ rfl]
              simp only
              rw [hc]
              simp [List.drop_one]
            · intro hx; simp at hx
            · intro _; rw [hfl]; exact hf
            · rw [hfl]; exact h.start
            · simp [contentLines]
            · rw [hfl]; exact h.offsets
      · by_cases c4 : ':' ∈ line
        · have hk : kind line = .field (strip (line.takeWhile (· ≠ ':')))
              (lstrip ((line.dropWhile (· ≠ ':')).tail)) := by
            unfold kind; rw [if_neg c1, if_neg c2, if_neg c3, if_pos c4]
          rw [hk]
          simp only
          unfold step
          rw [if_neg (fun hx => c1 (hp1.mp hx)), if_neg (fun hx => c2 (strip_eq_nil.mp hx)),
            if_neg (fun hx => c3 (hp2.mp hx)), if_pos c4]
          simp only [List.drop_one]
          generalize hkey : strip (line.takeWhile (· ≠ ':')) = key
          generalize hval : lstrip ((line.dropWhile (· ≠ ':')).tail) = value
          have hvb : strip value = [] ↔ value = [] := by
            rw [← hval]; exact value_blank _
          -- the committed state
          have hfieldsC : ({ s with start := some (s.start.getD n) } : St).commit.fields =
              (collect P).2 := by
            rw [← h.fields]
            unfold St.commit
            cases s.key <;> rfl
          obtain ⟨m1, m2, m3, m4⟩ := commit_meta ({ s with start := some (s.start.getD n) } : St)
          simp only at m1 m2 m3 m4
          have hmem : key ∈ (({ s with start := some (s.start.getD n) } : St).commit.fields).map
              (·.1) ↔ ∃ f ∈ fieldLines P, f.2.1 = key := by
            rw [hfieldsC, collect_keys, List.mem_map]
          by_cases hd : ∃ f ∈ fieldLines P, f.2.1 = key
          · rw [if_pos hd, if_pos (hmem.mpr hd)]
          · rw [if_neg hd, if_neg (fun hx => hd (hmem.mp hx))]
            refine ⟨_, rfl, ?_⟩
            have hfl : fieldLines (P ++ [(n, .field key value)]) =
                fieldLines P ++ [(n, key, decide (value = []))] := by
              simp [fieldLines]
            have hstart : s.start.getD n =
                ((fieldLines P ++ [(n, key, decide (value = []))]).head?.map (·.1)).getD 0 := by
              rw [h.start]
              cases fieldLines P <;> simp
            constructor
            · rw [commit_some _ rfl]
              simp only
              rw [hfieldsC, collect_append_field]
              simp only
              congr 3
              by_cases hv : value = []
              · rw [if_neg (fun hx => hx (hvb.mpr hv))]; simp [hv]
              · rw [if_pos (fun hx => hv (hvb.mp hx))]; simp
            · intro hx; simp at hx
            · intro _; rw [hfl]; simp
            · simp only
              rw [m1, hfl, h.start]
              cases fieldLines P <;> simp
            · simp [contentLines]
            · simp only
              rw [m3, m1, hfl, List.map_append, h.offsets]
              simp only [List.map_cons, List.map_nil, Option.getD_some]
              congr 1
              · cases hfp : fieldLines P with
                | nil => rfl
                | cons f fs =>
                  have : s.start = some f.1 := by rw [h.start, hfp]; rfl
                  rw [this]; rfl
              · by_cases hv : value = []
                · simp [hv, hvb, strip_eq_nil]
                · have : ¬ strip value = [] := fun hx => hv (hvb.mp hx)
                  simp [hv, this]
        · have hk : kind line = .junk := by
            unfold kind; rw [if_neg c1, if_neg c2, if_neg c3, if_neg c4]
          rw [hk]
          simp only
          unfold step
          rw [if_neg (fun hx => c1 (hp1.mp hx)), if_neg (fun hx => c2 (strip_eq_nil.mp hx)),
            if_neg (fun hx => c3 (hp2.mp hx)), if_neg c4]

/-- Comments change nothing a paragraph stands for. -/
theorem rep_comment {P : List NLine} {s : St} (h : Rep P s) (n : Nat) :
    Rep (P ++ [(n, .comment)]) s := by
  have hfl : fieldLines (P ++ [(n, .comment)]) = fieldLines P := by simp [fieldLines]
  have hcl : contentLines (P ++ [(n, .comment)]) = contentLines P := by simp [contentLines]
  exact ⟨by rw [collect_append_other]; exact h.fields, by rw [hfl]; exact h.key,
    by rw [hfl]; exact h.keyed, by rw [hfl]; exact h.start, by rw [hcl]; exact h.stop,
    by rw [hfl]; exact h.offsets⟩

/-- Running over lines that are not bad. -/
theorem run_good (pre : List Str) (hg : Good pre) :
    ∃ s, Rep (sections (numbered pre)).2 s ∧
      ∀ post, run St.new 1 (pre ++ post) =
        (((sections (numbered pre)).1.filterMap specRec) ++ (run s (pre.length + 1) post).1,
         (run s (pre.length + 1) post).2) := by
  induction pre using List.reverseRecOn with
  | nil => exact ⟨St.new, rep_new, by intro post; simp [sections, numbered]⟩
  | append_singleton pre line ih =>
    have hg' : Good pre := by
      intro p l q hp r
      refine hg p l (q ++ [line]) ?_ r
      rw [hp]; simp
    obtain ⟨s, hr, hrun⟩ := ih hg'
    have hnb : ∀ r, ¬ Bad pre line r := hg pre line [] rfl
    have hst := step_spec hr (pre.length + 1) line
    rw [numbered_append, sections_append]
    -- a step that succeeds continues the run
    have cont : ∀ rs s' P', step s (pre.length + 1) line = .ok (rs, s') → Rep P' s' →
        (∀ post, run St.new 1 (pre ++ [line] ++ post) =
          ((sections (numbered pre)).1.filterMap specRec ++ rs ++
            (run s' (pre.length + 1 + 1) post).1, (run s' (pre.length + 1 + 1) post).2)) := by
      intro rs s' P' hs _ post
      rw [List.append_assoc, hrun]
      simp only [List.singleton_append, run, hs]
      simp
    cases hk : kind line with
    | junk => exact absurd (show Bad pre line .junk by simp [Bad, hk]) (hnb _)
    | comment =>
      rw [hk] at hst
      simp only at hst
      refine ⟨s, by simpa using rep_comment hr _, ?_⟩
      intro post
      have := cont [] s _ hst hr post
      simpa using this
    | blank =>
      rw [hk] at hst
      simp only at hst
      refine ⟨St.new, by simpa using rep_new, ?_⟩
      intro post
      have := cont _ _ _ hst rep_new post
      rw [this]
      cases hsp : specRec (sections (numbered pre)).2 <;> simp [List.filterMap_append, hsp]
    | cont t =>
      rw [hk] at hst
      simp only at hst
      by_cases hf : fieldLines (sections (numbered pre)).2 = []
      · exact absurd (show Bad pre line .multiLine by simp [Bad, hk, hf]) (hnb _)
      · rw [if_neg hf] at hst
        obtain ⟨s', hs', hr'⟩ := hst
        refine ⟨s', by simpa using hr', ?_⟩
        intro post
        have := cont [] s' _ hs' hr' post
        simpa using this
    | field k v =>
      rw [hk] at hst
      simp only at hst
      by_cases hf : ∃ f ∈ fieldLines (sections (numbered pre)).2, f.2.1 = k
      · refine absurd (show Bad pre line .duplicate from ?_) (hnb _)
        simp only [Bad, hk, true_and]
        exact hf
      · rw [if_neg hf] at hst
        obtain ⟨s', hs', hr'⟩ := hst
        refine ⟨s', by simpa using hr', ?_⟩
        intro post
        have := cont [] s' _ hs' hr' post
        simpa using this

/-- A text is fine or has a first bad line. -/
theorem good_or_first_bad (lines : List Str) :
    Good lines ∨ ∃ pre line post r, lines = pre ++ line :: post ∧ Good pre ∧ Bad pre line r := by
  induction lines using List.reverseRecOn with
  | nil => left; intro p l q h; simp at h
  | append_singleton lines x ih =>
    rcases ih with hg | ⟨pre, line, post, r, rfl, hg, hb⟩
    · by_cases hb : ∃ r, Bad lines x r
      · obtain ⟨r, hb⟩ := hb
        exact .inr ⟨lines, x, [], r, rfl, hg, hb⟩
      · left
        intro p l q hp r hbad
        rcases List.eq_nil_or_concat q with rfl | ⟨q', y, rfl⟩
        · have := List.append_inj' hp rfl
          simp at this
          rw [← this.1, ← this.2] at hbad
          exact hb ⟨r, hbad⟩
        · have hp' : lines ++ [x] = (p ++ l :: q') ++ [y] := by rw [hp]; simp
          have := List.append_inj' hp' rfl
          exact hg p l q' this.1 r hbad
    · exact .inr ⟨pre, line, post ++ [x], r, by simp, hg, hb⟩

/-- **C15**, what is parsed and when it fails.  If no line is bad there is no syntax error, and the
records are those of the paragraphs of the text, in order.  Otherwise a syntax error is raised for
the first bad line and for its reason, after the records of all paragraphs closed before it. -/
theorem C15_parse (lines : List Str) :
    (Good lines → gen lines =
      (((sections (numbered lines)).1 ++ [(sections (numbered lines)).2]).filterMap specRec,
        none)) ∧
    (∀ pre line post r, lines = pre ++ line :: post → Good pre → Bad pre line r →
      gen lines = ((sections (numbered pre)).1.filterMap specRec, some (pre.length + 1, r))) := by
  constructor
  · intro hg
    obtain ⟨s, hr, hrun⟩ := run_good lines hg
    have := hrun []
    simp only [List.append_nil, run] at this
    unfold gen
    rw [this, rep_emit hr]
    cases hsp : specRec (sections (numbered lines)).2 <;> simp [List.filterMap_append, hsp]
  · intro pre line post r hl hg hb
    obtain ⟨s, hr, hrun⟩ := run_good pre hg
    have hst := step_spec hr (pre.length + 1) line
    have herr : step s (pre.length + 1) line = .error r := by
      unfold Bad at hb
      cases hk : kind line with
      | junk => rw [hk] at hst hb; simp only at hst hb; rw [hst, hb]
      | comment => rw [hk] at hb; exact hb.elim
      | blank => rw [hk] at hb; exact hb.elim
      | cont t =>
        rw [hk] at hst hb
        simp only at hst hb
        rw [if_pos hb.2] at hst
        rw [hst, hb.1]
      | field k v =>
        rw [hk] at hst hb
        simp only at hst hb
        rw [if_pos hb.2] at hst
        rw [hst, hb.1]
    unfold gen
    rw [hl, hrun]
    simp [run, herr]

/-- **C15**, the error exactly: it is raised at a line for a reason iff that is the first bad line
and the reason it is bad. -/
theorem C15_error_iff (lines : List Str) (n : Nat) (r : Reason) :
    (gen lines).2 = some (n, r) ↔
      ∃ pre line post, lines = pre ++ line :: post ∧ n = pre.length + 1 ∧ Good pre ∧
        Bad pre line r := by
  constructor
  · intro h
    rcases good_or_first_bad lines with hg | ⟨pre, line, post, r', hl, hg, hb⟩
    · rw [(C15_parse lines).1 hg] at h; simp at h
    · rw [(C15_parse lines).2 pre line post r' hl hg hb] at h
      simp at h
      exact ⟨pre, line, post, hl, h.1.symm, hg, h.2 ▸ hb⟩
  · rintro ⟨pre, line, post, hl, rfl, hg, hb⟩
    rw [(C15_parse lines).2 pre line post r hl hg hb]

theorem sections_sublist (ls : List NLine) :
    ((sections ls).1.flatten ++ (sections ls).2).Sublist ls := by
  induction ls using List.reverseRecOn with
  | nil => simp [sections]
  | append_singleton ls x ih =>
    rw [sections_append]
    split
    · simp only [List.flatten_append, List.flatten_singleton, List.append_nil]
      exact ih.trans (by simp)
    · rw [← List.append_assoc]
      exact ih.append (List.Sublist.refl _)

theorem numbered_increasing (lines : List Str) :
    (numbered lines).Pairwise (fun a b => a.1 < b.1) ∧
    ∀ x ∈ numbered lines, 1 ≤ x.1 ∧ x.1 ≤ lines.length := by
  constructor
  · unfold numbered
    rw [List.pairwise_map]
    have : (lines.zipIdx.map (·.2)).Pairwise (· < ·) := by
      rw [List.zipIdx_map_snd]; exact List.pairwise_lt_range'
    exact (List.pairwise_map.mp this).imp (by intro a b h; simpa using h)
  · intro x hx
    obtain ⟨y, hy, rfl⟩ := List.mem_map.mp hx
    have := List.mem_zipIdx hy
    simp at this
    constructor
    · simp
    · simp; omega

theorem content_mem {P : List NLine} {n : Nat} (h : n ∈ contentLines P) : ∃ k, (n, k) ∈ P := by
  obtain ⟨x, hx, he⟩ := List.mem_filterMap.mp h
  obtain ⟨m, k⟩ := x
  cases k <;> simp at he <;> subst he <;> exact ⟨_, hx⟩

/-- Lines of the record of a paragraph. -/
theorem specRec_lines {P : List NLine} {r : Rec} (hp : P.Pairwise (fun a b => a.1 < b.1))
    (h : specRec P = some r) :
    ∃ a b, r.start = some a ∧ r.stop = some b ∧ a ≤ b ∧ (∃ k, (a, k) ∈ P) ∧ (∃ k, (b, k) ∈ P) := by
  unfold specRec at h
  cases hf : fieldLines P with
  | nil => rw [hf] at h; simp at h
  | cons f fs =>
    obtain ⟨n, k, b⟩ := f
    rw [hf] at h
    simp only [Option.some.injEq] at h
    have hn : n ∈ contentLines P := by
      have : (n, k, b) ∈ fieldLines P := by rw [hf]; simp
      obtain ⟨x, hx, he⟩ := List.mem_filterMap.mp this
      refine List.mem_filterMap.mpr ⟨x, hx, ?_⟩
      obtain ⟨m, kd⟩ := x
      cases kd <;> simp at he ⊢
      exact he.1
    have hne : contentLines P ≠ [] := by intro hc; rw [hc] at hn; simp at hn
    have hlast : (contentLines P).getLast? = some ((contentLines P).getLast hne) :=
      List.getLast?_eq_some_getLast hne
    have hsorted : (contentLines P).Pairwise (· < ·) := by
      unfold contentLines
      rw [List.pairwise_filterMap]
      refine hp.imp ?_
      rintro ⟨m, kd⟩ ⟨m', kd'⟩ hlt x hx y hy
      cases kd <;> cases kd' <;> simp at hx hy <;> subst hx hy <;> simpa using hlt
    have hle : n ≤ (contentLines P).getLast hne := by
      rw [List.pairwise_iff_getElem] at hsorted
      obtain ⟨i, hi, hin⟩ := List.mem_iff_getElem.mp hn
      rw [List.getLast_eq_getElem]
      by_cases hii : i = (contentLines P).length - 1
      · subst hii; rw [hin]; exact Nat.le_refl _
      · have := hsorted i ((contentLines P).length - 1) hi (by omega) (by omega)
        rw [hin] at this; omega
    refine ⟨n, (contentLines P).getLast hne, by rw [← h], by rw [← h]; exact hlast, hle,
      content_mem hn, content_mem (List.getLast_mem hne)⟩

/-- **C15**, origins: the line ranges of the records are inside the text, disjoint and increasing,
whether or not parsing ends with an error. -/
theorem C15_origins (lines : List Str) :
    (∀ r ∈ (gen lines).1, ∃ a b, r.start = some a ∧ r.stop = some b ∧ 1 ≤ a ∧ a ≤ b ∧
      b ≤ lines.length) ∧
    (gen lines).1.Pairwise (fun r r' => ∃ b a', r.stop = some b ∧ r'.start = some a' ∧ b < a') := by
  -- in all cases the records come from consecutive paragraphs of a prefix
  obtain ⟨Ps, pre, hpl, hsub, hgen⟩ : ∃ (Ps : List (List NLine)) (pre : List Str),
      pre.length ≤ lines.length ∧ Ps.flatten.Sublist (numbered pre) ∧
      (gen lines).1 = Ps.filterMap specRec := by
    rcases good_or_first_bad lines with hg | ⟨pre, line, post, r', hl, hg, hb⟩
    · refine ⟨_, lines, Nat.le_refl _, ?_, by rw [(C15_parse lines).1 hg]⟩
      have := sections_sublist (numbered lines)
      simpa using this
    · refine ⟨_, pre, by rw [hl]; simp, ?_,
        by rw [(C15_parse lines).2 pre line post r' hl hg hb]⟩
      have := sections_sublist (numbered pre)
      exact (List.sublist_append_left _ _).trans this
  obtain ⟨hinc, hrange⟩ := numbered_increasing pre
  have hflat : Ps.flatten.Pairwise (fun a b => a.1 < b.1) := hinc.sublist hsub
  rw [List.pairwise_flatten] at hflat
  rw [hgen]
  constructor
  · intro r hr
    obtain ⟨P, hP, hs⟩ := List.mem_filterMap.mp hr
    obtain ⟨a, b, h1, h2, h3, ⟨k, hk⟩, ⟨k', hk'⟩⟩ := specRec_lines (hflat.1 P hP) hs
    have ra := hrange _ (hsub.subset (List.mem_flatten.mpr ⟨P, hP, hk⟩))
    have rb := hrange _ (hsub.subset (List.mem_flatten.mpr ⟨P, hP, hk'⟩))
    exact ⟨a, b, h1, h2, ra.1, h3, Nat.le_trans rb.2 hpl⟩
  · rw [List.pairwise_filterMap]
    refine hflat.2.imp_of_mem ?_
    intro P Q hP hQ hPQ r hr r' hr'
    obtain ⟨a, b, h1, h2, h3, ⟨k, hk⟩, ⟨k', hk'⟩⟩ := specRec_lines (hflat.1 P hP) hr
    obtain ⟨a', b', g1, g2, g3, ⟨l, hl⟩, ⟨l', hl'⟩⟩ := specRec_lines (hflat.1 Q hQ) hr'
    exact ⟨b, a', h2, g1, hPQ _ hk' _ hl⟩

/-! ## C14 -/

/-- A field name that can be written. -/
def LegalKey (k : Str) : Prop :=
  strip k = k ∧ ':' ∉ k ∧ '\n' ∉ k ∧ k.head? ≠ some '#'

/-- A value that the format can carry: no white space at either end and, if it spans lines, no
line of white space only and no line of white space and a single dot. -/
def Faithful (v : Str) : Prop :=
  strip v = v ∧ ('\n' ∈ v → ∀ l ∈ splitOn '\n' v,
    l = [] ∨ ((∃ c ∈ l, isSpace c = false) ∧ ¬ ∃ w, l = w ++ ['.'] ∧ ∀ c ∈ w, isSpace c = true))

theorem undot_of_faithful {l : Str} (h : ¬ ∃ w, l = w ++ ['.'] ∧ ∀ c ∈ w, isSpace c = true) :
    undot l = l := by
  unfold undot
  split
  · rename_i w hw
    split
    · rename_i hall
      refine absurd ⟨w.reverse, ?_, ?_⟩ h
      · have := congrArg List.reverse hw
        simpa using this
      · intro c hc
        exact (List.all_eq_true.mp hall) c (by simpa using hc)
    · rfl
  · rfl

theorem lcp_nil (r : Str) : lcp [] r = [] := by cases r <;> rfl

theorem foldl_lcp_nil (is : List Str) : is.foldl lcp [] = [] := by
  induction is with
  | nil => rfl
  | cons i is ih => rw [List.foldl_cons, lcp_nil, ih]

theorem blank_isSpace {c : Char} (h : isBlankChar c = true) : isSpace c = true := by
  unfold isBlankChar at h
  simp only [Bool.or_eq_true, decide_eq_true_eq] at h
  rcases h with rfl | rfl <;> decide

/-- The lines a multi-line value is dumped as come back as that value. -/
theorem normalize_dumped {v : Str} (hf : Faithful v) (hn : '\n' ∈ v) :
    normalize ((splitOn '\n' v).map fun l => (if l = [] then ['.'] else if l = ['.'] then
      ['.', '.'] else l) ++ ['\n']).flatten = v := by
  obtain ⟨hs, hl⟩ := hf
  have hl := hl hn
  generalize hL : splitOn '\n' v = L at hl
  have hne : L ≠ [] := hL ▸ splitOn_ne_nil _ _
  have hnl : ∀ l ∈ L, '\n' ∉ l := by
    intro l hl'; rw [← hL] at hl'; exact split_parts_no_sep _ l hl'
  have hv : joinWith '\n' L = v := by rw [← hL]; exact join_split _ _
  -- two lines at least
  obtain ⟨x, y, zs, rfl⟩ : ∃ x y zs, L = x :: y :: zs := by
    match L, hne with
    | [x], _ =>
      simp only [joinWith] at hv
      exact absurd (hv ▸ hn) (hnl x (by simp))
    | x :: y :: zs, _ => exact ⟨x, y, zs, rfl⟩
  have hdl : ∀ l ∈ (x :: y :: zs), (if l = [] then ['.'] else if l = ['.'] then
      ['.', '.'] else l) = if l = [] then ['.'] else l := by
    intro l hl'
    by_cases h1 : l = []
    · simp [h1]
    · rw [if_neg h1, if_neg h1]
      have := (hl l hl').resolve_left h1
      have h2 : l ≠ ['.'] := fun h => this.2 ⟨[], by simpa using h, by simp⟩
      rw [if_neg h2]
  -- the text that is normalized
  have hcat : ∀ ls : List Str, (ls.map fun l => l ++ ['\n']).flatten =
      joinWith '\n' (ls ++ [[]]) := by
    intro ls
    induction ls with
    | nil => rfl
    | cons a ls ih =>
      rw [List.cons_append, joinWith_cons _ _ (by simp), ← ih]
      simp
  have hraw : ((x :: y :: zs).map fun l => (if l = [] then ['.'] else if l = ['.'] then
      ['.', '.'] else l) ++ ['\n']).flatten =
      joinWith '\n' (((x :: y :: zs).map fun l => if l = [] then ['.'] else l) ++ [[]]) := by
    rw [← hcat, List.map_map]
    congr 1
    apply List.map_congr_left
    intro l hl'
    rw [hdl l hl']; rfl
  rw [hraw]
  have hparts : ∀ p ∈ ((x :: y :: zs).map fun l => if l = [] then ['.'] else l) ++ [([] : Str)],
      '\n' ∉ p := by
    intro p hp
    rcases List.mem_append.mp hp with hp | hp
    · obtain ⟨l, hl', rfl⟩ := List.mem_map.mp hp
      split
      · decide
      · exact hnl l hl'
    · simp at hp; simp [hp]
  have hsplit : splitOn '\n' (joinWith '\n' (((x :: y :: zs).map fun l =>
      if l = [] then ['.'] else l) ++ [[]])) =
      ((x :: y :: zs).map fun l => if l = [] then ['.'] else l) ++ [[]] :=
    split_join (by simp) hparts
  have hcount : 1 < (joinWith '\n' (((x :: y :: zs).map fun l =>
      if l = [] then ['.'] else l) ++ [[]])).count '\n' := by
    simp only [List.map_cons, List.cons_append, joinWith]
    rw [joinWith_cons _ _ (by simp)]
    simp only [List.count_append, List.count_cons, beq_self_eq_true, if_true]
    omega
  unfold normalize
  rw [if_pos hcount, hsplit]
  have hundot : (((x :: y :: zs).map fun l => if l = [] then ['.'] else l) ++ [[]]).map undot =
      (x :: y :: zs) ++ [[]] := by
    rw [List.map_append, List.map_map]
    congr 1
    conv => rhs; rw [← List.map_id (x :: y :: zs)]
    apply List.map_congr_left
    intro l hl'
    simp only [Function.comp_apply, id_eq]
    by_cases h1 : l = []
    · rw [if_pos h1, h1]; rfl
    · rw [if_neg h1]
      exact undot_of_faithful ((hl l hl').resolve_left h1).2
  rw [hundot]
  -- nothing to dedent
  have hfirst : ∃ c r, x = c :: r ∧ isSpace c = false := by
    have hh := (strip_eq_self.mp hs).1
    cases x with
    | nil =>
      have : v.head? = some '\n' := by
        rw [← hv, joinWith_cons _ _ (by simp)]; rfl
      exact absurd (hh _ this) (by decide)
    | cons c r =>
      refine ⟨c, r, rfl, hh c ?_⟩
      rw [← hv, joinWith_cons _ _ (by simp)]; rfl
  have hkeep : ((x :: y :: zs) ++ [[]]).map (fun l : Str => if l.all isBlankChar then [] else l) =
      (x :: y :: zs) ++ [[]] := by
    conv => rhs; rw [← List.map_id ((x :: y :: zs) ++ [[]])]
    apply List.map_congr_left
    intro l hl'
    simp only [id_eq]
    split
    · rename_i hall
      rcases List.mem_append.mp hl' with hl' | hl'
      · rcases hl l hl' with h | ⟨⟨c, hc, hcs⟩, _⟩
        · rw [h]
        · have := blank_isSpace ((List.all_eq_true.mp hall) c hc)
          rw [hcs] at this; simp at this
      · simp at hl'; rw [hl']
    · rfl
  have hmargin : margin ((x :: y :: zs) ++ [[]]) = [] := by
    obtain ⟨c, r, hx, hc⟩ := hfirst
    have hcb : isBlankChar c = false := by
      cases h : isBlankChar c with
      | false => rfl
      | true => rw [blank_isSpace h] at hc; simp at hc
    unfold margin
    rw [List.cons_append, List.filter_cons]
    have : (!(x.all isBlankChar)) = true := by rw [hx]; simp [hcb]
    rw [if_pos this, List.map_cons]
    simp only
    have : x.takeWhile isBlankChar = [] := by rw [hx]; simp [hcb]
    rw [this, foldl_lcp_nil]
  have hded : dedent ((x :: y :: zs) ++ [[]]) = (x :: y :: zs) ++ [[]] := by
    unfold dedent
    simp only
    rw [hkeep, hmargin]
    simp
  rw [hded]
  have hj : joinWith '\n' ((x :: y :: zs) ++ [[]]) = v ++ ['\n'] := by
    rw [← hv]
    have : ∀ ls : List Str, ls ≠ [] → joinWith '\n' (ls ++ [[]]) = joinWith '\n' ls ++ ['\n'] := by
      intro ls hls
      induction ls with
      | nil => exact absurd rfl hls
      | cons a ls ih =>
        cases ls with
        | nil => rfl
        | cons b bs =>
          have e1 : joinWith '\n' (a :: (b :: bs ++ [[]])) = _ :=
            joinWith_cons _ _ (by simp)
          have e2 : joinWith '\n' (a :: b :: bs) = _ := joinWith_cons _ _ (by simp)
          rw [List.cons_append, e1, ih (by simp), e2]
          simp
    exact this _ (by simp)
  rw [hj]
  obtain ⟨h1, h2⟩ := strip_eq_self.mp hs
  have hv0 : v ≠ [] := by intro h; rw [h] at hn; simp at hn
  unfold strip
  obtain ⟨c, hc⟩ : ∃ c, v.head? = some c := by
    cases v with
    | nil => exact absurd rfl hv0
    | cons a l => exact ⟨a, rfl⟩
  rw [lstrip_append_of_head hc (h1 c hc), rstrip_append_space (by simp; decide)]
  exact rstrip_eq_self.mpr h2

/-- The lines of a dumped field. -/
def fieldText (k v : Str) : List Str :=
  if '\n' ∈ v then (k ++ [':', '\n']) :: (splitOn '\n' v).map fun l =>
    ' ' :: ((if l = [] then ['.'] else if l = ['.'] then ['.', '.'] else l) ++ ['\n'])
  else [k ++ [':', ' '] ++ v ++ ['\n']]

theorem getLast_join {v : Str} : ∀ ls : List Str, ls.getLast? = some [] → 1 < ls.length →
    joinWith '\n' ls = v → v.getLast? = some '\n' := by
  intro ls h1 h2 h3
  obtain ⟨ls', rfl⟩ : ∃ ls', ls = ls' ++ [[]] := by
    rcases List.eq_nil_or_concat ls with rfl | ⟨ls', x, rfl⟩
    · simp at h1
    · simp at h1; exact ⟨ls', by rw [h1]; simp⟩
  have hne : ls' ≠ [] := by intro h; rw [h] at h2; simp at h2
  rw [← h3]
  clear h1 h2 h3
  induction ls' with
  | nil => exact absurd rfl hne
  | cons a ls ih =>
    rw [List.cons_append, joinWith_cons _ _ (by simp)]
    cases ls with
    | nil => simp [joinWith]
    | cons b bs =>
      have := ih (by simp)
      rw [List.getLast?_append, List.getLast?_cons, this]; rfl

theorem dumpField_lines {k v : Str} (hv : strip v = v) :
    dumpField k v = (fieldText k v).flatten := by
  unfold dumpField fieldText
  by_cases hn : '\n' ∈ v
  · rw [if_pos hn, if_pos hn]
    have hlast : ¬ (splitOn '\n' v).getLast? = some [] := by
      intro h
      have hlen : 1 < (splitOn '\n' v).length := by
        cases hsp : splitOn '\n' v with
        | nil => exact absurd hsp (splitOn_ne_nil _ _)
        | cons a ls =>
          cases ls with
          | nil =>
            exfalso
            have := join_split '\n' v
            rw [hsp] at this
            simp only [joinWith] at this
            have hp := split_parts_no_sep (sep := '\n') v a (by rw [hsp]; simp)
            rw [this] at hp; exact hp hn
          | cons b bs => simp
      have := getLast_join _ h hlen (join_split '\n' v)
      have h2 := (strip_eq_self.mp hv).2 _ this
      exact absurd h2 (by decide)
    simp only [if_neg hlast]
    unfold dumpPart
    rw [List.flatten_cons]
    have e : ":\n".toList = [':', '\n'] := by decide
    rw [e]
    congr 3
    funext l
    by_cases h1 : l = []
    · simp [h1]
    · by_cases h2 : l = ['.']
      · simp [h2]
      · simp [h1, h2]
  · rw [if_neg hn, if_neg hn]
    have e : ": ".toList = [':', ' '] := by decide
    simp [e]

theorem dump_lines {fs : List (Str × Str)} (hv : ∀ f ∈ fs, strip f.2 = f.2) :
    dump fs = (((fs.map fun f => fieldText f.1 f.2).flatten) ++ [['\n']]).flatten := by
  unfold dump
  rw [List.flatten_append]
  congr 1
  induction fs with
  | nil => rfl
  | cons f fs ih =>
    rw [List.map_cons, List.flatten_cons, List.map_cons, List.flatten_cons, List.flatten_append,
      dumpField_lines (hv f (by simp)), ih (fun g hg => hv g (by simp [hg]))]

/-- A list of lines each of which ends with its only newline is read back as these lines. -/
theorem linesKeep_lines (ls : List Str) (h : ∀ l ∈ ls, ∃ m, l = m ++ ['\n'] ∧ '\n' ∉ m) :
    linesKeep ls.flatten = ls := by
  induction ls with
  | nil => rfl
  | cons l ls ih =>
    obtain ⟨m, rfl, hm⟩ := h l (by simp)
    have := ih (fun x hx => h x (by simp [hx]))
    rw [List.flatten_cons, List.append_assoc]
    show linesKeep (m ++ '\n' :: ls.flatten) = _
    rw [linesKeep_append hm, this]

theorem fieldText_lines {k v : Str} (hk : '\n' ∉ k) :
    ∀ l ∈ fieldText k v, ∃ m, l = m ++ ['\n'] ∧ '\n' ∉ m := by
  unfold fieldText
  split
  · intro l hl
    rcases List.mem_cons.mp hl with rfl | hl
    · exact ⟨k ++ [':'], by simp, by simp [hk]⟩
    · obtain ⟨p, hp, rfl⟩ := List.mem_map.mp hl
      refine ⟨' ' :: (if p = [] then ['.'] else if p = ['.'] then ['.', '.'] else p), by simp, ?_⟩
      have := split_parts_no_sep v p hp
      split
      · decide
      · split
        · decide
        · simp [this]
  · rename_i hn
    intro l hl
    simp only [List.mem_singleton] at hl
    subst hl
    exact ⟨k ++ [':', ' '] ++ v, by simp, by simp [hk, hn]⟩

theorem takeWhile_key {k r : Str} (h : ':' ∉ k) :
    (k ++ ':' :: r).takeWhile (· ≠ ':') = k ∧ (k ++ ':' :: r).dropWhile (· ≠ ':') = ':' :: r := by
  refine takeWhile_append_stop _ k (':' :: r) ?_ ?_
  · intro c hc
    simp only [ne_eq, decide_eq_true_eq]
    exact fun h' => h (h' ▸ hc)
  · intro c r' hh
    simp only [List.cons.injEq] at hh
    simp [← hh.1]

theorem kind_field {k r : Str} (hk : LegalKey k) :
    kind (k ++ ':' :: r) = .field k (lstrip r) := by
  obtain ⟨h1, h2, h3, h4⟩ := hk
  obtain ⟨t1, t2⟩ := takeWhile_key (r := r) h2
  have hh : ∀ c, (k ++ ':' :: r).head? = some c → c ≠ '#' ∧ c ≠ ' ' := by
    intro c hc
    cases k with
    | nil => simp at hc; rw [← hc]; decide
    | cons a k =>
      simp at hc h4
      subst hc
      refine ⟨h4, ?_⟩
      rintro rfl
      have := (strip_eq_self.mp h1).1 ' ' rfl
      revert this; decide
  have hcolon : ':' ∈ k ++ ':' :: r := by simp
  unfold kind
  rw [if_neg (fun hx => (hh _ hx).1 rfl), if_neg (fun hx => by
      have := hx ':' hcolon; revert this; decide),
    if_neg (fun hx => (hh _ hx).2 rfl), if_pos hcolon]
  simp only [t1, t2, h1, List.tail_cons]

theorem kind_cont {t : Str} (h : ∃ c ∈ t, isSpace c = false) : kind (' ' :: t) = .cont t := by
  unfold kind
  obtain ⟨c, hc, hcs⟩ := h
  rw [if_neg (by simp), if_neg (fun hx => by
    have := hx c (by simp [hc]); rw [hcs] at this; simp at this), if_pos (by simp)]
  rfl

/-- Running the parser over one dumped field. -/
theorem run_field {k v : Str} (hk : LegalKey k) (hf : Faithful v) (s : St) (n : Nat)
    (hnew : k ∉ s.commit.fields.map (·.1)) (rest : List Str) :
    ∃ s' m raw, s'.key = some k ∧ s'.values.flatten = raw ∧ s'.fields = s.commit.fields ∧
      normalize raw = v ∧ run s n (fieldText k v ++ rest) = run s' m rest := by
  have hstep : ∀ r : Str, ∃ s', step s n (k ++ ':' :: r) = .ok ([], s') ∧ s'.key = some k ∧
      s'.values = (if lstrip r = [] then [] else [lstrip r]) ∧ s'.fields = s.commit.fields := by
    intro r
    obtain ⟨h1, h2, h3, h4⟩ := hk
    obtain ⟨t1, t2⟩ := takeWhile_key (r := r) h2
    have hkd := kind_field ⟨h1, h2, h3, h4⟩ (r := r)
    have c1 : ¬ ['#'].isPrefixOf (k ++ ':' :: r) = true := by
      intro hx
      cases k with
      | nil => simp [List.isPrefixOf] at hx
      | cons a k => simp [List.isPrefixOf] at hx h4; exact h4 hx.symm
    have hcolon : ':' ∈ k ++ ':' :: r := by simp
    have c2 : ¬ strip (k ++ ':' :: r) = [] := by
      rw [strip_eq_nil]; intro hx
      have := hx ':' hcolon; revert this; decide
    have c3 : ¬ [' '].isPrefixOf (k ++ ':' :: r) = true := by
      intro hx
      cases k with
      | nil => simp [List.isPrefixOf] at hx
      | cons a k =>
        simp [List.isPrefixOf] at hx
        have := (strip_eq_self.mp h1).1 a rfl
        rw [← hx] at this; revert this; decide
    have hC : ({ s with start := some (s.start.getD n) } : St).commit.fields = s.commit.fields := by
      unfold St.commit; cases s.key <;> rfl
    unfold step
    rw [if_neg c1, if_neg c2, if_neg c3, if_pos hcolon]
    simp only [t1, t2, h1, List.drop_one, List.tail_cons]
    rw [if_neg (by rw [hC]; exact hnew)]
    refine ⟨_, rfl, rfl, ?_, hC⟩
    simp only
    by_cases hv : lstrip r = []
    · rw [if_neg (fun hx => hx ((value_blank r).mpr hv)), if_pos hv]
    · rw [if_pos (by rw [Ne, value_blank]; exact hv), if_neg hv]
  by_cases hn : '\n' ∈ v
  · -- a multi-line value
    unfold fieldText
    rw [if_pos hn]
    obtain ⟨s1, e1, k1, v1, f1⟩ := hstep ['\n']
    have hl0 : lstrip ['\n'] = [] := by decide
    rw [hl0, if_pos rfl] at v1
    have hconts : ∀ (ls : List Str) (s1 : St) (m : Nat), s1.key = some k →
        (∀ l ∈ ls, ∃ c ∈ (if l = [] then ['.'] else if l = ['.'] then ['.', '.'] else l),
          isSpace c = false) →
        ∃ s2 m', s2.key = some k ∧ s2.fields = s1.fields ∧
          s2.values.flatten = s1.values.flatten ++ (ls.map fun l =>
            (if l = [] then ['.'] else if l = ['.'] then ['.', '.'] else l) ++ ['\n']).flatten ∧
          run s1 m (ls.map (fun l => ' ' :: ((if l = [] then ['.'] else if l = ['.'] then
            ['.', '.'] else l) ++ ['\n'])) ++ rest) = run s2 m' rest := by
      intro ls
      induction ls with
      | nil => intro s1 m hk1 _; exact ⟨s1, m, hk1, rfl, by simp, rfl⟩
      | cons l ls ih =>
        intro s1 m hk1 hls
        obtain ⟨c, hc, hcs⟩ := hls l (by simp)
        generalize hd : (if l = [] then ['.'] else if l = ['.'] then ['.', '.'] else l) = d at hc
        have hs : step s1 m (' ' :: (d ++ ['\n'])) =
            .ok ([], { s1 with values := s1.values ++ [d ++ ['\n']], stop := some m }) := by
          unfold step
          rw [if_neg (by simp [List.isPrefixOf]), if_neg (by
            rw [strip_eq_nil]; intro hx
            have := hx c (by simp [hc]); rw [hcs] at this; simp at this),
            if_pos (by simp [List.isPrefixOf]), hk1]
          rfl
        obtain ⟨s2, m', a, b, c', d'⟩ :=
          ih { s1 with values := s1.values ++ [d ++ ['\n']], stop := some m } (m + 1) hk1
            (fun x hx => hls x (by simp [hx]))
        refine ⟨s2, m', a, b, ?_, ?_⟩
        · rw [c']; simp [hd]
        · rw [List.map_cons, hd, List.cons_append, run, hs]
          simp only [List.nil_append]
          rw [d']
    have hfl := hf.2 hn
    obtain ⟨s2, m', a, b, c, d⟩ := hconts (splitOn '\n' v) s1 (n + 1) k1 (by
      intro l hl
      split
      · exact ⟨'.', by simp, by decide⟩
      · split
        · exact ⟨'.', by simp, by decide⟩
        · rename_i h1 _; exact ((hfl l hl).resolve_left h1).1)
    refine ⟨s2, m', _, a, c, by rw [b, f1], ?_, ?_⟩
    · rw [v1]
      simpa using normalize_dumped hf hn
    · rw [List.cons_append, run]
      have : k ++ [':', '\n'] = k ++ ':' :: ['\n'] := rfl
      rw [this, e1]
      simp only [List.nil_append]
      rw [d]
  · -- a value on the line of the key
    unfold fieldText
    rw [if_neg hn]
    obtain ⟨s1, e1, k1, v1, f1⟩ := hstep (' ' :: (v ++ ['\n']))
    have hls : lstrip (' ' :: (v ++ ['\n'])) = if v = [] then [] else v ++ ['\n'] := by
      have : lstrip (' ' :: (v ++ ['\n'])) = lstrip (v ++ ['\n']) := by
        unfold lstrip; rw [List.dropWhile_cons, if_pos (by decide)]
      rw [this]
      by_cases hv : v = []
      · rw [hv]; decide
      · rw [if_neg hv]
        obtain ⟨c, hc⟩ : ∃ c, v.head? = some c := by
          cases v with
          | nil => exact absurd rfl hv
          | cons a l => exact ⟨a, rfl⟩
        exact lstrip_append_of_head hc ((strip_eq_self.mp hf.1).1 c hc)
    refine ⟨s1, n + 1, _, k1, rfl, f1, ?_, ?_⟩
    · rw [v1, hls]
      by_cases hv : v = []
      · simp [hv]; decide
      · rw [if_neg hv, if_neg (by simp)]
        unfold normalize
        have hc0 : v.count '\n' = 0 := List.count_eq_zero.mpr hn
        rw [if_neg (by simp [hc0])]
        simp only [List.flatten_singleton]
        obtain ⟨c, hc⟩ : ∃ c, v.head? = some c := by
          cases v with
          | nil => exact absurd rfl hv
          | cons a l => exact ⟨a, rfl⟩
        unfold strip
        rw [lstrip_append_of_head hc ((strip_eq_self.mp hf.1).1 c hc),
          rstrip_append_space (by simp; decide)]
        exact rstrip_eq_self.mpr (strip_eq_self.mp hf.1).2
    · have : k ++ [':', ' '] ++ v ++ ['\n'] = k ++ ':' :: (' ' :: (v ++ ['\n'])) := by simp
      rw [this, List.singleton_append, run, e1]
      simp

theorem run_fields (fs : List (Str × Str)) (hk : ∀ f ∈ fs, LegalKey f.1)
    (hf : ∀ f ∈ fs, Faithful f.2) (hnd : (fs.map (·.1)).Nodup) (s : St) (n : Nat)
    (hnew : ∀ f ∈ fs, f.1 ∉ s.commit.fields.map (·.1)) (rest : List Str) :
    ∃ s' m raws, s'.commit.fields = s.commit.fields ++ raws ∧
      raws.map (fun f => (f.1, normalize f.2)) = fs ∧
      run s n ((fs.map fun f => fieldText f.1 f.2).flatten ++ rest) = run s' m rest := by
  induction fs generalizing s n with
  | nil => exact ⟨s, n, [], by simp, rfl, rfl⟩
  | cons f fs ih =>
    obtain ⟨k, v⟩ := f
    obtain ⟨s1, m, raw, h1, h2, h3, h4, h5⟩ := run_field (hk (k, v) (by simp)) (hf (k, v) (by simp))
      s n (hnew (k, v) (by simp)) ((fs.map fun f => fieldText f.1 f.2).flatten ++ rest)
    have hc : s1.commit.fields = s.commit.fields ++ [(k, raw)] := by
      rw [commit_some s1 h1, ← h3, ← h2]
    simp only [List.map_cons, List.nodup_cons] at hnd
    obtain ⟨s2, m2, raws, g1, g2, g3⟩ := ih (fun g hg => hk g (by simp [hg]))
      (fun g hg => hf g (by simp [hg])) hnd.2 s1 m (by
        intro g hg
        rw [hc]
        simp only [List.map_append, List.map_cons, List.map_nil, List.mem_append,
          List.mem_singleton, not_or]
        exact ⟨hnew g (by simp [hg]), fun he => hnd.1 (List.mem_map.mpr ⟨g, hg, he⟩)⟩)
    refine ⟨s2, m2, (k, raw) :: raws, ?_, ?_, ?_⟩
    · rw [g1, hc]; simp
    · simp [h4, g2]
    · rw [List.map_cons, List.flatten_cons, List.append_assoc, h5, g3]

/-- **C14** for the values the format can carry (`Faithful`): dumping a record and loading the text
gives exactly one record, with the same fields in the same order and the same values. -/
theorem C14_round_trip_partial (fs : List (Str × Str)) (hne : fs ≠ [])
    (hk : ∀ f ∈ fs, LegalKey f.1) (hnd : (fs.map (·.1)).Nodup) (hf : ∀ f ∈ fs, Faithful f.2) :
    ∃ r, gen (linesKeep (dump fs)) = ([r], none) ∧ r.data = fs := by
  rw [dump_lines (fun f h => (hf f h).1)]
  rw [linesKeep_lines _ (by
    intro l hl
    rcases List.mem_append.mp hl with hl | hl
    · obtain ⟨L, hL, hlL⟩ := List.mem_flatten.mp hl
      obtain ⟨f, hfm, rfl⟩ := List.mem_map.mp hL
      exact fieldText_lines (hk f hfm).2.2.1 l hlL
    · simp at hl; exact ⟨[], by simp [hl], by simp⟩)]
  obtain ⟨s, m, raws, h1, h2, h3⟩ := run_fields fs hk hf hnd St.new 1 (by simp [St.new, St.commit])
    [['\n']]
  unfold gen
  rw [h3]
  have hstep : step s m ['\n'] = .ok (s.commit.emit, St.new) := by
    unfold step
    rw [if_neg (by decide), if_pos (by decide)]
  have hraw : s.commit.fields = raws := by rw [h1]; simp [St.new, St.commit]
  have hr0 : raws ≠ [] := by intro h; rw [h] at h2; exact hne h2.symm
  refine ⟨⟨raws, s.commit.start, s.commit.stop, s.commit.offsets⟩, ?_, h2⟩
  simp only [run, hstep]
  have he : s.commit.emit = [⟨raws, s.commit.start, s.commit.stop, s.commit.offsets⟩] := by
    unfold St.emit
    rw [hraw, if_neg (by simpa using hr0)]
  rw [he]
  rfl

/-- Every value of a loaded record is free of white space at its ends, so the restriction of
`C14_round_trip_partial` to such values cannot be lifted. -/
theorem C14_loaded_values_stripped (lines : List Str) :
    ∀ r ∈ (gen lines).1, ∀ f ∈ r.data, strip f.2 = f.2 := by
  intro r _ f hf
  obtain ⟨g, _, rfl⟩ := List.mem_map.mp hf
  unfold normalize
  split <;> exact strip_idem _

/-- **C14** is false as stated: a line that is a single dot comes back as two dots, a line of white
space and a dot loses the dot, a line of white space ends the record, and white space at the ends
of a value is lost. -/
theorem C14_violated :
    ((gen (linesKeep (dump [("a".toList, "x\n.\ny".toList)]))).1.map Rec.data =
      [[("a".toList, "x\n..\ny".toList)]]) ∧
    ((gen (linesKeep (dump [("a".toList, "x\n .\ny".toList)]))).1.map Rec.data =
      [[("a".toList, "x\n\ny".toList)]]) ∧
    ((gen (linesKeep (dump [("a".toList, "x\n \ny".toList)]))).1.map Rec.data =
      [[("a".toList, "x".toList)]]) ∧
    ((gen (linesKeep (dump [("a".toList, "x\ny\n".toList)]))).1.map Rec.data =
      [[("a".toList, "x\ny".toList)]]) ∧
    ((gen (linesKeep (dump [("a".toList, " x".toList)]))).1.map Rec.data =
      [[("a".toList, "x".toList)]]) := by
  decide +kernel

/-! ## C50 -/

/-- **C50.**  Storing the output of a resource job that has an outcome: the records of the complete
paragraphs before the first bad line (all paragraphs when there is none) become the value, an empty
resource when there are none; the earlier value and everything else about the job is irrelevant,
other jobs keep their values; without an outcome nothing changes. -/
theorem C50_resource_output {I : Type} [DecidableEq I]
    (m : I → Option (List (List (Str × Str)))) (id : I) (lines : List Str) :
    (∀ other, other ≠ id → ∀ b, storeResource m id b lines other = m other) ∧
    storeResource m id false lines = m ∧
    (∀ Ps : List (List NLine),
      ((Good lines ∧ Ps = (sections (numbered lines)).1 ++ [(sections (numbered lines)).2]) ∨
       (∃ pre line post r, lines = pre ++ line :: post ∧ Good pre ∧ Bad pre line r ∧
          Ps = (sections (numbered pre)).1)) →
      storeResource m id true lines id =
        some (if (Ps.filterMap specRec) = [] then [[]] else (Ps.filterMap specRec).map Rec.data)) ∧
    (∀ m' b ls, storeResource (storeResource m' id b ls) id true lines id =
      storeResource m id true lines id) := by
  refine ⟨?_, rfl, ?_, ?_⟩
  · intro other ho b
    cases b <;> simp [storeResource, ho]
  · intro Ps hPs
    have hg : (gen lines).1 = Ps.filterMap specRec := by
      rcases hPs with ⟨hg, rfl⟩ | ⟨pre, line, post, r, hl, hg, hb, rfl⟩
      · rw [(C15_parse lines).1 hg]
      · rw [(C15_parse lines).2 pre line post r hl hg hb]
    simp [storeResource, recordsFromOutput, hg]
  · intro m' b ls
    simp [storeResource]

/-! ## Concrete cases -/

def exText : Str := "# c\nid: a\nv:\n x\n .\n  y\n\n\nid: b\n# c\nw: 1\nid: c\n".toList

example : gen (linesKeep exText) =
    ([⟨[("id".toList, "a\n".toList), ("v".toList, "x\n.\n y\n".toList)], some 2, some 6,
      [("id".toList, 0), ("v".toList, 2)]⟩], some (12, .duplicate)) := by decide +kernel
example : ((gen (linesKeep exText)).1.map Rec.data) =
    [[("id".toList, "a".toList), ("v".toList, "x\n\n y".toList)]] := by decide +kernel

example : LegalKey "name".toList ∧ Faithful "x\n\n y.".toList ∧ Faithful ".".toList := by
  refine ⟨by refine ⟨?_, ?_, ?_, ?_⟩ <;> decide +kernel, ⟨by decide +kernel, ?_⟩,
    ⟨by decide +kernel, ?_⟩⟩
  · intro _ l hl
    have : splitOn '\n' "x\n\n y.".toList = ["x".toList, [], " y.".toList] := by decide +kernel
    rw [this] at hl
    simp only [List.mem_cons, List.not_mem_nil, or_false] at hl
    rcases hl with rfl | rfl | rfl
    · right
      refine ⟨⟨'x', by decide, by decide⟩, ?_⟩
      rintro ⟨w, hw, _⟩
      have := congrArg List.getLast? hw
      simp at this
    · left; rfl
    · right
      refine ⟨⟨'y', by decide, by decide⟩, ?_⟩
      rintro ⟨w, hw, hs⟩
      have hw' : w = [' ', 'y'] := by
        have : [' ', 'y'] ++ ['.'] = w ++ ['.'] := hw
        exact (List.append_inj_left' this rfl).symm
      have := hs 'y' (by rw [hw']; simp)
      revert this; decide
  · intro h; exact absurd h (by decide)

theorem splitOn_sep (sep : Char) (a b : Str) :
    splitOn sep (a ++ sep :: b) = splitOn sep a ++ splitOn sep b := by
  induction a with
  | nil => simp [splitOn]
  | cons c a ih =>
    rw [List.cons_append, splitOn, splitOn]
    by_cases h : c = sep
    · rw [if_pos h, if_pos h, ih]; rfl
    · rw [if_neg h, if_neg h, ih]
      cases hs : splitOn sep a with
      | nil => exact absurd hs (splitOn_ne_nil _ _)
      | cons x xs => rfl

theorem splitOn_last {v : Str} (hn : '\n' ∈ v) (h : (splitOn '\n' v).getLast? = some []) :
    v.getLast? = some '\n' := by
  refine getLast_join _ h ?_ (join_split '\n' v)
  obtain ⟨a, b, rfl⟩ := List.append_of_mem hn
  rw [splitOn_sep, List.length_append]
  have h1 := List.length_pos_iff.2 (splitOn_ne_nil '\n' a)
  have h2 := List.length_pos_iff.2 (splitOn_ne_nil '\n' b)
  omega

/-- C14, one final newline of a value with several lines is not written; a further one is. -/
theorem C14_trailing_newline (k v : Str) (hn : '\n' ∈ v) (hv : v.getLast? ≠ some '\n') :
    dumpField k (v ++ ['\n']) = dumpField k v ∧
      dumpField k (v ++ ['\n', '\n']) = dumpField k v ++ [' ', '.', '\n'] := by
  have hlast : ¬ (splitOn '\n' v).getLast? = some [] := fun h => hv (splitOn_last hn h)
  have e1 : splitOn '\n' (v ++ ['\n']) = splitOn '\n' v ++ [[]] := splitOn_sep '\n' v []
  have e2 : splitOn '\n' (v ++ ['\n', '\n']) = splitOn '\n' v ++ [[], []] := splitOn_sep '\n' v ['\n']
  have e3 : splitOn '\n' v ++ [[], []] = (splitOn '\n' v ++ [[]]) ++ [[]] := by simp
  unfold dumpField
  rw [if_pos (by simp), if_pos hn, if_pos (by simp), e1, e2, e3]
  simp only [List.getLast?_append, List.getLast?_singleton, Option.some_or, if_true,
    List.dropLast_concat, if_neg hlast, true_and]
  simp [dumpPart]

example : '\n' ∈ "a\nb".toList ∧ "a\nb".toList.getLast? ≠ some '\n' ∧
    dumpField "k".toList "a\nb\n".toList = "k:\n a\n b\n".toList := by decide +kernel

end Verif.RFC822
