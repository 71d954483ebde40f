import Verif.Lemmas.IniText
import Verif.Props.ConfigWrite

/-!
# C106: the text of a configuration file

`C106_kept`: what comes back of data that were written as text.  `C106_value_iff`: the values that come back
unchanged.  `C106_round_partial`: data that come back unchanged, also through a file
(`C106_file_partial`).  `C106_config_partial`: a configuration object that is written and read has the same
values.  `C106_later`, `C106_files`: of several files the last one that has an option counts.
`C106_crash_partial`: when reading fails with an exception that is not a `configparser.Error`.
`C106_hash_violated`, `C106_indent_violated`, `C106_end_violated`, `C106_return_violated`,
`C106_bracket_violated`, `C106_name_violated`, `C106_crash_violated`: what goes wrong.
-/

namespace Verif.IniText

open Verif.Restart (Str)
open Verif.Text
open Verif.Config (DEFAULT)

/-! ## Specification -/

/-- No white space at the ends. -/
def Trim (l : Str) : Prop := (∀ c, l.head? = some c → isSpace c = false) ∧ ∀ c, l.getLast? = some c → isSpace c = false

/-- Names of options that can be told from the rest of a file. -/
structure Named (k : Str) : Prop where
  full : k ≠ []
  trim : Trim k
  first : ∀ c, k.head? = some c → c ≠ '#' ∧ c ≠ ';' ∧ c ≠ '['
  plain : '=' ∉ k ∧ '\n' ∉ k

/-- Data of a parser whose names can be written. -/
structure Sane (d : Data) : Prop where
  sections : d.sections.Nodup
  default : DEFAULT ∉ d.sections
  keys : (d.opts.map (·.1)).Nodup
  known : ∀ e ∈ d.opts, e.1.1 = DEFAULT ∨ e.1.1 ∈ d.sections
  headed : ∀ s ∈ d.sections, s ≠ [] ∧ ']' ∉ s ∧ '\n' ∉ s
  named : ∀ e ∈ d.opts, Named e.1.2

/-- A line of a value, stripped, unless it is lost because it looks like a comment. -/
def remains (l : Str) : Option Str :=
  match strip l with
  | '#' :: _ => none
  | ';' :: _ => none
  | s => some s

/-- What comes back of a value: its lines are stripped, lines after the first that look like comments are
lost, and so is the white space at the end. -/
def kept (v : Str) : Str :=
  match splitOn '\n' v with
  | [] => []
  | f :: rest => rstrip (joinWith '\n' (strip f :: rest.filterMap remains))

/-- Values whose lines have no white space at their ends, do not look like comments, and of which the last is
not empty. -/
structure Clean (v : Str) : Prop where
  trim : ∀ l ∈ splitOn '\n' v, Trim l
  comment : ∀ l ∈ (splitOn '\n' v).tail, l.head? ≠ some '#' ∧ l.head? ≠ some ';'
  ending : v.getLast? ≠ some '\n'

/-- What a new parser has after it read a text. -/
def option (text : Str) (k : Key) : Option (Option Str) := find k (read noData text).1.opts

/-! ## Lemmas -/

theorem good_of_named {k : Str} (h : Named k) : GoodName k := by
  cases k with
  | nil => exact absurd rfl h.full
  | cons c r =>
    have := h.first c rfl
    exact ⟨c, r, rfl, strip_eq_self.2 h.trim, this.1, this.2.1, this.2.2, h.plain.1, h.plain.2⟩

theorem named_of {k : Str} (h : k ≠ [] ∧ strip k = k ∧ k.head? ≠ some '#' ∧ k.head? ≠ some ';' ∧ k.head? ≠ some '[' ∧
    '=' ∉ k ∧ '\n' ∉ k) : Named k := by
  obtain ⟨h1, h2, h3, h4, h5, h6, h7⟩ := h
  refine ⟨h1, strip_eq_self.1 h2, ?_, h6, h7⟩
  intro c hc
  rw [hc] at h3 h4 h5
  exact ⟨fun e => h3 (by rw [e]), fun e => h4 (by rw [e]), fun e => h5 (by rw [e])⟩

theorem remains_eq (l : Str) : remains l = keepLine l := by
  unfold remains keepLine
  cases h : strip l with
  | nil => simp [isComment]
  | cons c r =>
    by_cases h1 : c = '#'
    · subst h1; simp [isComment]
    · by_cases h2 : c = ';'
      · subst h2; simp [isComment]
      · simp only [isComment, List.head?_cons, Option.some.injEq, h1, h2, decide_false, Bool.or_self]
        split
        · rename_i heq; simp only [List.cons.injEq] at heq; exact absurd heq.1 h1
        · rename_i heq; simp only [List.cons.injEq] at heq; exact absurd heq.1 h2
        · rfl

theorem kept_eq (v : Str) : joined (rawOf (some v)) = some (kept v) := by
  simp only [rawOf, joined, keptLines, kept]
  cases splitOn '\n' v with
  | nil => rfl
  | cons f rest => simp only [funext remains_eq]

theorem strip_length (l : Str) : (strip l).length ≤ l.length ∧ ((strip l).length = l.length → strip l = l) := by
  have h1 : (lstrip l).length ≤ l.length := (List.dropWhile_suffix _).length_le
  have hr : ∀ l : Str, rstrip l <+: l := by
    intro l
    have := (List.dropWhile_suffix isSpace (l := l.reverse))
    simpa [rstrip] using List.reverse_prefix.2 this
  have h2 := (hr (lstrip l)).length_le
  refine ⟨by simp only [strip]; omega, fun h => ?_⟩
  have e1 : lstrip l = l := (List.dropWhile_suffix _).eq_of_length (Nat.le_antisymm h1 (h.symm ▸ h2 : l.length ≤ (lstrip l).length))
  rw [strip, e1] at h ⊢
  exact (hr l).eq_of_length h

theorem rstrip_length (l : Str) : (rstrip l).length ≤ l.length ∧ ((rstrip l).length = l.length → rstrip l = l) := by
  have hr : rstrip l <+: l := by
    have := (List.dropWhile_suffix isSpace (l := l.reverse))
    simpa [rstrip] using List.reverse_prefix.2 this
  exact ⟨hr.length_le, hr.eq_of_length⟩

/-- The size of lines after a first one. -/
def size (ls : List Str) : Nat := (ls.map fun l => l.length + 1).sum

theorem join_size (f : Str) (ls : List Str) : (joinWith '\n' (f :: ls)).length = f.length + size ls := by
  induction ls generalizing f with
  | nil => simp [joinWith, size]
  | cons g ls ih =>
    rw [joinWith_cons '\n' f (by simp)]
    simp only [List.length_append, List.length_cons, ih, size, List.map_cons, List.sum_cons]
    omega

theorem filter_size (ls : List Str) : size (ls.filterMap remains) ≤ size ls ∧
    (size (ls.filterMap remains) = size ls → ∀ l ∈ ls, remains l = some l) := by
  induction ls with
  | nil => simp
  | cons l ls ih =>
    have hl := strip_length l
    simp only [remains_eq, List.filterMap_cons] at ih ⊢
    have ekeep : keepLine l = none ∨ keepLine l = some (strip l) := by unfold keepLine; split <;> simp
    rcases ekeep with e | e
    · simp only [e, size, List.map_cons, List.sum_cons] at ih ⊢
      have := ih.1
      exact ⟨by omega, by intro h; omega⟩
    · simp only [e, size, List.map_cons, List.sum_cons] at ih ⊢
      have := ih.1
      refine ⟨by omega, fun h x hx => ?_⟩
      rcases List.mem_cons.1 hx with rfl | hx
      · rw [e, hl.2 (by omega)]
      · exact ih.2 (by omega) x hx

theorem strip_self_iff {l : Str} : strip l = l ↔ Trim l := strip_eq_self

theorem remains_self_iff {l : Str} : remains l = some l ↔ Trim l ∧ l.head? ≠ some '#' ∧ l.head? ≠ some ';' := by
  rw [remains_eq, ← strip_self_iff]
  unfold keepLine
  constructor
  · intro h
    split at h
    · simp at h
    · rename_i hc
      simp only [Option.some.injEq] at h
      rw [h] at hc
      simp only [isComment, Bool.or_eq_true, decide_eq_true_eq, not_or] at hc
      exact ⟨h, hc.1, hc.2⟩
  · rintro ⟨h, h1, h2⟩
    rw [h]
    simp [isComment, h1, h2]

theorem kept_iff (v : Str) : kept v = v ↔ Clean v := by
  have hj := join_split '\n' v
  unfold kept
  cases hv : splitOn '\n' v with
  | nil => exact absurd hv (splitOn_ne_nil _ _)
  | cons f rest =>
    rw [hv] at hj
    dsimp only
    constructor
    · intro h
      have hf := strip_length f
      have hr := filter_size rest
      have hs := rstrip_length (joinWith '\n' (strip f :: rest.filterMap remains))
      have e := congrArg List.length h
      have e2 := congrArg List.length hj
      rw [join_size] at hs e2
      have h1 : strip f = f := hf.2 (by omega)
      have h2 := hr.2 (by omega)
      have h3 := hs.2 (by omega)
      have hm : rest.filterMap remains = rest := by
        have : ∀ ls : List Str, (∀ l ∈ ls, remains l = some l) → ls.filterMap remains = ls := by
          intro ls
          induction ls with
          | nil => intro _; rfl
          | cons l ls ih =>
            intro h
            rw [List.filterMap_cons_some (h l (by simp)), ih fun x hx => h x (by simp [hx])]
        exact this rest h2
      rw [h1, hm, hj] at h3
      refine ⟨?_, ?_, ?_⟩
      · rw [hv]
        intro l hl
        rcases List.mem_cons.1 hl with rfl | hl
        · exact strip_self_iff.1 h1
        · exact (remains_self_iff.1 (h2 l hl)).1
      · rw [hv]
        exact fun l hl => (remains_self_iff.1 (h2 l hl)).2
      · intro hn
        have := rstrip_eq_self.1 h3 '\n' hn
        revert this
        decide
    · intro h
      have h1 := h.trim
      have h2 := h.comment
      rw [hv] at h1 h2
      have e1 : strip f = f := strip_self_iff.2 (h1 f (by simp))
      have e2 : ∀ ls : List Str, (∀ l ∈ ls, remains l = some l) → ls.filterMap remains = ls := by
        intro ls
        induction ls with
        | nil => intro _; rfl
        | cons l ls ih =>
          intro h
          rw [List.filterMap_cons_some (h l (by simp)), ih fun x hx => h x (by simp [hx])]
      rw [e1, e2 rest fun l hl => remains_self_iff.2 ⟨h1 l (by simp [hl]), h2 l hl⟩, hj]
      refine rstrip_eq_self.2 ?_
      intro c hc
      -- the last character is the last of a line or a line end
      have hlast : ∀ (ls : List Str) (f : Str), (∀ l ∈ f :: ls, Trim l) → (joinWith '\n' (f :: ls)).getLast? = some c →
          c = '\n' ∨ isSpace c = false := by
        intro ls
        induction ls with
        | nil => intro f ht hc; exact .inr ((ht f (by simp)).2 c hc)
        | cons g ls ih =>
          intro f ht hc
          rw [joinWith_cons '\n' f (by simp), List.getLast?_append, List.getLast?_cons] at hc
          cases hg : (joinWith '\n' (g :: ls)).getLast? with
          | none =>
            rw [hg] at hc
            simp at hc
            exact .inl hc.symm
          | some x =>
            rw [hg] at hc
            simp at hc
            subst hc
            exact ih g (fun l hl => ht l (by simp only [List.mem_cons] at hl ⊢; exact .inr hl)) hg
      rcases hlast rest f h1 (hj ▸ hc) with e | e
      · subst e; exact absurd hc h.ending
      · exact e

/-! ## Writing and reading -/

/-- The options in the order of the text. -/
def ordered (d : Data) (s : Str) : List (Key × Option Str) :=
  (Sort.sortBy (fun a b => Sort.strLe a.1 b.1) (d.of s)).map fun e => ((s, e.1), joined (rawOf e.2))

theorem mem_of {d : Data} {s o : Str} {v : Option Str} : (o, v) ∈ d.of s ↔ ((s, o), v) ∈ d.opts := by
  simp only [Data.of, List.mem_map, List.mem_filter, decide_eq_true_eq, Prod.mk.injEq]
  constructor
  · rintro ⟨⟨⟨s', o'⟩, v'⟩, ⟨h, hs⟩, rfl, rfl⟩
    dsimp only at hs
    subst hs
    exact h
  · intro h
    exact ⟨((s, o), v), ⟨h, rfl⟩, rfl, rfl⟩

theorem nodup_of {d : Data} (h : (d.opts.map (·.1)).Nodup) (s : Str) : ((d.of s).map (·.1)).Nodup := by
  have h1 : ((d.opts.filter fun e => e.1.1 = s).map (·.1)).Nodup := h.sublist (List.filter_sublist.map _)
  have e : ((d.of s).map (·.1)).map (fun o => (s, o)) = (d.opts.filter fun e => e.1.1 = s).map (·.1) := by
    simp only [Data.of, List.map_map]
    refine List.map_congr_left ?_
    rintro ⟨⟨a, b⟩, v⟩ hm
    simp only [List.mem_filter, decide_eq_true_eq] at hm
    simp [hm.2]
  rw [← e] at h1
  refine List.Pairwise.of_map (fun o => (s, o)) ?_ h1
  intro a b hab he
  exact hab (by simp [he])

/-- Sections that are written one after the other. -/
theorem steps_sections {d : Data} (hd : Sane d) : ∀ (ss : List Str) (st : St),
    (∀ s ∈ ss, s ∈ d.sections) → ss.Nodup → (∀ s ∈ ss, s ∉ st.sections) →
    (∀ s ∈ ss, ∀ o, (s, o) ∉ st.addedO) → st.addedO = st.opts.map (·.1) →
    ∃ st', steps ((ss.flatMap fun s => sectionLines s (d.of s)).map (· ++ ['\n'])) st = .ok st' ∧
      view st' = view st ++ ss.flatMap (ordered d) ∧ st'.sections = st.sections ++ ss ∧ st'.bad = st.bad := by
  intro ss
  induction ss with
  | nil => intro st _ _ _ _ _; exact ⟨st, rfl, by simp, by simp, rfl⟩
  | cons s ss ih =>
    intro st hm hn h1 h2 hk
    simp only [List.nodup_cons] at hn
    have hs := hm s (by simp)
    have hdef : s ≠ DEFAULT := fun e => hd.default (e ▸ hs)
    obtain ⟨st1, e1, e2, e3, e4, e5⟩ := steps_section (s := s) (es := d.of s) (st := st)
      (hd.headed s hs) (fun e he => good_of_named (hd.named _ (mem_of (v := e.2).1 he))) (nodup_of hd.keys s)
      (h1 s (by simp)) (h2 s (by simp)) hk
    rw [if_neg hdef] at e4
    obtain ⟨st2, f1, f2, f3, f4⟩ := ih st1 (fun x hx => hm x (by simp [hx])) hn.2 (by
        intro x hx h
        rw [e4] at h
        rcases List.mem_append.1 h with h | h
        · exact h1 x (by simp [hx]) h
        · simp only [List.mem_singleton] at h; exact hn.1 (h ▸ hx)) (by
        intro x hx o h
        have hview : st1.opts.map (·.1) = (view st1).map (·.1) := by simp [view]
        rw [e3, hview, e2, List.map_append] at h
        rcases List.mem_append.1 h with h | h
        · have : (view st).map (·.1) = st.opts.map (·.1) := by simp [view]
          rw [this, ← hk] at h
          exact h2 x (by simp [hx]) o h
        · simp only [List.map_map, List.mem_map] at h
          obtain ⟨e, -, he⟩ := h
          simp only [Function.comp, Prod.mk.injEq] at he
          exact hn.1 (he.1 ▸ hx)) e3
    refine ⟨st2, ?_, ?_, ?_, ?_⟩
    · rw [List.flatMap_cons, List.map_append, steps_append _ _ _ _ e1, f1]
    · rw [f2, e2]; simp [ordered]
    · rw [f3, e4]; simp
    · rw [f4, e5]

/-- The lines of the text. -/
def textLines (d : Data) : List Str :=
  (if d.of DEFAULT = [] then [] else sectionLines DEFAULT (d.of DEFAULT)) ++
    d.sections.flatMap fun s => sectionLines s (d.of s)

theorem write_lines (d : Data) : write d = ((textLines d).map (· ++ ['\n'])).flatten := by
  have h : ∀ ss : List Str, ss.flatMap (fun s => writeSection s (d.of s)) =
      ((ss.flatMap fun s => sectionLines s (d.of s)).map (· ++ ['\n'])).flatten := by
    intro ss
    induction ss with
    | nil => rfl
    | cons s ss ih => rw [List.flatMap_cons, ih, List.flatMap_cons, List.map_append, List.flatten_append, writeSection_lines]
  unfold write textLines
  rw [List.map_append, List.flatten_append, h]
  split
  · rfl
  · rw [writeSection_lines]

theorem textLines_plain {d : Data} (hd : Sane d) : ∀ l ∈ textLines d, '\n' ∉ l := by
  have hn : ∀ s, ∀ e ∈ d.of s, '\n' ∉ e.1 := fun s e he => (hd.named _ (mem_of (v := e.2).1 he)).plain.2
  intro l hl
  rcases List.mem_append.1 hl with hl | hl
  · split at hl
    · simp at hl
    · exact sectionLines_plain (by decide) (hn _) l hl
  · obtain ⟨s, hs, hl⟩ := List.mem_flatMap.1 hl
    exact sectionLines_plain (hd.headed s hs).2.2 (hn _) l hl

theorem read_write {d : Data} (hd : Sane d) : read noData (write d) =
    ({ sections := d.sections, opts := ordered d DEFAULT ++ d.sections.flatMap (ordered d) }, none) := by
  have hstart : start noData =
    { sections := [], opts := [], cur := none, opt := none, indent := 0, addedS := [], addedO := [], bad := false } := rfl
  have hfirst : ∃ st, steps ((if d.of DEFAULT = [] then [] else sectionLines DEFAULT (d.of DEFAULT)).map (· ++ ['\n']))
      (start noData) = .ok st ∧ view st = ordered d DEFAULT ∧ st.sections = [] ∧ st.bad = false ∧
      st.addedO = st.opts.map (·.1) := by
    by_cases h : d.of DEFAULT = []
    · rw [if_pos h]
      exact ⟨start noData, rfl, by simp [ordered, h, hstart, view, Sort.sortBy], rfl, rfl, rfl⟩
    · rw [if_neg h]
      obtain ⟨st, e1, e2, e3, e4, e5⟩ := steps_section (s := DEFAULT) (es := d.of DEFAULT) (st := start noData)
        ⟨by decide, by decide, by decide⟩ (fun e he => good_of_named (hd.named _ (mem_of (v := e.2).1 he)))
        (nodup_of hd.keys _) (by simp [hstart]) (by simp [hstart]) rfl
      refine ⟨st, e1, ?_, ?_, ?_, e3⟩
      · rw [e2]; simp [hstart, view, ordered]
      · rw [e4]; simp [hstart]
      · rw [e5]; rfl
  obtain ⟨st, a1, a2, a3, a4, a5⟩ := hfirst
  obtain ⟨st', b1, b2, b3, b4⟩ := steps_sections hd d.sections st (fun _ h => h) hd.sections (by simp [a3]) (by
    intro s hs o h
    have : st.opts.map (·.1) = (view st).map (·.1) := by simp [view]
    rw [a5, this, a2] at h
    simp only [ordered, List.map_map, List.mem_map] at h
    obtain ⟨e, -, he⟩ := h
    simp only [Function.comp, Prod.mk.injEq] at he
    exact hd.default (he.1 ▸ hs)) a5
  have hsteps : steps ((textLines d).map (· ++ ['\n'])) (start noData) = .ok st' := by
    unfold textLines
    rw [List.map_append, steps_append _ _ _ _ a1, b1]
  unfold read
  rw [write_lines, linesKeep_lines _ (textLines_plain hd), loop_steps _ _ _ hsteps]
  dsimp only
  rw [b4, a4, b3, a3]
  have : st'.opts.map (fun e => (e.1, joined e.2)) = view st' := rfl
  rw [this, b2, a2]
  rfl

theorem mem_ordered {d : Data} {s : Str} {k : Key} {v : Option Str} : (k, v) ∈ ordered d s ↔
    k.1 = s ∧ ∃ w, (k, w) ∈ d.opts ∧ v = w.map kept := by
  obtain ⟨a, o⟩ := k
  have hj : ∀ w, joined (rawOf w) = w.map kept := by
    intro w
    cases w with
    | none => rfl
    | some w => exact kept_eq w
  simp only [ordered, List.mem_map, (Sort.sortBy_perm (le := fun a b : Str × Option Str => Sort.strLe a.1 b.1) _).mem_iff,
    Prod.mk.injEq, hj]
  constructor
  · rintro ⟨⟨o', w⟩, hm, ⟨rfl, rfl⟩, rfl⟩
    exact ⟨rfl, w, mem_of.1 hm, rfl⟩
  · rintro ⟨rfl, w, hm, rfl⟩
    exact ⟨(o, w), mem_of.2 hm, ⟨rfl, rfl⟩, rfl⟩

theorem ordered_keys {d : Data} (hd : Sane d) :
    ((ordered d DEFAULT ++ d.sections.flatMap (ordered d)).map (·.1)).Nodup := by
  have h1 : ∀ s, ((ordered d s).map (·.1)).Nodup := by
    intro s
    have hp := (Sort.sortBy_perm (le := fun a b : Str × Option Str => Sort.strLe a.1 b.1) (d.of s)).map (·.1)
    have hn := hp.nodup_iff.2 (nodup_of hd.keys s)
    simp only [ordered, List.map_map]
    have e : ∀ l : List (Str × Option Str),
        l.map ((·.1) ∘ fun e => ((s, e.1), joined (rawOf e.2))) = (l.map (·.1)).map fun o => (s, o) := by
      intro l; simp [List.map_map, Function.comp_def]
    rw [e]
    exact hn.map (fun o => (s, o)) fun a b hab he => hab (by simpa using he)
  have hin : ∀ s k, k ∈ (ordered d s).map (·.1) → k.1 = s := by
    intro s k hk
    obtain ⟨⟨k', v⟩, hm, rfl⟩ := List.mem_map.1 hk
    exact (mem_ordered.1 hm).1
  have h2 : ∀ ss : List Str, ss.Nodup → ((ss.flatMap (ordered d)).map (·.1)).Nodup := by
    intro ss
    induction ss with
    | nil => intro _; simp
    | cons s ss ih =>
      intro hn
      simp only [List.nodup_cons] at hn
      rw [List.flatMap_cons, List.map_append, List.nodup_append]
      refine ⟨h1 s, ih hn.2, ?_⟩
      intro a ha b hb hab
      subst hab
      rw [List.map_flatMap] at hb
      obtain ⟨t, ht, hb⟩ := List.mem_flatMap.1 hb
      exact hn.1 ((hin s a ha).symm.trans (hin t a hb) ▸ ht)
  rw [List.map_append, List.nodup_append]
  refine ⟨h1 _, h2 _ hd.sections, ?_⟩
  intro a ha b hb hab
  subst hab
  rw [List.map_flatMap] at hb
  obtain ⟨t, ht, hb⟩ := List.mem_flatMap.1 hb
  exact hd.default ((hin _ a ha).symm.trans (hin t a hb) ▸ ht)

/-! ## C106: writing and reading -/

/-- **C106**: what was written is read without an exception; there are the same sections in the same order and
the same options, options without a value have none, and of each value that comes back what `kept` tells. -/
theorem C106_kept (d : Data) (hd : Sane d) :
    (read noData (write d)).2 = none ∧ (read noData (write d)).1.sections = d.sections ∧
    ∀ k, option (write d) k = (find k d.opts).map (Option.map kept) := by
  have e := read_write hd
  refine ⟨by rw [e], by rw [e], fun k => ?_⟩
  unfold option
  rw [e]
  dsimp only
  cases hf : find k d.opts with
  | none =>
    rw [Option.map_none, find_none]
    intro hk
    obtain ⟨⟨k', v⟩, hm, rfl⟩ := List.mem_map.1 hk
    rw [find_none] at hf
    have : ∃ s, (k', v) ∈ ordered d s := by
      rcases List.mem_append.1 hm with h | h
      · exact ⟨_, h⟩
      · obtain ⟨s, -, h⟩ := List.mem_flatMap.1 h; exact ⟨s, h⟩
    obtain ⟨s, h⟩ := this
    obtain ⟨-, w, hw, -⟩ := mem_ordered.1 h
    exact hf (List.mem_map_of_mem (f := (·.1)) hw)
  | some v =>
    have hm := mem_of_find hf
    refine find_of_mem (ordered_keys hd) ?_
    have hk := hd.known _ hm
    dsimp only at hk
    rcases hk with hk | hk
    · exact List.mem_append_left _ (mem_ordered.2 ⟨hk, v, hm, rfl⟩)
    · exact List.mem_append_right _ (List.mem_flatMap.2 ⟨k.1, hk, mem_ordered.2 ⟨rfl, v, hm, rfl⟩⟩)

/-- **C106**: exactly the values whose lines are trimmed, do not look like comments (but for the first), and of
which the last is not empty come back unchanged. -/
theorem C106_value_iff (d : Data) (hd : Sane d) (k : Key) (v : Str) (hv : find k d.opts = some (some v)) :
    option (write d) k = some (some v) ↔ Clean v := by
  rw [(C106_kept d hd).2.2 k, hv, ← kept_iff]
  simp

/-- **C106**, partial: data with such values come back unchanged. Full statement: for all data; the conditions
on names and values are needed (violations below). -/
theorem C106_round_partial (d : Data) (hd : Sane d) (hv : ∀ k v, find k d.opts = some (some v) → Clean v) :
    (read noData (write d)).2 = none ∧ (read noData (write d)).1.sections = d.sections ∧
    ∀ k, option (write d) k = find k d.opts := by
  obtain ⟨h1, h2, h3⟩ := C106_kept d hd
  refine ⟨h1, h2, fun k => ?_⟩
  rw [h3 k]
  cases hf : find k d.opts with
  | none => rfl
  | some w =>
    cases w with
    | none => rfl
    | some v => simp [(kept_iff v).2 (hv k v hf)]

/-! ## Files -/

theorem universal_plain {s : Str} (h : '\r' ∉ s) : universal s = s := by
  have : ∀ s : Str, '\r' ∉ s → newlines false s = s := by
    intro s
    induction s with
    | nil => intro _; rfl
    | cons c s ih =>
      intro h
      simp only [List.mem_cons, not_or] at h
      simp [newlines, Ne.symm h.1, ih h.2]
  exact this s h

/-- **C106, line ends.** A file is read the same whether its lines end with `\n`, with `\r\n` or with `\r`. -/
theorem C106_ends (s : Str) (h : '\r' ∉ s) (d : Data) :
    readFiles [s.flatMap fun c => if c = '\n' then ['\r', '\n'] else [c]] d = readFiles [s] d ∧
    readFiles [s.map fun c => if c = '\n' then '\r' else c] d = readFiles [s] d := by
  have h1 : ∀ s : Str, '\r' ∉ s → newlines false (s.flatMap fun c => if c = '\n' then ['\r', '\n'] else [c]) = s := by
    intro s
    induction s with
    | nil => intro _; rfl
    | cons c s ih =>
      intro h
      simp only [List.mem_cons, not_or] at h
      by_cases hc : c = '\n'
      · subst hc; simp [newlines, ih h.2]
      · simp [newlines, hc, Ne.symm h.1, ih h.2]
  have h2 : ∀ s : Str, '\r' ∉ s → ∀ b,
      newlines b (s.map fun c => if c = '\n' then '\r' else c) = s := by
    intro s
    induction s with
    | nil => intro _ _; rfl
    | cons c s ih =>
      intro h b
      simp only [List.mem_cons, not_or] at h
      by_cases hc : c = '\n'
      · subst hc; simp [newlines, ih h.2]
      · simp [newlines, hc, Ne.symm h.1, ih h.2]
  have e := universal_plain h
  constructor
  · simp only [readFiles]
    rw [e, show universal _ = s from h1 s h]
  · simp only [readFiles]
    rw [e, show universal _ = s from h2 s h false]

example : readFiles ["[a]\r\nb = c\r\n d\r\n".toList] noData = readFiles ["[a]\nb = c\n d\n".toList] noData :=
  (C106_ends "[a]\nb = c\n d\n".toList (by decide +kernel) noData).1

theorem mem_tabbed {c : Char} {v : Str} (h : c ∈ tabbed v) : c ∈ v ∨ c = '\t' := by
  induction v with
  | nil => simp [tabbed] at h
  | cons x v ih =>
    simp only [tabbed] at h
    split at h
    · rename_i hx
      subst hx
      simp only [List.mem_cons] at h ⊢
      rcases h with h | h | h
      · exact .inl (.inl h)
      · exact .inr h
      · exact (ih h).imp_left .inr
    · simp only [List.mem_cons] at h ⊢
      rcases h with h | h
      · exact .inl (.inl h)
      · exact (ih h).imp_left .inr

theorem write_plain {d : Data} (hs : ∀ s ∈ d.sections, '\r' ∉ s)
    (ho : ∀ e ∈ d.opts, '\r' ∉ e.1.2 ∧ ∀ v, e.2 = some v → '\r' ∉ v) : '\r' ∉ write d := by
  have hsec : ∀ s, '\r' ∉ s → '\r' ∉ writeSection s (d.of s) := by
    intro s h
    unfold writeSection
    intro hm
    rcases List.mem_append.1 hm with hm | hm
    · rcases List.mem_append.1 hm with hm | hm
      · rcases List.mem_append.1 hm with hm | hm
        · rcases List.mem_cons.1 hm with hm | hm
          · revert hm; decide
          · exact h hm
        · revert hm; decide
      · obtain ⟨⟨o, v⟩, he, hm⟩ := List.mem_flatMap.1 hm
        have he := (Sort.sortBy_perm (le := fun a b : Str × Option Str => Sort.strLe a.1 b.1) (d.of s)).mem_iff.1 he
        have := ho _ (mem_of.1 he)
        dsimp only at this
        cases v with
        | none =>
          simp only [writeOption] at hm
          rcases List.mem_append.1 hm with hm | hm
          · exact this.1 hm
          · revert hm; decide
        | some v =>
          simp only [writeOption] at hm
          rcases List.mem_append.1 hm with hm | hm
          · rcases List.mem_append.1 hm with hm | hm
            · rcases List.mem_append.1 hm with hm | hm
              · exact this.1 hm
              · revert hm; decide
            · rcases mem_tabbed hm with hm | hm
              · exact this.2 v rfl hm
              · revert hm; decide
          · revert hm; decide
    · revert hm; decide
  intro hm
  unfold write at hm
  rcases List.mem_append.1 hm with hm | hm
  · split at hm
    · simp at hm
    · exact hsec _ (by decide) hm
  · obtain ⟨s, h, hm⟩ := List.mem_flatMap.1 hm
    exact hsec s (hs s h) hm

/-- **C106**, partial: also when the text is written to a file and the file is read, if there are no carriage
returns. Full statement: for all data; see `C106_return_violated`. -/
theorem C106_file_partial (d : Data) (hd : Sane d) (hv : ∀ k v, find k d.opts = some (some v) → Clean v)
    (hs : ∀ s ∈ d.sections, '\r' ∉ s) (ho : ∀ e ∈ d.opts, '\r' ∉ e.1.2 ∧ ∀ v, e.2 = some v → '\r' ∉ v) :
    (readFiles [write d] noData).2 = none ∧ (readFiles [write d] noData).1.sections = d.sections ∧
    ∀ k, find k (readFiles [write d] noData).1.opts = find k d.opts := by
  obtain ⟨h1, h2, h3⟩ := C106_round_partial d hd hv
  have e : readFiles [write d] noData = read noData (write d) := by
    simp only [readFiles, universal_plain (write_plain hs ho)]
    cases h : read noData (write d) with
    | mk a b =>
      rw [h] at h1
      dsimp only at h1
      subst h1
      rfl
  rw [e]
  exact ⟨h1, h2, h3⟩

/-! ## Several files -/

/-- The state of a parser that had the data `d` before, and of a new one, in the same text. -/
structure Rel (d : Data) (σ τ : St) : Prop where
  cur : σ.cur = τ.cur
  opt : σ.opt = τ.opt
  indent : σ.indent = τ.indent
  addedS : σ.addedS = τ.addedS
  addedO : σ.addedO = τ.addedO
  bad : σ.bad = τ.bad
  opts : ∀ k, find k σ.opts = (find k τ.opts).or (find k (start d).opts)
  sections : ∀ s, s ∈ σ.sections ↔ s ∈ d.sections ∨ s ∈ τ.sections
  added : τ.addedS = τ.sections
  default : DEFAULT ∉ τ.sections
  here : ∀ s o, τ.cur = some s → τ.opt = some o → (find (s, o) τ.opts).isSome

/-- What happens to the two. -/
def Both (d : Data) (a b : Except Exc St) : Prop :=
  (∃ e, a = .error e ∧ b = .error e) ∨ ∃ σ τ, a = .ok σ ∧ b = .ok τ ∧ Rel d σ τ

theorem append_rel {d : Data} {σ τ : St} (h : Rel d σ τ) {k : Key} (hk : (find k τ.opts).isSome) (x : Str) :
    Both d (append k x σ) (append k x τ) := by
  obtain ⟨w, hw⟩ := Option.isSome_iff_exists.1 hk
  have hσ : find k σ.opts = some w := by rw [h.opts, hw]; rfl
  unfold append
  rw [hw, hσ]
  cases w with
  | lines l =>
    refine .inr ⟨_, _, rfl, rfl, h.cur, h.opt, h.indent, h.addedS, h.addedO, h.bad, ?_, h.sections, h.added, h.default, ?_⟩
    · intro j
      dsimp only
      rw [find_put, find_put, h.opts]
      split <;> simp
    · intro s o h1 h2
      dsimp only
      rw [find_put]
      split
      · rfl
      · exact h.here s o h1 h2
  | _ => exact .inl ⟨.attribute, rfl, rfl⟩

theorem step_rel {d : Data} (hd : DEFAULT ∉ d.sections) {σ τ : St} (h : Rel d σ τ) (l : Str) :
    Both d (step l σ) (step l τ) := by
  unfold step
  split
  · exact .inr ⟨σ, τ, rfl, rfl, h⟩
  · split
    · unfold blank
      rw [h.cur, h.opt]
      split
      · rename_i s o hc ho
        split
        · exact .inr ⟨σ, τ, rfl, rfl, h⟩
        · have hs := h.here s o hc ho
          obtain ⟨w, hw⟩ := Option.isSome_iff_exists.1 hs
          have hσ : find (s, o) σ.opts = some w := by rw [h.opts, hw]; rfl
          rw [hσ, hw]
          split
          · exact .inr ⟨σ, τ, rfl, rfl, h⟩
          · exact append_rel h hs []
      · exact .inr ⟨σ, τ, rfl, rfl, h⟩
    · have hcont : continued (indentOf l) σ = continued (indentOf l) τ := by
        unfold continued; rw [h.cur, h.opt, h.indent]
      rw [hcont]
      cases hc : continued (indentOf l) τ with
      | some k =>
        refine append_rel h ?_ _
        unfold continued at hc
        split at hc
        · rename_i s o h1 h2
          split at hc
          · simp only [Option.some.injEq] at hc
            subst hc
            exact h.here s o h1 h2
          · simp at hc
        · simp at hc
      | none =>
        dsimp only
        unfold newLine
        cases header (strip l) with
        | some s =>
          dsimp only
          unfold openSection
          dsimp only
          rw [h.addedS, h.added]
          by_cases h1 : s ∈ τ.sections
          · have h2 : s ∈ σ.sections := (h.sections s).2 (.inr h1)
            rw [if_pos h2, if_pos h1, if_pos h1, if_pos h1]
            exact .inl ⟨_, rfl, rfl⟩
          · by_cases h3 : s = DEFAULT
            · have h2 : s ∉ σ.sections := by
                intro hm
                rcases (h.sections s).1 hm with hm | hm
                · exact hd (h3 ▸ hm)
                · exact h1 hm
              rw [if_neg h2, if_neg h1, if_pos h3, if_pos h3]
              exact .inr ⟨_, _, rfl, rfl, rfl, rfl, rfl, rfl, h.addedO, h.bad, h.opts,
                h.sections, rfl, h.default, by simp⟩
            · have hτ : DEFAULT ∉ τ.sections ++ [s] := by
                simp only [List.mem_append, List.mem_singleton, not_or]
                exact ⟨h.default, fun e => h3 e.symm⟩
              by_cases h2 : s ∈ σ.sections
              · rw [if_pos h2, if_neg h1, if_neg h1, if_neg h3]
                refine .inr ⟨_, _, rfl, rfl, rfl, rfl, rfl, rfl, h.addedO, h.bad, h.opts, ?_, rfl, hτ, by simp⟩
                intro t
                dsimp only
                rw [h.sections]
                simp only [List.mem_append, List.mem_singleton]
                constructor
                · rintro (h | h)
                  · exact .inl h
                  · exact .inr (.inl h)
                · rintro (h | h | rfl)
                  · exact .inl h
                  · exact .inr h
                  · exact (h.sections t).1 h2
              · rw [if_neg h2, if_neg h1, if_neg h3, if_neg h3]
                refine .inr ⟨_, _, rfl, rfl, rfl, rfl, rfl, rfl, h.addedO, h.bad, h.opts, ?_, rfl, hτ, by simp⟩
                intro t
                dsimp only
                simp only [List.mem_append, List.mem_singleton, h.sections, or_assoc]
        | none =>
          dsimp only
          rw [h.cur]
          cases hcur : τ.cur with
          | none => exact .inl ⟨_, rfl, rfl⟩
          | some s =>
            dsimp only
            unfold addOption
            dsimp only
            rw [h.addedO]
            split
            · exact .inl ⟨_, rfl, rfl⟩
            · refine .inr ⟨_, _, rfl, rfl, ?_, rfl, rfl, h.addedS, rfl, ?_, ?_, h.sections, h.added, h.default, ?_⟩
              · rfl
              · dsimp only; rw [h.bad]
              · intro j
                dsimp only
                rw [find_put, find_put, h.opts]
                split <;> simp
              · intro s' o' h1 h2
                dsimp only at h1 h2 ⊢
                simp only [Option.some.injEq] at h1 h2
                subst h1 h2
                rw [find_put, if_pos rfl]
                rfl

theorem loop_rel {d : Data} (hd : DEFAULT ∉ d.sections) : ∀ (ls : List Str) {σ τ : St}, Rel d σ τ →
    (loop ls σ).2 = (loop ls τ).2 ∧ Rel d (loop ls σ).1 (loop ls τ).1 := by
  intro ls
  induction ls with
  | nil => intro σ τ h; exact ⟨by simp [loop, h.bad], h⟩
  | cons l ls ih =>
    intro σ τ h
    simp only [loop]
    rcases step_rel hd h l with ⟨e, h1, h2⟩ | ⟨σ', τ', h1, h2, h3⟩
    · rw [h1, h2]; exact ⟨rfl, h⟩
    · rw [h1, h2]; exact ih h3

theorem joined_asRaw (v : Option Str) : joined (asRaw v) = v := by cases v <;> rfl

/-- **C106**: reading a text into a parser that has data already: whether it fails depends on the text only;
an option that the text has gets its value from the text, all the others keep theirs; the sections are those of
both. -/
theorem C106_later (d : Data) (hd : DEFAULT ∉ d.sections) (text : Str) :
    (read d text).2 = (read noData text).2 ∧
    (∀ k, find k (read d text).1.opts = (option text k).or (find k d.opts)) ∧
    ∀ s, s ∈ (read d text).1.sections ↔ s ∈ d.sections ∨ s ∈ (read noData text).1.sections := by
  have hstart : Rel d (start d) (start noData) := by
    refine ⟨rfl, rfl, rfl, rfl, rfl, rfl, ?_, ?_, rfl, by simp [start, noData], by simp [start]⟩
    · intro k; simp [start, noData, find]
    · intro s; simp [start, noData]
  obtain ⟨h1, h2⟩ := loop_rel hd (linesKeep text) hstart
  refine ⟨h1, fun k => ?_, h2.sections⟩
  unfold option read
  dsimp only
  rw [find_map, find_map, h2.opts]
  have e : find k (start d).opts = (find k d.opts).map asRaw := find_map asRaw k d.opts
  rw [e]
  cases find k (loop (linesKeep text) (start noData)).1.opts with
  | some w => rfl
  | none =>
    simp only [Option.none_or, Option.map_none, Option.map_map]
    rw [show joined ∘ asRaw = id from funext joined_asRaw, Option.map_id]
    rfl

/-- The data after a text has been read have no section `DEFAULT`. -/
theorem read_default (d : Data) (hd : DEFAULT ∉ d.sections) (text : Str) : DEFAULT ∉ (read d text).1.sections := by
  intro h
  rcases ((C106_later d hd text).2.2 _).1 h with h | h
  · exact hd h
  · have hstart : Rel noData (start noData) (start noData) := by
      refine ⟨rfl, rfl, rfl, rfl, rfl, rfl, ?_, ?_, rfl, by simp [start, noData], by simp [start]⟩
      · intro k; simp [start, noData, find]
      · intro s; simp [start, noData]
    exact (loop_rel (by simp [noData]) (linesKeep text) hstart).2.default h

/-- **C106**: of several files, none of which is faulty, the last one that has an option gives its value; a
section exists if one of the files has it. -/
theorem C106_files (ts : List Str) (d : Data) (hd : DEFAULT ∉ d.sections)
    (hok : ∀ t ∈ ts, (read noData (universal t)).2 = none) :
    (readFiles ts d).2 = none ∧
    (∀ k, find k (readFiles ts d).1.opts =
      (ts.reverse.findSome? fun t => option (universal t) k).or (find k d.opts)) ∧
    ∀ s, s ∈ (readFiles ts d).1.sections ↔
      s ∈ d.sections ∨ ∃ t ∈ ts, s ∈ (read noData (universal t)).1.sections := by
  induction ts generalizing d with
  | nil => simp [readFiles]
  | cons t ts ih =>
    obtain ⟨h1, h2, h3⟩ := C106_later d hd (universal t)
    have hr := hok t (by simp)
    have hdef := read_default d hd (universal t)
    have e : readFiles (t :: ts) d = readFiles ts (read d (universal t)).1 := by
      rw [hr] at h1
      simp only [readFiles]
      cases h : read d (universal t) with
      | mk a b =>
        rw [h] at h1
        dsimp only at h1
        subst h1
        rfl
    obtain ⟨i1, i2, i3⟩ := ih (read d (universal t)).1 hdef fun x hx => hok x (by simp [hx])
    rw [e]
    refine ⟨i1, fun k => ?_, fun s => ?_⟩
    · rw [i2, h2, List.reverse_cons, List.findSome?_append]
      simp only [List.findSome?_cons, List.findSome?_nil]
      cases option (universal t) k <;> cases (ts.reverse.findSome? fun t => option (universal t) k) <;> rfl
    · rw [i3, h3]
      simp only [List.mem_cons, exists_eq_or_imp, or_assoc]

/-- **C106**: and if one is faulty, reading stops there with its exception. -/
theorem C106_faulty (good : List Str) (t : Str) (rest : List Str) (d : Data) (hd : DEFAULT ∉ d.sections)
    (hok : ∀ t ∈ good, (read noData (universal t)).2 = none) (e : Exc) (hbad : (read noData (universal t)).2 = some e) :
    (readFiles (good ++ t :: rest) d).2 = some e := by
  induction good generalizing d with
  | nil =>
    obtain ⟨h1, -, -⟩ := C106_later d hd (universal t)
    simp only [List.nil_append, readFiles]
    rw [hbad] at h1
    cases h : read d (universal t) with
    | mk a b =>
      rw [h] at h1
      dsimp only at h1
      subst h1
      rfl
  | cons g good ih =>
    obtain ⟨h1, -, -⟩ := C106_later d hd (universal g)
    rw [hok g (by simp)] at h1
    have hi := ih (read d (universal g)).1 (read_default d hd _) fun x hx => hok x (by simp [hx])
    simp only [List.cons_append, readFiles]
    cases h : read d (universal g) with
    | mk a b =>
      rw [h] at h1 hi
      dsimp only at h1
      subst h1
      exact hi

/-! ## Exceptions -/

/-- A line with an option that has no value. -/
def Bare (l : Str) : Prop := '=' ∉ l ∧ strip l ≠ [] ∧ (strip l).head? ≠ some '#' ∧ (strip l).head? ≠ some ';'

/-- White space in front of a line. -/
def lead (l : Str) : Nat := (l.takeWhile isSpace).length

/-- What is known of a reader that has read the lines `done`. -/
structure Seen (done : List Str) (st : St) : Prop where
  value : ∀ s o, st.cur = some s → st.opt = some o →
    (∃ l, find (s, o) st.opts = some (.lines l)) ∨ (find (s, o) st.opts = some .unset ∧
      ∃ A l B, done = A ++ l :: B ∧ Bare l ∧ st.indent = lead l)

theorem Seen.more {done : List Str} {st : St} (h : Seen done st) (l : Str) : Seen (done ++ [l]) st := by
  refine ⟨fun s o h1 h2 => ?_⟩
  rcases h.value s o h1 h2 with h | ⟨h, A, x, B, e, h3⟩
  · exact .inl h
  · exact .inr ⟨h, A, x, B ++ [l], by simp [e], h3⟩

theorem bare_of {l : Str} (h1 : ¬ isComment (strip l) = true) (h2 : strip l ≠ [])
    (h : (splitOption (strip l)).2 = none) : Bare l := by
  have hc : (strip l).head? ≠ some '#' ∧ (strip l).head? ≠ some ';' := by
    simpa [isComment] using h1
  refine ⟨?_, h2, hc⟩
  intro hm
  have hin : ∀ l : Str, '=' ∈ l → '=' ∈ rstrip l := by
    intro l hl
    obtain ⟨a, b, rfl⟩ := List.append_of_mem hl
    rw [Where.rstrip_not_all, rstrip_cons (by decide)]
    · simp
    · intro h; have := h '=' (by simp); revert this; decide
  have hin2 : ∀ l : Str, '=' ∈ l → '=' ∈ lstrip l := by
    intro l hl
    induction l with
    | nil => simp at hl
    | cons c l ih =>
      by_cases hs : isSpace c = true
      · have : lstrip (c :: l) = lstrip l := by simp [lstrip, hs]
        rw [this]
        rcases List.mem_cons.1 hl with e | hl
        · subst e; exact absurd hs (by decide)
        · exact ih hl
      · have : lstrip (c :: l) = c :: l := by simp [lstrip, hs]
        rw [this]; exact hl
  have hst : '=' ∈ strip l := hin _ (hin2 _ hm)
  obtain ⟨a, b, e⟩ := List.append_of_mem hst
  simp only [splitOption] at h
  split at h
  · rename_i hd
    have : ∀ x ∈ strip l, x ≠ '=' := by
      intro x hx
      have := dropWhile_eq_nil.1 hd x hx
      simpa using this
    exact this _ hst rfl
  · simp at h

theorem append_seen {done : List Str} {st st' : St} (h : Seen done st) {k : Key} {x : Str}
    (ha : append k x st = .ok st') : Seen done st' := by
  unfold append at ha
  split at ha
  · rename_i l hl
    simp only [Except.ok.injEq] at ha
    subst ha
    refine ⟨fun s o h1 h2 => ?_⟩
    dsimp only at h1 h2 ⊢
    rw [find_put]
    split
    · exact .inl ⟨_, rfl⟩
    · exact h.value s o h1 h2
  · simp at ha

theorem step_seen {done : List Str} {st : St} (h : Seen done st) (m : Str) :
    (∀ st', step m st = .ok st' → Seen (done ++ [m]) st') ∧
    (step m st = .error .attribute → ∃ A l B, done = A ++ l :: B ∧ Bare l ∧ lead l < lead m) := by
  have hm : Seen (done ++ [m]) st := h.more m
  unfold step
  by_cases h1 : isComment (strip m) = true
  · rw [if_pos h1]
    exact ⟨fun st' e => by simp only [Except.ok.injEq] at e; exact e ▸ hm, by simp⟩
  rw [if_neg h1]
  by_cases h2 : strip m = []
  · rw [if_pos h2]
    unfold blank
    split
    · rename_i s o hc ho
      split
      · exact ⟨fun st' e => by simp only [Except.ok.injEq] at e; exact e ▸ hm, by simp⟩
      · split
        · exact ⟨fun st' e => by simp only [Except.ok.injEq] at e; exact e ▸ hm, by simp⟩
        · rename_i hu
          refine ⟨fun st' e => append_seen hm e, ?_⟩
          intro e
          rcases h.value s o hc ho with ⟨l, hl⟩ | ⟨hl, -⟩
          · simp [append, hl] at e
          · exact absurd hl hu
    · exact ⟨fun st' e => by simp only [Except.ok.injEq] at e; exact e ▸ hm, by simp⟩
  rw [if_neg h2]
  cases hc : continued (indentOf m) st with
  | some k =>
    dsimp only
    refine ⟨fun st' e => append_seen hm e, ?_⟩
    intro e
    unfold continued at hc
    split at hc
    · rename_i s o g1 g2
      split at hc
      · rename_i hlt
        simp only [Option.some.injEq] at hc
        subst hc
        rcases h.value s o g1 g2 with ⟨l, hl⟩ | ⟨hl, A, l, B, e1, e2, e3⟩
        · simp [append, hl] at e
        · exact ⟨A, l, B, e1, e2, by rw [← e3]; exact hlt.2⟩
      · simp at hc
    · simp at hc
  | none =>
    dsimp only
    unfold newLine
    cases header (strip m) with
    | some s =>
      dsimp only
      unfold openSection
      dsimp only
      constructor
      · intro st' e
        have : st'.opt = none := by
          split at e
          · split at e
            · simp at e
            · simp only [Except.ok.injEq] at e; subst e; rfl
          · split at e <;> (simp only [Except.ok.injEq] at e; subst e; rfl)
        exact ⟨fun s o _ h => by rw [this] at h; simp at h⟩
      · intro e
        split at e
        · split at e <;> simp at e
        · split at e <;> simp at e
    | none =>
      dsimp only
      cases hcur : st.cur with
      | none => exact ⟨fun st' e => by simp at e, by simp⟩
      | some s =>
        dsimp only
        unfold addOption
        dsimp only
        split
        · exact ⟨fun st' e => by simp at e, by simp⟩
        · refine ⟨?_, by simp⟩
          intro st' e
          simp only [Except.ok.injEq] at e
          subst e
          refine ⟨fun s' o' g1 g2 => ?_⟩
          dsimp only at g1 g2 ⊢
          simp only [Option.some.injEq] at g1 g2
          subst g1 g2
          rw [find_put, if_pos rfl]
          cases hv : (splitOption (strip m)).2 with
          | some v => exact .inl ⟨_, rfl⟩
          | none => exact .inr ⟨rfl, done, m, [], rfl, bare_of h1 h2 hv, rfl⟩

/-- **C106**, partial: reading raises `configparser.Error` only, unless somewhere below a line that has an option
without a value there is a line that is indented more. Full statement: reading raises `configparser.Error` only;
see `C106_crash_violated`. -/
theorem C106_crash_partial (d : Data) (text : Str) (h : (read d text).2 = some .attribute) :
    ∃ A l B m C, linesKeep text = A ++ l :: B ++ m :: C ∧ Bare l ∧ lead l < lead m := by
  have : ∀ (ls done : List Str) (st : St), Seen done st → (loop ls st).2 = some .attribute →
      ∃ A l B m C, done ++ ls = A ++ l :: B ++ m :: C ∧ Bare l ∧ lead l < lead m := by
    intro ls
    induction ls with
    | nil => intro done st _ h; simp only [loop] at h; split at h <;> simp at h
    | cons m ls ih =>
      intro done st hs h
      simp only [loop] at h
      have := step_seen hs m
      cases he : step m st with
      | ok st' =>
        rw [he] at h
        obtain ⟨A, l, B, m', C, e, h1⟩ := ih (done ++ [m]) st' (this.1 st' he) h
        exact ⟨A, l, B, m', C, by simpa using e, h1⟩
      | error e =>
        rw [he] at h
        simp only [Option.some.injEq] at h
        subst h
        obtain ⟨A, l, B, e, h1⟩ := this.2 he
        exact ⟨A, l, B, m, ls, by simp [e], h1⟩
  obtain ⟨A, l, B, m, C, e, h1⟩ := this (linesKeep text) [] (start d) ⟨by simp [start]⟩ h
  exact ⟨A, l, B, m, C, by simpa using e, h1⟩

/-! ## Configuration objects -/

theorem find_storeOpt (k : Key) (v : Str) (d : List (Key × Str)) : Config.storeOpt k v d = put k v d := by
  induction d with
  | nil => rfl
  | cons e d ih => obtain ⟨j, w⟩ := e; simp only [Config.storeOpt, put, ih]

theorem findOpt_eq (k : Key) (d : List (Key × Str)) : Config.findOpt k d = find k d := by
  induction d with
  | nil => rfl
  | cons e d ih => obtain ⟨j, w⟩ := e; simp only [Config.findOpt, find, ih]

/-- What is known of the parser made for variables. -/
structure Made (ok : Key → Str → Prop) (d : Config.Data) : Prop where
  sections : d.sections.Nodup
  default : DEFAULT ∉ d.sections
  headed : ∀ s ∈ d.sections, s ≠ [] ∧ ']' ∉ s ∧ '\n' ∉ s
  keys : (d.opts.map (·.1)).Nodup
  known : ∀ e ∈ d.opts, e.1.1 = DEFAULT ∨ e.1.1 ∈ d.sections
  opts : ∀ e ∈ d.opts, ok e.1 e.2

theorem toParser_made (ok : Key → Str → Prop) (pr : Config.Printer) (st : Config.St) : ∀ (xs : List Config.Var)
    (d d' : Config.Data), Made ok d → (∀ x ∈ xs, x.sec = DEFAULT ∨ (x.sec ≠ [] ∧ ']' ∉ x.sec ∧ '\n' ∉ x.sec)) →
    (∀ x ∈ xs, x.get st ≠ .unset → ok (x.sec, x.name) (Config.showVal pr (x.get st))) →
    Config.toParser pr st xs d = some d' → Made ok d' := by
  intro xs
  induction xs with
  | nil => intro d d' hd _ _ h; simp only [Config.toParser, Option.some.injEq] at h; exact h ▸ hd
  | cons x xs ih =>
    intro d d' hd hs ho h
    simp only [Config.toParser] at h
    generalize hd1 : (if x.sec ∈ d.sections ∨ x.sec = DEFAULT then d
      else { d with sections := d.sections ++ [x.sec] }) = d1 at h
    have h1 : Made ok d1 ∧ (x.sec = DEFAULT ∨ x.sec ∈ d1.sections) := by
      subst hd1
      split
      · rename_i h; exact ⟨hd, h.symm⟩
      · rename_i hn
        simp only [not_or] at hn
        refine ⟨⟨?_, ?_, ?_, hd.keys, ?_, hd.opts⟩, .inr (by simp)⟩
        · rw [List.nodup_append]
          refine ⟨hd.sections, by simp, ?_⟩
          intro a ha b hb hab
          simp only [List.mem_singleton] at hb
          exact hn.1 (hb ▸ hab ▸ ha)
        · simp only [List.mem_append, List.mem_singleton, not_or]
          exact ⟨hd.default, fun e => hn.2 e.symm⟩
        · intro s hm
          rcases List.mem_append.1 hm with hm | hm
          · exact hd.headed s hm
          · simp only [List.mem_singleton] at hm
            subst hm
            exact (hs x (by simp)).resolve_left hn.2
        · intro e he
          exact (hd.known e he).imp_right fun h => by simp [h]
    have hs' := fun y hy => hs y (List.mem_cons_of_mem _ hy)
    have ho' := fun y hy => ho y (List.mem_cons_of_mem _ hy)
    split at h
    · exact ih d1 d' h1.1 hs' ho' h
    · rename_i hu
      split at h
      · refine ih _ d' ?_ hs' ho' h
        obtain ⟨m, hk⟩ := h1
        have hcase : ∀ e ∈ put (x.sec, x.name) (Config.showVal pr (x.get st)) d1.opts,
            e ∈ d1.opts ∨ e = ((x.sec, x.name), Config.showVal pr (x.get st)) := by
          have : ∀ (k : Key) (v : Str) (l : List (Key × Str)), ∀ e ∈ put k v l, e ∈ l ∨ e = (k, v) := by
            intro k v l
            induction l with
            | nil => intro e he; simp only [put, List.mem_singleton] at he; exact .inr he
            | cons y l ih =>
              obtain ⟨j, w⟩ := y
              intro e he
              simp only [put] at he
              split at he
              · rename_i hj
                rcases List.mem_cons.1 he with he | he
                · exact .inr (hj ▸ he)
                · exact .inl (by simp [he])
              · rcases List.mem_cons.1 he with he | he
                · exact .inl (by simp [he])
                · exact (ih e he).imp_left fun h => by simp [h]
          exact this _ _ _
        refine ⟨m.sections, m.default, m.headed, ?_, ?_, ?_⟩
        · dsimp only
          rw [find_storeOpt]
          by_cases hm : (x.sec, x.name) ∈ d1.opts.map (·.1)
          · rw [put_keys _ _ _ hm]; exact m.keys
          · rw [put_new _ _ _ hm, List.map_append, List.nodup_append]
            refine ⟨m.keys, by simp, ?_⟩
            intro a ha b hb hab
            simp only [List.map_cons, List.map_nil, List.mem_singleton] at hb
            exact hm (hb ▸ hab ▸ ha)
        · intro e he
          dsimp only at he ⊢
          rw [find_storeOpt] at he
          rcases hcase e he with he | rfl
          · exact m.known e he
          · exact hk
        · intro e he
          dsimp only at he
          rw [find_storeOpt] at he
          rcases hcase e he with he | rfl
          · exact m.opts e he
          · exact ho x (by simp) hu
      · simp at h

/-- Reading the text of a parser object gives the same answers as the object. -/
theorem get_read (d : Config.Data) (hd : Made (fun k v => Named k.2 ∧ Clean v) d) :
    (read noData (write (ofConfig d))).2 = none ∧ (read noData (write (ofConfig d))).1.get = d.get := by
  have hf : ∀ k, find k (ofConfig d).opts = (Config.findOpt k d.opts).map some := by
    intro k
    rw [findOpt_eq]
    exact find_map some k d.opts
  have hsane : Sane (ofConfig d) := by
    refine ⟨hd.sections, hd.default, ?_, ?_, hd.headed, ?_⟩
    · simp only [ofConfig, List.map_map, Function.comp_def]; exact hd.keys
    · intro e he
      obtain ⟨x, hx, rfl⟩ := List.mem_map.1 he
      exact hd.known x hx
    · intro e he
      obtain ⟨x, hx, rfl⟩ := List.mem_map.1 he
      exact (hd.opts x hx).1
  obtain ⟨h1, h2, h3⟩ := C106_round_partial (ofConfig d) hsane (by
    intro k v h
    rw [hf] at h
    simp only [Option.map_eq_some_iff, Option.some.injEq, exists_eq_right] at h
    rw [findOpt_eq] at h
    exact (hd.opts _ (mem_of_find h)).2)
  refine ⟨h1, ?_⟩
  funext sec opt
  unfold Data.get Config.Data.get
  rw [h2]
  have e : ∀ k, find k (read noData (write (ofConfig d))).1.opts = (Config.findOpt k d.opts).map some :=
    fun k => (h3 k).trans (hf k)
  rw [e, e]
  by_cases hs : sec = DEFAULT ∨ sec ∈ d.sections
  · have hs' : sec = DEFAULT ∨ sec ∈ (ofConfig d).sections := hs
    rw [if_pos hs', if_pos hs]
    cases Config.findOpt (sec, opt) d.opts with
    | some v => rfl
    | none => cases Config.findOpt (DEFAULT, opt) d.opts <;> rfl
  · have hs' : ¬ (sec = DEFAULT ∨ sec ∈ (ofConfig d).sections) := hs
    rw [if_neg hs', if_neg hs]

theorem readCommit_vars (w : Config.World) (xs : List Config.Var) (p : Config.Parser) (whole : Config.St → Config.Verdict)
    (st : Config.St) : (Config.readCommit w xs p false whole st).1.vars = (Config.readVars w p xs st).1.vars := by
  unfold Config.readCommit
  dsimp only
  split
  · rfl
  · rw [if_neg (by simp)]
    split <;> rfl

/-- **C106**, partial: after any history, a configuration object whose variables survive (`C58_partial`), have
names that can be told from other lines and values whose lines are trimmed and do not look like comments, is
written as a text which a new object reads without exceptions, with the same value for every variable,
whatever the check of the whole says. Full statement: without these conditions. -/
theorem C106_config_partial (w : Config.World) (pr : Config.Printer) (xs : List Config.Var) (hd : Config.Distinct xs)
    (hn : xs.Nodup) (whole whole' : Config.St → Config.Verdict) (hw : ∀ s, whole' s ≠ .raise) (os : List Config.Op)
    (ho : ∀ o ∈ os, o.on xs) (st : Config.St) (hst : st = Config.run w xs whole os Config.init)
    (hv : ∀ x ∈ xs, Config.Survives w pr x.kind (x.get st) ∨ (x.get st = .unset ∧ x.default = .unset ∧
      ∀ y ∈ xs, y.sec = DEFAULT → y.name = x.name → y.get st = .unset))
    (hr : ∀ x ∈ xs, Config.validate x.validators (x.get st) ≠ .raise)
    (hs : ∀ x ∈ xs, x.sec = DEFAULT ∨ (x.sec ≠ [] ∧ ']' ∉ x.sec ∧ '\n' ∉ x.sec))
    (hc : ∀ x ∈ xs, x.get st ≠ .unset → Named x.name ∧ Clean (Config.showVal pr (x.get st))) :
    ∃ d, Config.toParser pr st xs Config.noData = some d ∧
      (readString w xs whole' (write (ofConfig d)) Config.init).2 = false ∧
      ∀ x ∈ xs, x.get (readString w xs whole' (write (ofConfig d)) Config.init).1 = x.get st := by
  obtain ⟨d, h1, h2, h3⟩ := Config.C58_partial w pr xs hd hn whole os ho st hst hv hr
  refine ⟨d, h1, ?_⟩
  have hm : Made (fun k v => Named k.2 ∧ Clean v) d :=
    toParser_made _ pr st xs Config.noData d ⟨by simp [Config.noData], by simp [Config.noData],
      by simp [Config.noData], by simp [Config.noData], by simp [Config.noData], by simp [Config.noData]⟩ hs hc h1
  obtain ⟨g1, g2⟩ := get_read d hm
  have e : readString w xs whole' (write (ofConfig d)) Config.init =
      Config.readCommit w xs d.get false whole' Config.init := by
    unfold readString
    cases hr : read noData (write (ofConfig d)) with
    | mk a b =>
      rw [hr] at g1 g2
      dsimp only at g1 g2
      subst g1
      dsimp only
      rw [g2]
      rfl
  rw [e]
  constructor
  · unfold Config.readCommit
    dsimp only
    rw [h2, if_neg (by simp), if_neg (by simp)]
    cases hx : whole' (Config.readVars w d.get xs Config.init).1 with
    | raise => exact absurd hx (hw _)
    | _ => rfl
  · intro x hx
    have := h3 x hx
    unfold Config.Var.get at this ⊢
    rw [readCommit_vars]
    exact this

/-! ## Violations -/

/-- One section with one option. -/
def one (o v : Str) : Data := { sections := ["s".toList], opts := [(("s".toList, o), some v)] }

/-- What comes back of it. -/
def again (o v : Str) : Option (Option Str) := option (write (one o v)) ("s".toList, o)

/-- A line of a value that begins with `#` is lost. -/
theorem C106_hash_violated : again "script".toList "a\n#b\nc".toList = some (some "a\nc".toList) := by decide +kernel

/-- The indentation of the lines of a value is lost. -/
theorem C106_indent_violated : again "script".toList "if a:\n  b".toList = some (some "if a:\nb".toList) := by
  decide +kernel

/-- White space at the ends of a value is lost. -/
theorem C106_end_violated : again "prompt".toList " > ".toList = some (some ">".toList) ∧
    again "text".toList "a\n".toList = some (some "a".toList) := by
  constructor <;> decide +kernel

/-- A carriage return ends a line when a file is read, and what follows is another option. -/
theorem C106_return_violated :
    find ("s".toList, "a".toList) (readFiles [write (one "a".toList "b\rc".toList)] noData).1.opts =
      some (some "b".toList) ∧
    find ("s".toList, "c".toList) (readFiles [write (one "a".toList "b\rc".toList)] noData).1.opts = some none := by
  constructor <;> decide +kernel

/-- An option whose name begins with a bracket is a section once a bracket closes, be it in the value. -/
theorem C106_bracket_violated : again "[a".toList "b]".toList = none ∧
    (read noData (write (one "[a".toList "b]".toList))).1.sections = ["s".toList, "a = b".toList] := by
  constructor <;> decide +kernel

/-- A name with `=` falls apart, one with `#` in front is lost, an empty one makes the text faulty. -/
theorem C106_name_violated : again "a=b".toList "c".toList = none ∧
    option (write (one "a=b".toList "c".toList)) ("s".toList, "a".toList) = some (some "b = c".toList) ∧
    again "#a".toList "c".toList = none ∧
    (read noData (write (one [] "c".toList))).2 = some .parsing := by
  refine ⟨?_, ?_, ?_, ?_⟩ <;> decide +kernel

/-- An option without a value and an indented line below it: `AttributeError` comes out of reading, and out of
`read_string`, which is to record problems. -/
theorem C106_crash_violated (w : Config.World) (xs : List Config.Var) (whole : Config.St → Config.Verdict) :
    (read noData "[s]\nkey\n value\n".toList).2 = some .attribute ∧
    (readString w xs whole "[s]\nkey\n value\n".toList Config.init).2 = true := by
  have h : (read noData "[s]\nkey\n value\n".toList).2 = some .attribute := by decide +kernel
  refine ⟨h, ?_⟩
  unfold readString
  cases hr : read noData "[s]\nkey\n value\n".toList with
  | mk a b =>
    rw [hr] at h
    dsimp only at h
    subst h
    rfl

/-! ## Examples -/

/-- Data for examples: an option in `DEFAULT`, two sections, a value of three lines, an option without one. -/
def demo : Data :=
  { sections := ["s".toList, "a: b".toList],
    opts := [(("s".toList, "z".toList), some "#1\n\n = [x]".toList), ((DEFAULT, "top".toList), some "50 %".toList),
      (("s".toList, "flag".toList), none), (("a: b".toList, "z y".toList), some [])] }

example : write demo =
    "[DEFAULT]\ntop = 50 %\n\n[s]\nflag\nz = #1\n\t\n\t = [x]\n\n[a: b]\nz y = \n\n".toList := by decide +kernel

theorem demo_sane : Sane demo := by
  refine ⟨by decide, by decide, by decide, by decide, by decide, ?_⟩
  intro e he
  apply named_of
  revert e he
  decide

/-- `C106_kept` and `C106_value_iff` apply to it: the space before `= [x]` is lost. -/
example : Sane demo ∧ option (write demo) ("s".toList, "z".toList) = some (some "#1\n\n= [x]".toList) ∧
    option (write demo) ("s".toList, "flag".toList) = some none ∧
    option (write demo) ("a: b".toList, "z y".toList) = some (some []) :=
  ⟨demo_sane, by decide +kernel, by decide +kernel, by decide +kernel⟩

/-- Values that come back unchanged, and one that does not. -/
example : Clean "#1\n\n= [x]".toList ∧ Clean [] ∧ ¬ Clean "a\n;b".toList := by
  refine ⟨(kept_iff _).1 (by decide), (kept_iff _).1 (by decide), fun h => ?_⟩
  have := (kept_iff _).2 h
  revert this
  decide

/-- `C106_round_partial` and `C106_file_partial`: data that come back. -/
example : let d : Data := { demo with opts := demo.opts.drop 1 }
    Sane d ∧ (∀ k v, find k d.opts = some (some v) → Clean v) ∧ (∀ e ∈ d.opts, '\r' ∉ e.1.2 ∧ ∀ v, e.2 = some v → '\r' ∉ v) ∧
    (readFiles [write d] noData).1.opts ≠ [] := by
  refine ⟨?_, ?_, ?_, by decide +kernel⟩
  · have h := demo_sane
    exact ⟨h.sections, h.default, by decide, fun e he => h.known e (List.mem_of_mem_drop he), h.headed,
      fun e he => h.named e (List.mem_of_mem_drop he)⟩
  · intro k v h
    have hm := mem_of_find h
    simp only [demo, List.drop_succ_cons, List.drop_zero, List.mem_cons, Prod.mk.injEq, Option.some.injEq,
      List.not_mem_nil, or_false, reduceCtorEq, and_false, false_or] at hm
    rcases hm with ⟨-, rfl⟩ | ⟨-, rfl⟩
    · exact (kept_iff _).1 (by decide)
    · exact (kept_iff _).1 (by decide)
  · intro e he
    simp only [demo, List.drop_succ_cons, List.drop_zero, List.mem_cons, List.not_mem_nil, or_false] at he
    rcases he with rfl | rfl | rfl
    · exact ⟨by decide, fun v h => by simp only [Option.some.injEq] at h; subst h; decide⟩
    · exact ⟨by decide, fun v h => by simp at h⟩
    · exact ⟨by decide, fun v h => by simp only [Option.some.injEq] at h; subst h; decide⟩

/-- Two files, of which the second changes one option and adds one. -/
example : let ts := ["[s]\na = 1\nb = 2\n".toList, "; note\n[s]\r\nb = 3\r\n[t]\r\nc".toList]
    (∀ t ∈ ts, (read noData (universal t)).2 = none) ∧
    (readFiles ts noData).1 = ⟨["s".toList, "t".toList],
      [(("s".toList, "a".toList), some "1".toList), (("s".toList, "b".toList), some "3".toList),
        (("t".toList, "c".toList), none)]⟩ ∧
    (readFiles (ts ++ ["[s]\na=1\n[s]\n".toList, "x".toList]) noData).2 = some .duplicateSection := by
  decide +kernel

/-- The lines that `C106_crash_partial` speaks of. -/
example : Bare "key\n".toList ∧ lead "key\n".toList < lead " value\n".toList := by
  refine ⟨⟨by decide, by decide, by decide, by decide⟩, by decide⟩

/-- A configuration that meets the hypotheses of `C106_config_partial`, and its text. -/
example :
    let xs := [Config.vTop, Config.vList]
    let st := Config.run Config.someWorld xs Config.allGood [.assign Config.vTop (.str "a, \"b\"\nc".toList),
      .assign Config.vList (.list ["a-1".toList, "b".toList])] Config.init
    (∀ x ∈ xs, Named x.name ∧ Clean (Config.showVal Config.somePrinter (x.get st))) ∧
    (∀ x ∈ xs, x.sec = DEFAULT ∨ (x.sec ≠ [] ∧ ']' ∉ x.sec ∧ '\n' ∉ x.sec)) ∧
    ((Config.toParser Config.somePrinter st xs Config.noData).map fun d =>
      Config.vTop.get (readString Config.someWorld xs Config.allGood (write (ofConfig d)) Config.init).1) =
      some (.str "a, \"b\"\nc".toList) := by
  refine ⟨?_, by decide +kernel, by decide +kernel⟩
  intro x hx
  refine ⟨named_of ?_, (kept_iff _).1 ?_⟩ <;> revert x hx <;> decide +kernel

/-- **C106, a section without a name.** It is written as `[]`, which cannot be read. -/
theorem C106_nameless_violated : ∃ d : Data, d.sections = [[]] ∧ d.opts = [(([], "a".toList), some "b".toList)] ∧
    (read noData (write d)).2 = some .missingHeader := ⟨⟨[[]], [(([], "a".toList), some "b".toList)]⟩, rfl, rfl, by decide +kernel⟩

end Verif.IniText
