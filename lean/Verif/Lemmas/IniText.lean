import Verif.Model.IniText
import Verif.Lemmas.Text
import Verif.Lemmas.Sort
import Verif.Lemmas.Where

/-! # Lemmas about the text of configuration files -/

namespace Verif.IniText

open Verif.Restart (Str)
open Verif.Text
open Verif.Config (DEFAULT)

/-! ## Dictionaries -/

theorem find_put {V : Type} (k j : Key) (v : V) (d : List (Key × V)) :
    find j (put k v d) = if j = k then some v else find j d := by
  induction d with
  | nil => simp only [put, find]; by_cases h : k = j <;> simp [h, eq_comm]
  | cons e d ih =>
    obtain ⟨i, u⟩ := e
    simp only [put]
    split
    · rename_i h
      subst h
      simp only [find]
      by_cases hj : i = j
      · simp [hj]
      · simp [hj, Ne.symm hj]
    · rename_i h
      simp only [find, ih]
      by_cases hj : i = j
      · subst hj; simp [h]
      · simp [hj]

theorem put_put {V : Type} (k : Key) (v w : V) (d : List (Key × V)) : put k v (put k w d) = put k v d := by
  induction d with
  | nil => simp [put]
  | cons e d ih =>
    obtain ⟨i, u⟩ := e
    simp only [put]
    split
    · rename_i h; simp [put, h]
    · rename_i h; simp [put, h, ih]

theorem put_new {V : Type} (k : Key) (v : V) (d : List (Key × V)) (h : k ∉ d.map (·.1)) :
    put k v d = d ++ [(k, v)] := by
  induction d with
  | nil => rfl
  | cons e d ih =>
    obtain ⟨i, u⟩ := e
    simp only [List.map_cons, List.mem_cons, not_or] at h
    simp [put, Ne.symm h.1, ih h.2]

theorem put_keys {V : Type} (k : Key) (v : V) (d : List (Key × V)) (h : k ∈ d.map (·.1)) :
    (put k v d).map (·.1) = d.map (·.1) := by
  induction d with
  | nil => simp at h
  | cons e d ih =>
    obtain ⟨i, u⟩ := e
    simp only [put]
    split
    · rename_i hi; simp
    · rename_i hi
      simp only [List.map_cons, List.mem_cons] at h ⊢
      rw [ih (h.resolve_left (Ne.symm hi))]

theorem find_none {V : Type} {k : Key} {d : List (Key × V)} : find k d = none ↔ k ∉ d.map (·.1) := by
  induction d with
  | nil => simp [find]
  | cons e d ih =>
    obtain ⟨i, u⟩ := e
    simp only [find]
    split
    · rename_i h; simp [h]
    · rename_i h; simp [ih, Ne.symm h]

theorem mem_of_find {V : Type} {k : Key} {v : V} {d : List (Key × V)} (h : find k d = some v) : (k, v) ∈ d := by
  induction d with
  | nil => simp [find] at h
  | cons e d ih =>
    obtain ⟨i, u⟩ := e
    simp only [find] at h
    split at h
    · rename_i hi; simp only [Option.some.injEq] at h; simp [hi, h]
    · exact List.mem_cons_of_mem _ (ih h)

theorem find_of_mem {V : Type} {k : Key} {v : V} {d : List (Key × V)} (hn : (d.map (·.1)).Nodup)
    (h : (k, v) ∈ d) : find k d = some v := by
  induction d with
  | nil => simp at h
  | cons e d ih =>
    obtain ⟨i, u⟩ := e
    simp only [List.map_cons, List.nodup_cons] at hn
    simp only [find]
    rcases List.mem_cons.1 h with h | h
    · simp only [Prod.mk.injEq] at h; simp [h.1, h.2]
    · rw [if_neg, ih hn.2 h]
      rintro rfl
      exact hn.1 (List.mem_map_of_mem h)

theorem find_map {V W : Type} (f : V → W) (k : Key) (d : List (Key × V)) :
    find k (d.map fun e => (e.1, f e.2)) = (find k d).map f := by
  induction d with
  | nil => rfl
  | cons e d ih =>
    obtain ⟨i, u⟩ := e
    simp only [List.map_cons, find, ih]
    split <;> simp

/-- Changing what a value is joined to nothing changes nothing. -/
theorem map_put {V W : Type} (f : V → W) (k : Key) (v : V) (d : List (Key × V)) {w : V}
    (h : find k d = some w) (e : f v = f w) :
    (put k v d).map (fun e => (e.1, f e.2)) = d.map fun e => (e.1, f e.2) := by
  induction d with
  | nil => simp [find] at h
  | cons x d ih =>
    obtain ⟨i, u⟩ := x
    simp only [find] at h
    simp only [put]
    split at h
    · rename_i hi
      simp only [Option.some.injEq] at h
      subst h
      simp [hi, e]
    · rename_i hi
      simp only [if_neg hi, List.map_cons, ih h]

theorem put_self {V : Type} (k : Key) (v : V) (d : List (Key × V)) (h : find k d = some v) : put k v d = d := by
  have := map_put (fun x : V => x) k v d h rfl
  simpa using this

/-! ## Text -/

theorem rstrip_cons {c : Char} (h : isSpace c = false) (l : Str) : rstrip (c :: l) = c :: rstrip l := by
  by_cases ha : ∀ x ∈ l, isSpace x = true
  · have e1 : rstrip (c :: l) = [c] := by
      have := rstrip_append_space (l := [c]) ha
      rw [show c :: l = [c] ++ l from rfl, this]
      exact rstrip_eq_self.2 (by simp [h])
    have e2 : rstrip l = [] := by
      have := rstrip_append_space (l := []) ha
      simpa [rstrip] using this
    rw [e1, e2]
  · exact Where.rstrip_not_all (l := [c]) ha

theorem strip_cons {c : Char} (h : isSpace c = false) (l : Str) : strip (c :: l) = c :: rstrip l := by
  have : lstrip (c :: l) = c :: l := by simp [lstrip, h]
  rw [strip, this, rstrip_cons h]

theorem space_tab : isSpace '\t' = true := by decide
theorem space_nl : isSpace '\n' = true := by decide
theorem space_sp : isSpace ' ' = true := by decide

theorem strip_nl (l : Str) : strip (l ++ ['\n']) = strip l :=
  Where.strip_append_space (by simp [space_nl])

theorem strip_tab (l : Str) : strip ('\t' :: (l ++ ['\n'])) = strip l := by
  have := Where.strip_space_append (w := ['\t']) (l := l ++ ['\n']) (by simp [space_tab])
  rw [show '\t' :: (l ++ ['\n']) = ['\t'] ++ (l ++ ['\n']) from rfl, this, strip_nl]

/-- Lines of a text made of lines. -/
theorem linesKeep_lines (L : List Str) (h : ∀ l ∈ L, '\n' ∉ l) :
    linesKeep (L.map (· ++ ['\n'])).flatten = L.map (· ++ ['\n']) := by
  induction L with
  | nil => rfl
  | cons l L ih =>
    simp only [List.map_cons, List.flatten_cons, List.append_assoc]
    rw [show ['\n'] ++ (L.map (· ++ ['\n'])).flatten = '\n' :: (L.map (· ++ ['\n'])).flatten from rfl]
    rw [linesKeep_append (h l (by simp)), ih fun x hx => h x (by simp [hx])]

theorem tabbed_split (v : Str) : ∀ f rest, splitOn '\n' v = f :: rest →
    tabbed v = f ++ rest.flatMap (fun r => '\n' :: '\t' :: r) := by
  induction v with
  | nil => intro f rest h; simp [splitOn] at h; obtain ⟨rfl, rfl⟩ := h; rfl
  | cons c v ih =>
    intro f rest h
    simp only [splitOn] at h
    split at h
    · rename_i hc
      simp only [List.cons.injEq] at h
      obtain ⟨rfl, rfl⟩ := h
      cases hv : splitOn '\n' v with
      | nil => exact absurd hv (splitOn_ne_nil _ _)
      | cons g more =>
        simp [tabbed, hc, ih g more hv]
    · rename_i hc
      cases hv : splitOn '\n' v with
      | nil => exact absurd hv (splitOn_ne_nil _ _)
      | cons g more =>
        rw [hv] at h
        simp only [List.cons.injEq] at h
        obtain ⟨rfl, rfl⟩ := h
        simp [tabbed, hc, ih g more hv]

/-! ## Lines one after the other -/

/-- Lines that do not fail. -/
def steps : List Str → St → Except Exc St
  | [], st => .ok st
  | l :: ls, st =>
    match step l st with
    | .ok st' => steps ls st'
    | .error e => .error e

theorem steps_append (A B : List Str) (st st' : St) (h : steps A st = .ok st') :
    steps (A ++ B) st = steps B st' := by
  induction A generalizing st with
  | nil => simp [steps] at h; subst h; rfl
  | cons l A ih =>
    simp only [steps, List.cons_append] at h ⊢
    cases hs : step l st with
    | error e => rw [hs] at h; simp at h
    | ok s => rw [hs] at h; exact ih s h

theorem loop_steps (A : List Str) (st st' : St) (h : steps A st = .ok st') :
    loop A st = (st', if st'.bad then some .parsing else none) := by
  induction A generalizing st with
  | nil => simp [steps] at h; subst h; rfl
  | cons l A ih =>
    simp only [steps, loop] at h ⊢
    cases hs : step l st with
    | error e => rw [hs] at h; simp at h
    | ok s => rw [hs] at h; exact ih s h

/-! ## Lines of an option -/

/-- What remains of a line of a value. -/
def keepLine (r : Str) : Option Str :=
  if isComment (strip r) then none else some (strip r)

theorem step_more {s k : Str} {st : St} {l : List Str} (hk : k ≠ []) (hc : st.cur = some s) (ho : st.opt = some k)
    (hi : st.indent = 0) (hf : find (s, k) st.opts = some (.lines l)) (r : Str) :
    step ('\t' :: (r ++ ['\n'])) st =
      .ok { st with opts := put (s, k) (.lines (l ++ (keepLine r).toList)) st.opts } := by
  have e := strip_tab r
  unfold step
  rw [e]
  by_cases h1 : isComment (strip r) = true
  · rw [if_pos h1]
    simp only [keepLine, h1, if_true, Option.toList_none, List.append_nil]
    rw [put_self _ _ _ hf]
  · rw [if_neg h1]
    simp only [keepLine, if_neg h1, Option.toList_some]
    by_cases h2 : strip r = []
    · rw [if_pos h2]
      simp only [blank, hc, ho, if_neg hk, hf, append, h2]
      simp
    · rw [if_neg h2]
      have hn : 0 < indentOf ('\t' :: (r ++ ['\n'])) := by simp [indentOf, space_tab]
      have : continued (indentOf ('\t' :: (r ++ ['\n']))) st = some (s, k) := by
        simp only [continued, hc, ho, hi]
        rw [if_pos ⟨hk, hn⟩]
      rw [this]
      simp only [append, hf]

theorem steps_more {s k : Str} (hk : k ≠ []) : ∀ (rest : List Str) (st : St) (l : List Str),
    st.cur = some s → st.opt = some k → st.indent = 0 → find (s, k) st.opts = some (.lines l) →
    steps (rest.map fun r => '\t' :: (r ++ ['\n'])) st =
      .ok { st with opts := put (s, k) (.lines (l ++ rest.filterMap keepLine)) st.opts } := by
  intro rest
  induction rest with
  | nil =>
    intro st l _ _ _ hf
    simp only [List.map_nil, steps, List.filterMap_nil, List.append_nil]
    rw [put_self _ _ _ hf]
  | cons r rest ih =>
    intro st l hc ho hi hf
    simp only [List.map_cons, steps, step_more hk hc ho hi hf]
    refine Eq.trans (ih { st with opts := put (s, k) (.lines (l ++ (keepLine r).toList)) st.opts }
      (l ++ (keepLine r).toList) hc ho hi (by rw [find_put, if_pos rfl])) ?_
    simp only [put_put, List.filterMap_cons]
    cases keepLine r <;> simp

/-- A name of an option that can be told from other lines. -/
def GoodName (k : Str) : Prop :=
  ∃ c r, k = c :: r ∧ strip k = k ∧ c ≠ '#' ∧ c ≠ ';' ∧ c ≠ '[' ∧ '=' ∉ k ∧ '\n' ∉ k

theorem head_not_space {c : Char} {r : Str} (h : strip (c :: r) = c :: r) : isSpace c = false := by
  have := (strip_eq_self.1 h).1
  simpa using this

theorem indentOf_cons {c : Char} (h : isSpace c = false) (l : Str) : indentOf (c :: l) = 0 := by
  simp [indentOf, h]

theorem header_other {c : Char} (h : c ≠ '[') (l : Str) : header (c :: l) = none := by
  unfold header
  split
  · rename_i heq; simp only [List.cons.injEq] at heq; exact absurd heq.1 h
  · rfl

theorem takeWhile_stop (k : Str) (h : '=' ∉ k) (r : Str) : (k ++ '=' :: r).takeWhile (· ≠ '=') = k ∧
    (k ++ '=' :: r).dropWhile (· ≠ '=') = '=' :: r := by
  induction k with
  | nil => simp
  | cons c k ih =>
    simp only [List.mem_cons, not_or] at h
    have := ih h.2
    simp only [List.cons_append, List.takeWhile_cons, List.dropWhile_cons, ne_eq, Ne.symm h.1, not_false_eq_true,
      decide_true, if_true]
    exact ⟨by rw [List.cons.injEq]; exact ⟨rfl, by simpa using this.1⟩, by simpa using this.2⟩

theorem takeWhile_all (k : Str) (h : '=' ∉ k) : k.takeWhile (· ≠ '=') = k ∧ k.dropWhile (· ≠ '=') = [] := by
  induction k with
  | nil => simp
  | cons c k ih =>
    simp only [List.mem_cons, not_or] at h
    have := ih h.2
    simp only [List.takeWhile_cons, List.dropWhile_cons, ne_eq, Ne.symm h.1, not_false_eq_true, decide_true, if_true]
    exact ⟨by rw [List.cons.injEq]; exact ⟨rfl, by simpa using this.1⟩, by simpa using this.2⟩

theorem rstrip_self {k : Str} (h : strip k = k) : rstrip k = k := by
  have := (strip_eq_self.1 h).2
  exact rstrip_eq_self.2 this

theorem rstrip_name {k : Str} (h : strip k = k) : rstrip (k ++ [' ']) = k := by
  rw [rstrip_append_space (by simp [space_sp]), rstrip_self h]

/-- The stripped line of an option with a value. -/
theorem strip_option {c : Char} {r : Str} (hs : isSpace c = false) (f : Str) :
    strip (c :: (r ++ (" = ".toList ++ f) ++ ['\n'])) = (c :: r ++ [' ']) ++ '=' :: rstrip (' ' :: f) := by
  rw [← List.cons_append, strip_nl, strip_cons hs]
  have : r ++ (" = ".toList ++ f) = (r ++ [' ']) ++ ('=' :: ' ' :: f) := by simp
  rw [this, Where.rstrip_not_all, rstrip_cons (by decide)]
  · simp
  · intro h
    have := h '=' (by simp)
    revert this
    decide

theorem step_option {s : Str} {e : Str × Option Str} {st : St} (hk : GoodName e.1) (hc : st.cur = some s)
    (ha : (s, e.1) ∉ st.addedO) (line : Str) (f : Option Str)
    (hl : line = match f with | none => e.1 ++ ['\n'] | some f => e.1 ++ (" = ".toList ++ f) ++ ['\n']) :
    step line st = .ok { st with
      opts := put (s, e.1) (match f with | none => .unset | some f => .lines [strip f]) st.opts,
      opt := some e.1, indent := 0, addedO := st.addedO ++ [(s, e.1)] } := by
  obtain ⟨k, v⟩ := e
  obtain ⟨c, r, hkr, hstr, h1, h2, h3, h4, h5⟩ := hk
  dsimp only at hkr hstr h4 h5 ha hl ⊢
  subst hkr
  have hs : isSpace c = false := head_not_space hstr
  have hfull : ∃ m, strip line = c :: m := by
    subst hl
    cases f with
    | none =>
      dsimp only
      rw [strip_nl, hstr]; exact ⟨_, rfl⟩
    | some f =>
      dsimp only
      rw [List.cons_append, List.cons_append, strip_option hs]; exact ⟨_, rfl⟩
  have hsplit : splitOption (strip line) = (c :: r, f.map strip) := by
    subst hl
    cases f with
    | none =>
      dsimp only
      rw [strip_nl, hstr]
      simp only [splitOption, (takeWhile_all _ h4).1, (takeWhile_all _ h4).2, rstrip_self hstr, Option.map_none]
    | some f =>
      dsimp only
      rw [List.cons_append, List.cons_append, strip_option hs]
      have h4' : '=' ∉ c :: r ++ [' '] := by
        intro h
        rcases List.mem_append.1 h with h | h
        · exact h4 h
        · revert h; decide
      simp only [splitOption, (takeWhile_stop _ h4' _).1, (takeWhile_stop _ h4' _).2, rstrip_name hstr,
        Option.map_some, Where.strip_rstrip]
      rw [show ' ' :: f = [' '] ++ f from rfl, Where.strip_space_append (by simp [space_sp])]
  have hind : indentOf line = 0 := by
    subst hl
    cases f with
    | none => exact indentOf_cons hs _
    | some f => exact indentOf_cons hs _
  obtain ⟨m, hm⟩ := hfull
  unfold step
  have hnc : ¬ isComment (strip line) = true := by rw [hm]; simp [isComment, h1, h2]
  have hne : strip line ≠ [] := by rw [hm]; simp
  have hcont : continued (indentOf line) st = none := by
    unfold continued
    rw [hind]
    split
    · rw [if_neg]; omega
    · rfl
  rw [if_neg hnc, if_neg hne, hcont, hind]
  dsimp only
  unfold newLine
  have hh : header (strip line) = none := by rw [hm]; exact header_other h3 _
  rw [hh]
  dsimp only
  rw [hc, hsplit]
  dsimp only [addOption]
  rw [if_neg ha]
  cases f <;> simp

/-- The lines of one option. -/
def optionLines (e : Str × Option Str) : List Str :=
  match e.2 with
  | none => [e.1]
  | some v =>
    match splitOn '\n' v with
    | [] => []
    | f :: rest => (e.1 ++ (" = ".toList ++ f)) :: rest.map ('\t' :: ·)

theorem writeOption_lines (e : Str × Option Str) :
    writeOption e = ((optionLines e).map (· ++ ['\n'])).flatten := by
  obtain ⟨k, v⟩ := e
  cases v with
  | none => simp [writeOption, optionLines]
  | some v =>
    cases hv : splitOn '\n' v with
    | nil => exact absurd hv (splitOn_ne_nil _ _)
    | cons f rest =>
      simp only [writeOption, optionLines, hv, tabbed_split v f rest hv]
      clear hv
      have : ∀ rest : List Str, rest.flatMap (fun r => '\n' :: '\t' :: r) ++ ['\n'] =
          '\n' :: ((rest.map ('\t' :: ·)).map (· ++ ['\n'])).flatten := by
        intro rest
        induction rest with
        | nil => rfl
        | cons r rest ih =>
          simp only [List.flatMap_cons, List.append_assoc, ih, List.map_cons, List.flatten_cons]
          simp
      simp only [List.append_assoc, this, List.map_cons, List.flatten_cons]
      simp

theorem optionLines_plain (e : Str × Option Str) (h : '\n' ∉ e.1) : ∀ l ∈ optionLines e, '\n' ∉ l := by
  intro l hl
  obtain ⟨k, v⟩ := e
  cases v with
  | none => simp [optionLines] at hl; subst hl; exact h
  | some v =>
    have hp := split_parts_no_sep (sep := '\n') v
    cases hv : splitOn '\n' v with
    | nil => exact absurd hv (splitOn_ne_nil _ _)
    | cons f rest =>
      rw [hv] at hp
      simp only [optionLines, hv, List.mem_cons, List.mem_map] at hl
      rcases hl with rfl | ⟨r, hr, rfl⟩
      · simp only [List.mem_append, not_or]
        exact ⟨h, by decide, hp f (by simp)⟩
      · simp only [List.mem_cons, not_or]
        exact ⟨by decide, hp r (by simp [hr])⟩

/-- The lines kept of a value. -/
def keptLines (v : Str) : List Str :=
  match splitOn '\n' v with
  | [] => []
  | f :: rest => strip f :: rest.filterMap keepLine

/-- What the reader holds of a value. -/
def rawOf : Option Str → Raw
  | none => .unset
  | some v => .lines (keptLines v)

theorem steps_option {s : Str} {e : Str × Option Str} {st : St} (hk : GoodName e.1) (hc : st.cur = some s)
    (ha : (s, e.1) ∉ st.addedO) :
    steps ((optionLines e).map (· ++ ['\n'])) st = .ok { st with
      opts := put (s, e.1) (rawOf e.2) st.opts, opt := some e.1, indent := 0, addedO := st.addedO ++ [(s, e.1)] } := by
  obtain ⟨k, v⟩ := e
  have hne : k ≠ [] := by obtain ⟨c, r, h, -⟩ := hk; dsimp only at h; simp [h]
  cases v with
  | none =>
    simp only [optionLines, List.map_cons, List.map_nil, steps]
    rw [step_option (e := (k, none)) hk hc ha _ none rfl]
    rfl
  | some v =>
    cases hv : splitOn '\n' v with
    | nil => exact absurd hv (splitOn_ne_nil _ _)
    | cons f rest =>
      simp only [optionLines, hv, List.map_cons, steps]
      rw [step_option (e := (k, some v)) hk hc ha _ (some f) rfl]
      dsimp only
      have := steps_more (s := s) hne rest { st with
        opts := put (s, k) (.lines [strip f]) st.opts, opt := some k, indent := 0,
        addedO := st.addedO ++ [(s, k)] } [strip f] hc rfl rfl (by rw [find_put, if_pos rfl])
      rw [List.map_map]
      refine Eq.trans this ?_
      simp only [put_put, rawOf, keptLines, hv, List.singleton_append]

/-! ## Sections -/

/-- A name of a section that can be written. -/
def GoodSection (s : Str) : Prop := s ≠ [] ∧ ']' ∉ s ∧ '\n' ∉ s

theorem header_section {s : Str} (h : GoodSection s) : header ('[' :: s ++ [']']) = some s := by
  have e : ('[' :: s ++ [']']) = '[' :: (s ++ [']']) := rfl
  rw [e]
  unfold header
  have : (s ++ [']']).reverse.dropWhile (· ≠ ']') = ']' :: s.reverse := by
    simp
  simp only [this]
  simp [h.1]

theorem strip_section (s : Str) : strip ('[' :: s ++ [']'] ++ ['\n']) = '[' :: s ++ [']'] := by
  rw [strip_nl]
  refine strip_eq_self.2 ⟨by simp; decide, ?_⟩
  intro c hc
  rw [List.getLast?_append] at hc
  simp at hc
  subst hc
  decide

theorem step_section {s : Str} {st : St} (h : GoodSection s) (hs : s ∉ st.sections) :
    step ('[' :: s ++ [']'] ++ ['\n']) st = .ok (if s = DEFAULT then
        { st with cur := some s, opt := none, indent := 0 }
      else { st with
        sections := st.sections ++ [s], cur := some s, opt := none, indent := 0, addedS := st.addedS ++ [s] }) := by
  have hind : indentOf ('[' :: s ++ [']'] ++ ['\n']) = 0 := indentOf_cons (by decide) _
  have hcont : continued 0 st = none := by
    unfold continued
    split
    · rw [if_neg]; omega
    · rfl
  unfold step
  rw [strip_section, hind, hcont]
  rw [if_neg (by simp [isComment]), if_neg (by simp)]
  dsimp only
  unfold newLine
  rw [header_section h]
  dsimp only [openSection]
  rw [if_neg hs]
  split <;> rfl

theorem rstrip_nl (l : Str) : rstrip (l ++ ['\n']) = rstrip l := rstrip_append_space (by simp [space_nl])

theorem join_blank (l : List Str) (h : l ≠ []) : joinWith '\n' (l ++ [[]]) = joinWith '\n' l ++ ['\n'] := by
  induction l with
  | nil => exact absurd rfl h
  | cons a l ih =>
    cases l with
    | nil => simp [joinWith]
    | cons b l =>
      have e1 := joinWith_cons '\n' a (ps := (b :: l) ++ [[]]) (by simp)
      have e2 := joinWith_cons '\n' a (ps := b :: l) (by simp)
      rw [List.cons_append, e1, e2, ih (by simp)]
      simp

theorem joined_blank (l : List Str) : joined (.lines (l ++ [[]])) = joined (.lines l) := by
  by_cases h : l = []
  · subst h; rfl
  · simp only [joined, join_blank l h, rstrip_nl]

/-- What a parser holds, with values joined. -/
def view (st : St) : List (Key × Option Str) := st.opts.map fun e => (e.1, joined e.2)

theorem keptLines_ne (v : Str) : keptLines v ≠ [] := by
  unfold keptLines
  cases hv : splitOn '\n' v with
  | nil => exact absurd hv (splitOn_ne_nil _ _)
  | cons f rest => simp

theorem step_end (st : St) (h : ∀ s o, st.cur = some s → st.opt = some o → ∃ v, find (s, o) st.opts = some (rawOf v)) :
    ∃ st', step ['\n'] st = .ok st' ∧ view st' = view st ∧ st'.sections = st.sections ∧ st'.addedO = st.addedO ∧
      st'.addedS = st.addedS ∧ st'.bad = st.bad ∧ st'.opts.map (·.1) = st.opts.map (·.1) := by
  have e : strip ['\n'] = [] := by decide
  unfold step
  rw [e, if_neg (by simp [isComment]), if_pos rfl]
  unfold blank
  split
  · rename_i s o hc ho
    obtain ⟨v, hv⟩ := h s o hc ho
    split
    · exact ⟨st, rfl, rfl, rfl, rfl, rfl, rfl, rfl⟩
    · split
      · exact ⟨st, rfl, rfl, rfl, rfl, rfl, rfl, rfl⟩
      · rename_i hu
        cases v with
        | none => exact absurd hv hu
        | some v =>
          simp only [append, hv, rawOf]
          refine ⟨_, rfl, ?_, rfl, rfl, rfl, rfl, ?_⟩
          · exact map_put joined _ _ _ hv (joined_blank _)
          · apply put_keys
            exact Decidable.of_not_not fun hn => by rw [find_none.2 hn] at hv; simp at hv
  · exact ⟨st, rfl, rfl, rfl, rfl, rfl, rfl, rfl⟩

theorem steps_options {s : Str} : ∀ (es : List (Str × Option Str)) (st : St),
    (∀ e ∈ es, GoodName e.1) → (es.map (·.1)).Nodup → st.cur = some s →
    (∀ e ∈ es, (s, e.1) ∉ st.addedO) → st.addedO = st.opts.map (·.1) →
    (∀ o, st.opt = some o → ∃ v, find (s, o) st.opts = some (rawOf v)) →
    ∃ st', steps ((es.flatMap optionLines).map (· ++ ['\n'])) st = .ok st' ∧
      view st' = view st ++ es.map (fun e => ((s, e.1), joined (rawOf e.2))) ∧ st'.cur = some s ∧
      st'.addedO = st'.opts.map (·.1) ∧ st'.sections = st.sections ∧ st'.addedS = st.addedS ∧ st'.bad = st.bad ∧
      (∀ o, st'.opt = some o → ∃ v, find (s, o) st'.opts = some (rawOf v)) := by
  intro es
  induction es with
  | nil => intro st _ _ hc _ hk ho; exact ⟨st, rfl, by simp, hc, hk, rfl, rfl, rfl, ho⟩
  | cons e es ih =>
    intro st hg hn hc ha hk ho
    simp only [List.map_cons, List.nodup_cons] at hn
    have hnew : (s, e.1) ∉ st.opts.map (·.1) := hk ▸ ha e (by simp)
    obtain ⟨st', e1, e2, e3, e4, e5, e6, e7, e8⟩ := ih { st with
        opts := put (s, e.1) (rawOf e.2) st.opts, opt := some e.1, indent := 0, addedO := st.addedO ++ [(s, e.1)] }
      (fun x hx => hg x (by simp [hx])) hn.2 hc (by
        intro x hx h
        rcases List.mem_append.1 h with h | h
        · exact ha x (by simp [hx]) h
        · simp only [List.mem_singleton, Prod.mk.injEq, true_and] at h
          exact hn.1 (h ▸ List.mem_map_of_mem hx)) (by
        dsimp only
        rw [put_new _ _ _ hnew, hk]; simp) (by
        intro o h
        simp only [Option.some.injEq] at h
        subst h
        exact ⟨e.2, by rw [find_put, if_pos rfl]⟩)
    refine ⟨st', ?_, ?_, e3, e4, e5, e6, e7, e8⟩
    · rw [List.flatMap_cons, List.map_append, steps_append _ _ _ _ (steps_option (hg e (by simp)) hc (ha e (by simp)))]
      exact e1
    · rw [e2]
      simp only [view, put_new _ _ _ hnew]
      simp

/-- The lines of a section. -/
def sectionLines (s : Str) (es : List (Str × Option Str)) : List Str :=
  ('[' :: s ++ [']']) :: ((Sort.sortBy (fun a b => Sort.strLe a.1 b.1) es).flatMap optionLines ++ [[]])

theorem writeSection_lines (s : Str) (es : List (Str × Option Str)) :
    writeSection s es = ((sectionLines s es).map (· ++ ['\n'])).flatten := by
  unfold writeSection sectionLines
  generalize Sort.sortBy (fun a b : Str × Option Str => Sort.strLe a.1 b.1) es = fs
  have : fs.flatMap writeOption = ((fs.flatMap optionLines).map (· ++ ['\n'])).flatten := by
    induction fs with
    | nil => rfl
    | cons f fs ih =>
      simp only [List.flatMap_cons, ih, List.map_append, List.flatten_append, writeOption_lines]
  simp only [List.map_cons, List.map_append, List.flatten_cons, List.flatten_append, this]
  simp

theorem sectionLines_plain {s : Str} {es : List (Str × Option Str)} (hs : '\n' ∉ s) (he : ∀ e ∈ es, '\n' ∉ e.1) :
    ∀ l ∈ sectionLines s es, '\n' ∉ l := by
  intro l hl
  simp only [sectionLines, List.mem_cons, List.mem_append, List.mem_flatMap, List.not_mem_nil, or_false] at hl
  rcases hl with rfl | ⟨e, he', hl⟩ | rfl
  · simp [hs]
  · exact optionLines_plain e (he e ((Sort.sortBy_perm (le := fun a b : Str × Option Str => Sort.strLe a.1 b.1) es).mem_iff.1 he')) l hl
  · simp

theorem steps_section {s : Str} {es : List (Str × Option Str)} {st : St} (hs : GoodSection s)
    (hg : ∀ e ∈ es, GoodName e.1) (hn : (es.map (·.1)).Nodup) (h1 : s ∉ st.sections)
    (h2 : ∀ o, (s, o) ∉ st.addedO) (hk : st.addedO = st.opts.map (·.1)) :
    ∃ st', steps ((sectionLines s es).map (· ++ ['\n'])) st = .ok st' ∧
      view st' = view st ++
        (Sort.sortBy (fun a b => Sort.strLe a.1 b.1) es).map (fun e => ((s, e.1), joined (rawOf e.2))) ∧
      st'.addedO = st'.opts.map (·.1) ∧ st'.sections = st.sections ++ (if s = DEFAULT then [] else [s]) ∧
      st'.bad = st.bad := by
  have hp := Sort.sortBy_perm (le := fun a b : Str × Option Str => Sort.strLe a.1 b.1) es
  generalize hfs : Sort.sortBy (fun a b : Str × Option Str => Sort.strLe a.1 b.1) es = fs at hp
  unfold sectionLines
  rw [hfs, List.map_cons, List.map_append]
  simp only [steps]
  rw [step_section hs h1]
  dsimp only
  generalize hst : (if s = DEFAULT then { st with cur := some s, opt := none, indent := 0 }
      else { st with
        sections := st.sections ++ [s], cur := some s, opt := none, indent := 0, addedS := st.addedS ++ [s] }) = st1
  have hst1 : st1.cur = some s ∧ st1.opt = none ∧ st1.addedO = st.addedO ∧ st1.opts = st.opts ∧ st1.bad = st.bad ∧
      st1.sections = st.sections ++ (if s = DEFAULT then [] else [s]) := by
    subst hst
    split <;> simp
  obtain ⟨c1, c2, c3, c4, c5, c6⟩ := hst1
  obtain ⟨st2, e1, e2, e3, e4, e5, e6, e7, e8⟩ := steps_options (s := s) fs st1
    (fun e he => hg e (hp.mem_iff.1 he)) ((hp.map _).nodup_iff.2 hn) c1
    (fun e _ => c3 ▸ h2 e.1) (by rw [c3, c4, hk]) (by rw [c2]; simp)
  obtain ⟨st3, f1, f2, f3, f4, -, f6, f7⟩ := step_end st2 (by
    intro s' o h ho
    rw [e3] at h
    simp only [Option.some.injEq] at h
    subst h
    exact e8 o ho)
  refine ⟨st3, ?_, ?_, ?_, ?_, ?_⟩
  · rw [steps_append _ _ _ _ e1]
    simp only [List.map_cons, List.map_nil, List.nil_append, steps, f1]
  · rw [f2, e2]; simp [view, c4]
  · rw [f4, e4, f7]
  · rw [f3, e5, c6]
  · rw [f6, e7, c5]

end Verif.IniText
