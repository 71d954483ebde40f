import Verif.Model.Sections
import Verif.Lemmas.IniText
import Verif.Lemmas.Assoc

/-!
# Lemmas about sections of a configuration
-/

namespace Verif.Sections

open Verif.Restart (Str settable)
open Verif.IniText (Key Data find)
open Verif.Config (DEFAULT)
open Verif.Checksum (dictSet)
open Verif.Assoc

/-! ## References -/

theorem takeWhile_stop (k : Str) (h : ')' ∉ k) (r : Str) : (k ++ ')' :: r).takeWhile (· ≠ ')') = k ∧
    (k ++ ')' :: r).dropWhile (· ≠ ')') = ')' :: r := by
  induction k with
  | nil => simp
  | cons c k ih =>
    simp only [List.mem_cons, not_or] at h
    obtain ⟨a, b⟩ := ih h.2
    have hc : c ≠ ')' := Ne.symm h.1
    constructor
    · rw [List.cons_append, List.takeWhile_cons]; simp [hc]; simpa using a
    · rw [List.cons_append, List.dropWhile_cons]; simp [hc]; simpa using b

theorem not_mem_takeWhile (s : Str) : ')' ∉ s.takeWhile (· ≠ ')') := by
  induction s with
  | nil => simp
  | cons c s ih =>
    rw [List.takeWhile_cons]
    split
    · rename_i h
      simp only [ne_eq, decide_eq_true_eq] at h
      simp only [List.mem_cons, not_or]
      exact ⟨fun e => h e.symm, ih⟩
    · simp

theorem reference_iff (s name r : Str) :
    reference s = some (name, r) ↔ name ≠ [] ∧ ')' ∉ name ∧ s = name ++ ')' :: 's' :: r := by
  constructor
  · intro h
    unfold reference at h
    split at h
    · rename_i r' hd
      split at h
      · simp at h
      · rename_i hn
        simp only [Option.some.injEq, Prod.mk.injEq] at h
        obtain ⟨h1, h2⟩ := h
        subst h1 h2
        refine ⟨hn, ?_, ?_⟩
        · exact not_mem_takeWhile s
        · conv => lhs; rw [← List.takeWhile_append_dropWhile (p := (· ≠ ')')) (l := s)]
          rw [hd]
    · simp at h
  · rintro ⟨h1, h2, rfl⟩
    obtain ⟨a, b⟩ := takeWhile_stop name h2 ('s' :: r)
    unfold reference
    rw [b, a]
    exact if_neg h1

theorem pieces_fuel (ref : Str → Option Str) : ∀ (n m : Nat) (s : Str), s.length ≤ n → s.length ≤ m →
    pieces ref n s = pieces ref m s := by
  intro n
  induction n with
  | zero =>
    intro m s h _
    have : s = [] := List.length_eq_zero_iff.1 (Nat.le_zero.1 h)
    subst this
    cases m <;> rfl
  | succ n ih =>
    intro m s h hm
    cases s with
    | nil => cases m <;> rfl
    | cons c s =>
      cases m with
      | zero => simp at hm
      | succ m =>
        simp only [List.length_cons] at h hm
        rw [pieces, pieces]
        by_cases hc : c = '%'
        · rw [if_pos hc, if_pos hc]
          have e1 : pieces ref n s.tail = pieces ref m s.tail :=
            ih m s.tail (by rw [List.length_tail]; omega) (by rw [List.length_tail]; omega)
          rw [e1]
          cases hr : reference s.tail with
          | none => rfl
          | some e =>
            obtain ⟨name, rest⟩ := e
            obtain ⟨_, _, e⟩ := (reference_iff _ _ _).1 hr
            have : rest.length ≤ s.length := by
              have : rest.length ≤ s.tail.length := by rw [e]; simp; omega
              rw [List.length_tail] at this
              omega
            simp only [Option.bind_some]
            rw [ih m rest (by omega) (by omega)]
        · rw [if_neg hc, if_neg hc, ih m s (by omega) (by omega)]

/-- The loop without a bound. -/
def parts (ref : Str → Option Str) (s : Str) : Option Str := pieces ref s.length s

theorem parts_nil (ref : Str → Option Str) : parts ref [] = some [] := rfl

theorem parts_char (ref : Str → Option Str) {c : Char} (h : c ≠ '%') (s : Str) :
    parts ref (c :: s) = (parts ref s).map (c :: ·) := by
  unfold parts
  rw [List.length_cons, pieces, if_neg h]

theorem parts_percent (ref : Str → Option Str) (s : Str) :
    parts ref ('%' :: '%' :: s) = (parts ref s).map ('%' :: ·) := by
  unfold parts
  simp only [List.length_cons]
  rw [pieces, if_pos rfl, if_pos (show ('%' :: s).head? = some '%' from rfl), List.tail_cons]
  rw [pieces_fuel ref (s.length + 1) s.length s (by omega) (by omega)]

theorem parts_ref (ref : Str → Option Str) {name : Str} (h1 : name ≠ []) (h2 : ')' ∉ name) (s : Str) :
    parts ref ('%' :: '(' :: (name ++ ')' :: 's' :: s)) = (ref name).bind fun v => (parts ref s).map (v ++ ·) := by
  have hr := (reference_iff (name ++ ')' :: 's' :: s) name s).2 ⟨h1, h2, rfl⟩
  unfold parts
  simp only [List.length_cons]
  rw [pieces, if_pos rfl, if_neg (by simp), if_pos List.head?_cons, List.tail_cons, hr, Option.bind_some]
  dsimp only
  rw [pieces_fuel ref _ s.length s (by simp; omega) (by omega)]

/-! ## Options -/

theorem mem_names {d : Data} {s o : Str} : o ∈ (d.of s).map (·.1) ↔ find (s, o) d.opts ≠ none := by
  rw [ne_eq, IniText.find_none, Classical.not_not]
  simp only [Data.of, List.mem_map, List.mem_filter, decide_eq_true_eq]
  constructor
  · rintro ⟨e, ⟨x, ⟨hx, hs⟩, rfl⟩, rfl⟩
    exact ⟨x, hx, by rw [← hs]⟩
  · rintro ⟨x, hx, he⟩
    exact ⟨(x.1.2, x.2), ⟨x, ⟨hx, by rw [he]⟩, rfl⟩, by rw [he]⟩

theorem mem_optionNames {d : Data} {s o : Str} : o ∈ optionNames d s ↔ Data.names d s o ≠ none := by
  unfold optionNames
  simp only [List.mem_append, List.mem_filter, decide_eq_true_eq, mem_names, Data.names]
  cases find (s, o) d.opts <;> cases find (DEFAULT, o) d.opts <;> simp

theorem lookup_itemList {d : Data} {s : Str} : ∀ {os : List Str} {l : Dict}, itemList d s os = some l →
    ∀ o, l.lookup o = if o ∈ os then itemValue d s o else none := by
  intro os
  induction os with
  | nil => intro l h o; simp only [itemList, Option.some.injEq] at h; subst h; simp
  | cons a os ih =>
    intro l h o
    simp only [itemList, Option.bind_eq_some_iff, Option.map_eq_some_iff] at h
    obtain ⟨v, hv, l', hl, rfl⟩ := h
    rw [lk_cons, ih hl o]
    by_cases ho : o = a
    · subst ho; simp [hv]
    · simp [ho]

theorem itemList_none {d : Data} {s : Str} : ∀ {os : List Str}, itemList d s os = none ↔
    ∃ o ∈ os, itemValue d s o = none := by
  intro os
  induction os with
  | nil => simp [itemList]
  | cons a os ih =>
    cases hv : itemValue d s a with
    | none => simp [itemList, hv]
    | some v => simp [itemList, hv, ih]

/-! ## Reading -/

theorem readSections_base (d : Data) : ∀ (ns : List Str) (st : St), (readSections d ns st).1.base = st.base ∧
    (readSections d ns st).1.params = st.params := by
  intro ns
  induction ns with
  | nil => intro st; exact ⟨rfl, rfl⟩
  | cons n ns ih =>
    intro st
    rw [readSections]
    split
    · exact ih st
    · exact ⟨rfl, rfl⟩
    · exact ih _

/-- What a section holds after it was looked for. -/
def after (i : Items) (old : Option Dict) : Option Dict :=
  match i with
  | .found l => some l
  | _ => old

/-- A section that is declared holds what was read, or what it held before. -/
theorem readSections_sec (d : Data) : ∀ (ns : List Str) (st : St), (readSections d ns st).2 = false → ∀ n,
    (readSections d ns st).1.sec n = if n ∈ ns then after (items d n) (st.sec n) else st.sec n := by
  intro ns
  induction ns with
  | nil => intro st _ n; rfl
  | cons a ns ih =>
    intro st h n
    rw [readSections] at h ⊢
    cases hi : items d a with
    | missing =>
      rw [hi] at h
      dsimp only at h ⊢
      rw [ih st h n]
      by_cases hn : n = a
      · subst hn; simp [hi, after]
      · simp [hn]
    | error => rw [hi] at h; simp at h
    | found l =>
      rw [hi] at h
      dsimp only at h ⊢
      rw [ih _ h n]
      by_cases hn : n = a
      · subst hn
        simp only [hi, after, ite_self, List.mem_cons, true_or, if_true, St.sec, lookup_dictSet]
      · simp only [List.mem_cons, hn, false_or, St.sec, lookup_dictSet, if_false]

theorem readSections_raises (d : Data) : ∀ (ns : List Str) (st : St), (readSections d ns st).2 = true ↔
    ∃ n ∈ ns, items d n = .error := by
  intro ns
  induction ns with
  | nil => intro st; simp [readSections]
  | cons a ns ih =>
    intro st
    rw [readSections]
    cases hi : items d a <;> simp [hi, ih]

theorem readParams_base (d : Data) : ∀ (ns : List Str) (st : St), (readParams d ns st).1.base = st.base ∧
    (readParams d ns st).1.secs = st.secs := by
  intro ns
  induction ns with
  | nil => intro st; exact ⟨rfl, rfl⟩
  | cons n ns ih =>
    intro st
    rw [readParams]
    split
    · exact ⟨rfl, rfl⟩
    · exact ih _

theorem readParams_param (d : Data) : ∀ (ns : List Str) (st : St), (readParams d ns st).2 = false → ∀ n,
    (readParams d ns st).1.param n = if n ∈ ns then readParam d n (matching d n) [] else st.param n := by
  intro ns
  induction ns with
  | nil => intro st _ n; rfl
  | cons a ns ih =>
    intro st h n
    rw [readParams] at h ⊢
    cases hi : readParam d a (matching d a) [] with
    | none => rw [hi] at h; simp at h
    | some l =>
      rw [hi] at h
      dsimp only at h ⊢
      rw [ih _ h n]
      by_cases hn : n = a
      · subst hn
        simp only [hi, ite_self, List.mem_cons, true_or, if_true, St.param, lookup_dictSet]
      · simp only [List.mem_cons, hn, false_or, St.param, lookup_dictSet, if_false]

theorem readParams_raises (d : Data) : ∀ (ns : List Str) (st : St), (readParams d ns st).2 = true ↔
    ∃ n ∈ ns, readParam d n (matching d n) [] = none := by
  intro ns
  induction ns with
  | nil => intro st; simp [readParams]
  | cons a ns ih =>
    intro st
    rw [readParams]
    cases hi : readParam d a (matching d a) [] <;> simp [hi, ih]

theorem readParam_none (d : Data) (n : Str) : ∀ (ks : List Str) (acc : List (Str × Dict)),
    readParam d n ks acc = none ↔ ∃ k ∈ ks, ∀ l, items d k ≠ .found l := by
  intro ks
  induction ks with
  | nil => intro acc; simp [readParam]
  | cons k ks ih =>
    intro acc
    rw [readParam]
    cases hi : items d k <;> simp [hi, ih]

theorem readParam_lookup (d : Data) (n : Str) : ∀ (ks : List Str) (acc r : List (Str × Dict)),
    readParam d n ks acc = some r → (∀ k ∈ ks, ∃ p, k = n ++ ':' :: p) → ∀ p,
    r.lookup p = if (n ++ ':' :: p) ∈ ks then
      match items d (n ++ ':' :: p) with
      | .found l => some l
      | _ => none
      else acc.lookup p := by
  intro ks
  induction ks with
  | nil => intro acc r h _ p; simp only [readParam, Option.some.injEq] at h; subst h; rfl
  | cons k ks ih =>
    intro acc r h hk p
    rw [readParam] at h
    cases hi : items d k with
    | missing => rw [hi] at h; simp at h
    | error => rw [hi] at h; simp at h
    | found l =>
      rw [hi] at h
      dsimp only at h
      rw [ih _ r h (fun x hx => hk x (by simp [hx])) p, lookup_dictSet]
      obtain ⟨q, rfl⟩ := hk k (by simp)
      have hd : (n ++ ':' :: q).drop (n.length + 1) = q := by
        rw [show n ++ ':' :: q = (n ++ [':']) ++ q by simp]
        exact List.drop_left' (by simp)
      rw [hd]
      by_cases hp : p = q
      · subst hp
        simp [hi]
      · have : n ++ ':' :: p ≠ n ++ ':' :: q := by simpa using hp
        simp [this, hp]

theorem mem_matching {d : Data} {n k : Str} : k ∈ matching d n ↔ (∃ p, k = n ++ ':' :: p) ∧ k ∈ d.sections := by
  unfold matching keys
  rw [List.mem_filter, List.isPrefixOf_iff_prefix]
  constructor
  · rintro ⟨h1, p, h2⟩
    have e : k = n ++ ':' :: p := by rw [← h2]; simp
    refine ⟨⟨p, e⟩, ?_⟩
    rcases List.mem_cons.1 h1 with h | h
    · exfalso
      have : ':' ∈ DEFAULT := by rw [← h, e]; simp
      exact absurd this (by decide)
    · exact h
  · rintro ⟨⟨p, rfl⟩, h⟩
    exact ⟨List.mem_cons_of_mem _ h, p, by simp⟩

end Verif.Sections
