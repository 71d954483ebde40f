import Verif.Model.ByName
import Verif.Props.Export
import Verif.Lemmas.Assoc
import Verif.Lemmas.Text

/-!
# C113: Exporters are found by name and get their options
-/

namespace Verif.ByName

open Verif.Export (Str Dict Val Says InForce enabled)

/-! ## Specification -/

/-- What separates the options in the definition of an exporter. -/
def Sep (c : Char) : Prop := c = ';' ∨ c = ',' ∨ Text.isSpace c = true

/-- A text cut at every run of separators. -/
inductive Cut : Str → List Str → Prop
  | last {w : Str} : (∀ c ∈ w, ¬ Sep c) → Cut w [w]
  | more {w run rest : Str} {ws : List Str} : (∀ c ∈ w, ¬ Sep c) → run ≠ [] → (∀ c ∈ run, Sep c) → (∀ c, rest.head? = some c → ¬ Sep c) →
      Cut rest ws → Cut (w ++ run ++ rest) (w :: ws)

/-- The options in the definition of an exporter. -/
def Lists (field : Option Str) (l : List Str) : Prop :=
  (field = none ∨ field = some []) ∧ l = [] ∨ ∃ t, field = some t ∧ t ≠ [] ∧ Cut t l

/-- The exporter that a unit without problems defines. -/
def Defines (u : Unit) (n : Str) (s : Support) : Prop :=
  u.kind = "exporter".toList ∧ u.sound = true ∧ u.id = n ∧ s.supported = u.supported ∧ Lists u.options s.options ∧ s.ext = u.ext ∧
    s.summary = u.summary

/-- The last unit with an id counts. -/
def Provides (us : List Unit) (n : Str) (s : Support) : Prop :=
  ∃ pre u post, us = pre ++ u :: post ∧ Defines u n s ∧ ∀ u' ∈ post, ∀ s', ¬ Defines u' n s'

/-- The short names of exporters. -/
def Short (n : Str) : Prop :=
  n ∈ ["global".toList, "html".toList, "json".toList, "junit".toList, "tar".toList, "text".toList, "xlsx".toList]

/-- The full name for a short one. -/
def full (n : Str) : Str := "com.canonical.plainbox::".toList ++ n

/-- What a name means: a short one the exporter with the full name if there is one, and any other the exporter with that id. -/
def Means (us : List Unit) (n : Str) (s : Support) : Prop :=
  Short n ∧ Provides us (full n) s ∨ ¬ (Short n ∧ ∃ s', Provides us (full n) s') ∧ Provides us n s

/-- The first string of a list that is about an option that is not supported. -/
def FirstBad (supported all : List Str) (o : Str) : Prop :=
  ∃ pre s post v, all = pre ++ s :: post ∧ Says s o v ∧ o ∉ supported ∧ ∀ s' ∈ pre, ∃ k v, Says s' k v ∧ k ∈ supported

/-! ## Lemmas -/

theorem isSep_iff (c : Char) : isSep c = true ↔ Sep c := by simp [isSep, Sep, or_assoc]

theorem pieces_ne (b : Bool) (t : Str) : pieces b t ≠ [] := by
  induction t generalizing b with
  | nil => simp [pieces]
  | cons c r ih =>
    simp only [pieces]
    split
    · split
      · exact ih true
      · simp
    · cases h : pieces false r <;> simp [addHead]

theorem pieces_word {w : Str} (h : ∀ c ∈ w, ¬ Sep c) (rest : Str) (b : Bool) (hw : w ≠ []) :
    pieces b (w ++ rest) = pieces false (w ++ rest) := by
  cases w with
  | nil => exact absurd rfl hw
  | cons c w =>
    have hc : isSep c = false := by
      rw [← Bool.not_eq_true, isSep_iff]
      exact h c (by simp)
    simp [pieces, hc]

theorem pieces_run {run : Str} (h : ∀ c ∈ run, Sep c) (rest : Str) : pieces true (run ++ rest) = pieces true rest := by
  induction run with
  | nil => rfl
  | cons c r ih =>
    have hc : isSep c = true := (isSep_iff c).2 (h c (by simp))
    simp only [List.cons_append, pieces, hc, if_true]
    exact ih fun c hc => h c (by simp [hc])

theorem pieces_start {rest : Str} (h : ∀ c, rest.head? = some c → ¬ Sep c) : pieces true rest = pieces false rest := by
  cases rest with
  | nil => rfl
  | cons c r =>
    have hc : isSep c = false := by
      rw [← Bool.not_eq_true, isSep_iff]
      exact h c rfl
    simp [pieces, hc]

theorem pieces_last {w : Str} (h : ∀ c ∈ w, ¬ Sep c) : pieces false w = [w] := by
  induction w with
  | nil => rfl
  | cons c w ih =>
    have hc : isSep c = false := by
      rw [← Bool.not_eq_true, isSep_iff]
      exact h c (by simp)
    simp [pieces, hc, ih fun c hc => h c (by simp [hc]), addHead]

theorem pieces_more {w run : Str} (h : ∀ c ∈ w, ¬ Sep c) (hr : run ≠ []) (hs : ∀ c ∈ run, Sep c) (rest : Str) :
    pieces false (w ++ run ++ rest) = w :: pieces true rest := by
  induction w with
  | nil =>
    cases run with
    | nil => exact absurd rfl hr
    | cons c r =>
      have hc : isSep c = true := (isSep_iff c).2 (hs c (by simp))
      simp [pieces, hc, pieces_run (run := r) fun c hc => hs c (by simp [hc])]
  | cons c w ih =>
    have hc : isSep c = false := by
      rw [← Bool.not_eq_true, isSep_iff]
      exact h c (by simp)
    simp only [List.cons_append, pieces, hc, Bool.false_eq_true, if_false]
    rw [ih fun c hc => h c (by simp [hc])]
    rfl

theorem cut_eq {t : Str} {ws : List Str} (h : Cut t ws) : ws = pieces false t := by
  induction h with
  | last h => exact (pieces_last h).symm
  | more h hr hs hh _ ih => rw [pieces_more h hr hs, pieces_start hh, ih]

theorem cut_pieces (t : Str) : Cut t (pieces false t) := by
  induction hn : t.length using Nat.strongRecOn generalizing t with
  | _ n ih =>
    subst hn
    have e : t.takeWhile (fun c => !isSep c) ++ t.dropWhile (fun c => !isSep c) = t := List.takeWhile_append_dropWhile
    have hw : ∀ c ∈ t.takeWhile (fun c => !isSep c), ¬ Sep c := by
      intro c hc
      have := List.all_takeWhile (p := fun c => !isSep c) (l := t)
      rw [List.all_eq_true] at this
      have := this c hc
      rw [← isSep_iff]
      simpa using this
    generalize t.takeWhile (fun c => !isSep c) = w at *
    generalize hx : t.dropWhile (fun c => !isSep c) = x at *
    cases x with
    | nil =>
      rw [List.append_nil] at e
      subst e
      rw [pieces_last hw]
      exact .last hw
    | cons c x =>
      have hc : Sep c := by
        have := List.head?_dropWhile_not (fun c => !isSep c) t
        rw [hx] at this
        simp only [List.head?_cons] at this
        rw [← isSep_iff]
        simpa using this
      have e2 : x.takeWhile isSep ++ x.dropWhile isSep = x := List.takeWhile_append_dropWhile
      have hr : ∀ c ∈ x.takeWhile isSep, Sep c := by
        intro c hc
        have := List.all_takeWhile (p := isSep) (l := x)
        rw [List.all_eq_true] at this
        exact (isSep_iff c).1 (this c hc)
      have hd : ∀ c, (x.dropWhile isSep).head? = some c → ¬ Sep c := by
        intro c hc
        have := List.head?_dropWhile_not isSep x
        rw [hc] at this
        rw [← isSep_iff]
        simpa using this
      have hl : (x.dropWhile isSep).length < t.length := by
        have h1 : (x.dropWhile isSep).length ≤ x.length := (List.dropWhile_sublist _).length_le
        rw [← e]
        simp
        omega
      generalize x.takeWhile isSep = run at *
      generalize x.dropWhile isSep = rest at *
      have e3 : t = w ++ (c :: run) ++ rest := by rw [← e, ← e2]; simp
      have hs : ∀ d ∈ c :: run, Sep d := by
        intro d hd'
        rcases List.mem_cons.1 hd' with rfl | h
        · exact hc
        · exact hr d h
      rw [e3, pieces_more hw (by simp) hs, pieces_start hd]
      exact .more hw (by simp) hs hd (ih _ hl rest rfl)

theorem optionList_iff (f : Option Str) (l : List Str) : Lists f l ↔ l = optionList f := by
  unfold Lists optionList
  cases f with
  | none => simp
  | some t =>
    by_cases h : t = []
    · subst h
      simp
    · simp only [Option.getD_some, if_neg h, Option.some.injEq, reduceCtorEq, false_or, exists_eq_left']
      constructor
      · rintro (⟨e, _⟩ | ⟨_, hc⟩)
        · exact absurd e h
        · exact cut_eq hc
      · rintro rfl
        exact .inr ⟨h, cut_pieces t⟩

theorem defines_iff (u : Unit) (n : Str) (s : Support) :
    Defines u n s ↔ u.kind = "exporter".toList ∧ u.id = n ∧ support u = some s := by
  unfold Defines support
  rw [optionList_iff]
  cases u with
  | mk kind id sound supported options ext summary =>
    cases s with
    | mk a b c d =>
      cases sound
      · simp
      · simp only [true_and, if_true, Option.some.injEq, Support.mk.injEq]
        constructor
        · rintro ⟨h1, h2, rfl, rfl, rfl, rfl⟩
          exact ⟨h1, h2, rfl, rfl, rfl, rfl⟩
        · rintro ⟨h1, h2, rfl, rfl, rfl, rfl⟩
          exact ⟨h1, h2, rfl, rfl, rfl, rfl⟩

theorem provides_nil (n : Str) (s : Support) : ¬ Provides [] n s := by
  rintro ⟨pre, u, post, e, -⟩
  simp at e

theorem provides_cons (u : Unit) (us : List Unit) (n : Str) (s : Support) :
    Provides (u :: us) n s ↔ Provides us n s ∨ Defines u n s ∧ ∀ u' ∈ us, ∀ s', ¬ Defines u' n s' := by
  constructor
  · rintro ⟨pre, v, post, e, h1, h2⟩
    cases pre with
    | nil =>
      injection e with e1 e2
      subst e1 e2
      exact .inr ⟨h1, h2⟩
    | cons x pre =>
      injection e with e1 e2
      exact .inl ⟨pre, v, post, e2, h1, h2⟩
  · rintro (⟨pre, v, post, e, h1, h2⟩ | ⟨h1, h2⟩)
    · exact ⟨u :: pre, v, post, by rw [e]; rfl, h1, h2⟩
    · exact ⟨[], u, us, rfl, h1, h2⟩

theorem exists_provides {us : List Unit} {n : Str} (h : ∃ u ∈ us, ∃ s, Defines u n s) : ∃ s, Provides us n s := by
  induction us with
  | nil => simp at h
  | cons x us ih =>
    by_cases h' : ∃ u ∈ us, ∃ s, Defines u n s
    · obtain ⟨s, hs⟩ := ih h'
      exact ⟨s, (provides_cons ..).2 (.inl hs)⟩
    · obtain ⟨u, hu, s, hd⟩ := h
      rcases List.mem_cons.1 hu with rfl | hu
      · exact ⟨s, (provides_cons ..).2 (.inr ⟨hd, fun u' hu' s' hd' => h' ⟨u', hu', s', hd'⟩⟩)⟩
      · exact absurd ⟨u, hu, s, hd⟩ h'

theorem defines_of_provides {us : List Unit} {n : Str} {s : Support} (h : Provides us n s) : ∃ u ∈ us, Defines u n s := by
  obtain ⟨pre, u, post, rfl, hd, -⟩ := h
  exact ⟨u, by simp, hd⟩

theorem provides_unique {us : List Unit} {n : Str} {s s' : Support} (h : Provides us n s) (h' : Provides us n s') : s = s' := by
  induction us with
  | nil => exact absurd h (provides_nil _ _)
  | cons u us ih =>
    rw [provides_cons] at h h'
    rcases h with h | ⟨h, hn⟩
    · rcases h' with h' | ⟨_, hn⟩
      · exact ih h h'
      · obtain ⟨v, hv, hd⟩ := defines_of_provides h
        exact absurd hd (hn v hv s)
    · rcases h' with h' | ⟨h', _⟩
      · obtain ⟨v, hv, hd⟩ := defines_of_provides h'
        exact absurd hd (hn v hv s')
      · rw [defines_iff] at h h'
        exact Option.some.inj (h.2.2.symm.trans h'.2.2)

theorem unitMap_lookup (us : List Unit) (m : List (Str × Support)) (n : Str) (s : Support) :
    (unitMap us m).lookup n = some s ↔ Provides us n s ∨ (¬ ∃ s', Provides us n s') ∧ m.lookup n = some s := by
  induction us generalizing m with
  | nil => simp [unitMap, provides_nil]
  | cons u us ih =>
    by_cases hk : u.kind = "exporter".toList
    · cases hs : support u with
      | none =>
        simp only [unitMap, if_pos hk, hs, ih]
        have : ∀ n s, ¬ Defines u n s := by
          intro n s h
          rw [defines_iff, hs] at h
          exact absurd h.2.2 (by simp)
        simp [provides_cons, this]
      | some x =>
        simp only [unitMap, if_pos hk, hs, ih, Assoc.lookup_dictSet]
        have hd : ∀ n s, Defines u n s ↔ u.id = n ∧ x = s := by
          intro n s
          rw [defines_iff, hs]
          simp [hk]
        by_cases hp : ∃ s', Provides us n s'
        · obtain ⟨s', hp⟩ := hp
          have h1 : ∃ s', Provides us n s' := ⟨s', hp⟩
          obtain ⟨v, hv, hdv⟩ := defines_of_provides hp
          have : ¬ ∀ u' ∈ us, ∀ s', ¬ Defines u' n s' := fun h => h v hv _ hdv
          simp only [h1, not_true_eq_false, false_and, or_false, provides_cons, this, and_false]
        · have hall : ∀ u' ∈ us, ∀ s', ¬ Defines u' n s' := fun u' hu' s' hd' => hp (exists_provides ⟨u', hu', s', hd'⟩)
          have hno : ∀ s, ¬ Provides us n s := fun s h => hp ⟨s, h⟩
          have hT : (∀ u' ∈ us, ∀ s', ¬ Defines u' n s') ↔ True := iff_true_intro hall
          simp only [provides_cons, hT, hno, hd, false_or, and_true, not_exists, not_false_eq_true]
          by_cases e : u.id = n
          · subst e
            simp
          · have e' : ¬ n = u.id := fun h => e h.symm
            simp [e, e']
    · simp only [unitMap, if_neg hk, ih]
      have : ∀ n s, ¬ Defines u n s := fun n s h => hk h.1
      simp [provides_cons, this]

theorem unitMap_none (us : List Unit) (n : Str) : (unitMap us []).lookup n = none ↔ ¬ ∃ s, Provides us n s := by
  cases h : (unitMap us []).lookup n with
  | none =>
    simp only [true_iff]
    rintro ⟨s, hs⟩
    rw [(unitMap_lookup us [] n s).2 (.inl hs)] at h
    cases h
  | some s =>
    rcases (unitMap_lookup us [] n s).1 h with hp | ⟨_, hp⟩
    · simp only [reduceCtorEq, not_not_intro (Exists.intro s hp)]
    · simp at hp

/-- Short names are added for the full names that are there; `short` are the names on the right side. -/
theorem addShort_lookup (l : List (Str × Str)) (m : List (Str × Support)) (n : Str)
    (h1 : ∀ p ∈ l, ∀ q ∈ l, p.1 ≠ q.2) (h2 : (l.map (·.2)).Nodup) :
    (addShort l m).lookup n = ((l.find? fun p => p.2 = n).bind fun p => m.lookup p.1).or (m.lookup n) := by
  induction l generalizing m with
  | nil => simp [addShort]
  | cons p l ih =>
    obtain ⟨new, old⟩ := p
    rw [List.map_cons, List.nodup_cons] at h2
    have ih := fun m => ih m (fun p hp q hq => h1 p (by simp [hp]) q (by simp [hq])) h2.2
    have hold : ∀ p ∈ l, p.2 ≠ old := fun p hp e => h2.1 (List.mem_map.2 ⟨p, hp, e⟩)
    have hkeep : ∀ s, ((l.find? fun p => p.2 = n).bind fun p => (Checksum.dictSet old s m).lookup p.1) =
        (l.find? fun p => p.2 = n).bind fun p => m.lookup p.1 := by
      intro s
      cases hf : l.find? fun p => p.2 = n with
      | none => rfl
      | some p =>
        have hm := List.mem_of_find?_eq_some hf
        have : p.1 ≠ old := h1 p (by simp [hm]) (new, old) (by simp)
        simp [Assoc.lookup_dictSet, this]
    by_cases e : old = n
    · subst e
      have hf : l.find? (fun p => decide (p.2 = old)) = none := by
        rw [List.find?_eq_none]
        intro p hp
        simpa using hold p hp
      cases hl : m.lookup new with
      | none => simp [addShort, hl, ih, hf]
      | some s => simp [addShort, hl, ih, hf, Assoc.lookup_dictSet]
    · have e' : ¬ n = old := fun h => e h.symm
      cases hl : m.lookup new with
      | none => simp [addShort, hl, ih, e]
      | some s =>
        simp only [addShort, hl, ih, hkeep]
        simp [e, e', Assoc.lookup_dictSet]

theorem addShort_nodup (l : List (Str × Str)) (m : List (Str × Support)) (h : (m.map (·.1)).Nodup) :
    ((addShort l m).map (·.1)).Nodup := by
  induction l generalizing m with
  | nil => exact h
  | cons p l ih =>
    obtain ⟨new, old⟩ := p
    simp only [addShort]
    split
    · exact ih _ (Assoc.nodup_dictSet _ _ _ h)
    · exact ih _ h

theorem unitMap_nodup (us : List Unit) (m : List (Str × Support)) (h : (m.map (·.1)).Nodup) :
    ((unitMap us m).map (·.1)).Nodup := by
  induction us generalizing m with
  | nil => exact h
  | cons u us ih =>
    simp only [unitMap]
    split
    · split
      · exact ih _ (Assoc.nodup_dictSet _ _ _ h)
      · exact ih _ h
    · exact ih _ h

theorem short_find (n : Str) : (legacy.find? fun p => p.2 = n) = if n ∈ legacy.map (·.2) then some (full n, n) else none := by
  by_cases h : n ∈ legacy.map (·.2)
  · rw [if_pos h]
    simp only [legacy, List.map_cons, List.map_nil, List.mem_cons, List.not_mem_nil, or_false] at h
    rcases h with rfl | rfl | rfl | rfl | rfl | rfl | rfl <;> decide +kernel
  · rw [if_neg h, List.find?_eq_none]
    intro p hp e
    exact h (List.mem_map.2 ⟨p, hp, by simpa using e⟩)

theorem short_iff (n : Str) : n ∈ legacy.map (·.2) ↔ Short n := Iff.rfl

/-! ## Names -/

/-- **C113, part 1.** The map of exporters has for every name what it means, and nothing else; every name is there once. -/
theorem C113_names (us : List Unit) : (∀ n s, (exporterMap us).lookup n = some s ↔ Means us n s) ∧
    ((exporterMap us).map (·.1)).Nodup := by
  refine ⟨fun n s => ?_, addShort_nodup _ _ (unitMap_nodup _ _ (by simp))⟩
  unfold exporterMap
  rw [addShort_lookup legacy _ n (by decide +kernel) (by decide +kernel), short_find]
  unfold Means
  by_cases h : Short n
  · rw [if_pos ((short_iff n).2 h), Option.bind_some]
    dsimp only
    cases hl : (unitMap us []).lookup (full n) with
    | some x =>
      have hp : Provides us (full n) x := by
        rcases (unitMap_lookup us [] _ x).1 hl with hp | ⟨_, hp⟩
        · exact hp
        · simp at hp
      simp only [Option.some_or, Option.some.injEq, h, true_and, Exists.intro x hp, not_true_eq_false, false_and, or_false]
      exact ⟨fun e => e ▸ hp, provides_unique hp⟩
    | none =>
      have hn := (unitMap_none us _).1 hl
      have hno : ∀ s, ¬ Provides us (full n) s := fun s hs => hn ⟨s, hs⟩
      rw [Option.none_or, unitMap_lookup]
      simp [h, hno]
  · rw [if_neg (fun g => h ((short_iff n).1 g)), Option.bind_none, Option.none_or, unitMap_lookup]
    simp [h]

theorem means_none (us : List Unit) (n : Str) : (exporterMap us).lookup n = none ↔ ¬ ∃ s, Means us n s := by
  cases h : (exporterMap us).lookup n with
  | none =>
    simp only [true_iff]
    rintro ⟨s, hs⟩
    rw [((C113_names us).1 n s).2 hs] at h
    cases h
  | some s =>
    have := ((C113_names us).1 n s).1 h
    simp only [reduceCtorEq, false_iff]
    exact not_not_intro ⟨s, this⟩

theorem means_unique {us : List Unit} {n : Str} {s s' : Support} (h : Means us n s) (h' : Means us n s') : s = s' := by
  rw [← (C113_names us).1] at h h'
  exact Option.some.inj (h.symm.trans h')

/-! ## Making exporters -/

theorem construct_ok {s : Support} {o : Option (List Str)} {e : Exporter} (h : construct s o = .ok e) :
    e.unit = s ∧ Export.mkOptions s.supported o (some s.options) = .ok e.options := by
  unfold construct at h
  cases hm : Export.mkOptions s.supported o (some s.options) with
  | error x => rw [hm] at h; cases h
  | ok d =>
    rw [hm] at h
    injection h with h
    subst h
    exact ⟨rfl, rfl⟩

theorem construct_error (s : Support) (o : Option (List Str)) (x : Err) : construct s o = .error x ↔
    ∃ k, x = .value k ∧ FirstBad s.supported (o.getD [] ++ s.options) k := by
  unfold construct
  cases hm : Export.mkOptions s.supported o (some s.options) with
  | error k =>
    simp only [Except.error.injEq]
    constructor
    · rintro rfl
      exact ⟨k, rfl, (Export.C62_refused ..).1 hm⟩
    · rintro ⟨k', rfl, hk⟩
      rw [(Export.C62_refused _ _ (some s.options) _).2 hk] at hm
      injection hm with hm
      rw [hm]
  | ok d =>
    simp only [reduceCtorEq, false_iff, not_exists, not_and]
    rintro k rfl hk
    rw [(Export.C62_refused _ _ (some s.options) _).2 hk] at hm
    cases hm

/-- **C113, part 2.** Making an exporter in strict mode: `KeyError` exactly for a name that means nothing; `ValueError` exactly if one of
the given options or those of the unit is not supported, and it tells the first such option; no other exception. -/
theorem C113_strict (us : List Unit) (n : Str) (o : Option (List Str)) (x : Err) : create us n o true = .error x ↔
    (¬ ∃ s, Means us n s) ∧ x = .key n ∨ ∃ s k, Means us n s ∧ x = .value k ∧ FirstBad s.supported (o.getD [] ++ s.options) k := by
  unfold create
  cases h : (exporterMap us).lookup n with
  | none =>
    have hn := (means_none us n).1 h
    have hno : ∀ s, ¬ Means us n s := fun s hs => hn ⟨s, hs⟩
    simp [hno, eq_comm]
  | some s =>
    have hs := ((C113_names us).1 n s).1 h
    simp only [if_true, construct_error, Exists.intro s hs, not_true_eq_false, false_and, false_or]
    constructor
    · rintro ⟨k, rfl, hk⟩
      exact ⟨s, k, hs, rfl, hk⟩
    · rintro ⟨s', k, hs', rfl, hk⟩
      rw [means_unique hs' hs] at hk
      exact ⟨k, rfl, hk⟩

/-- **C113, part 3.** An exporter made in strict mode is the one the name means, and its options have the values given last, where
those of the unit come after those of the caller. -/
theorem C113_made (us : List Unit) (n : Str) (o : Option (List Str)) (e : Exporter) (h : create us n o true = .ok e) :
    Means us n e.unit ∧ (∀ k, enabled e.options k = true ↔ InForce (o.getD [] ++ e.unit.options) k) ∧
    ∀ k v, (k, v) ∈ e.options ↔ ∃ pre s post, o.getD [] ++ e.unit.options = pre ++ s :: post ∧ Says s k v ∧
      ∀ s' ∈ post, ∀ v', ¬ Says s' k v' := by
  unfold create at h
  cases hl : (exporterMap us).lookup n with
  | none => rw [hl] at h; cases h
  | some s =>
    rw [hl] at h
    have hs := ((C113_names us).1 n s).1 hl
    obtain ⟨hu, hd⟩ := construct_ok (show construct s o = .ok e from h)
    rw [hu]
    have := Export.C62_options hd
    exact ⟨hs, fun k => (this k).1, fun k => (this k).2⟩

/-! ## The mode that is not strict -/

theorem says_plain {s : Str} (h : '=' ∉ s) (k : Str) (v : Val) : Says s k v ↔ k = s ∧ v = .yes := by
  unfold Says
  constructor
  · rintro ⟨_, ⟨hv, e⟩ | ⟨t, _, e⟩⟩
    · exact ⟨e.symm, hv⟩
    · exact absurd (by rw [e]; simp) h
  · rintro ⟨rfl, rfl⟩
    exact ⟨h, .inl ⟨rfl, rfl⟩⟩

theorem inForce_append (l r : List Str) (k : Str) :
    InForce (l ++ r) k ↔ InForce r k ∨ (∀ s ∈ r, ∀ v, ¬ Says s k v) ∧ InForce l k := by
  constructor
  · rintro ⟨pre, s, post, v, e, h1, h2, h3⟩
    rcases List.append_eq_append_iff.1 e with ⟨x, e1, e2⟩ | ⟨x, e1, e2⟩
    · exact .inl ⟨x, s, post, v, e2, h1, h2, h3⟩
    · cases x with
      | nil => exact .inl ⟨[], s, post, v, e2.symm, h1, h2, h3⟩
      | cons y x =>
        injection e2 with e2 e3
        subst e2
        refine .inr ⟨fun s' hs' => h3 s' (by rw [e3]; simp [hs']), pre, s, x, v, e1, h1, h2, fun s' hs' => h3 s' (by rw [e3]; simp [hs'])⟩
  · rintro (⟨pre, s, post, v, e, h1, h2, h3⟩ | ⟨hr, pre, s, post, v, e, h1, h2, h3⟩)
    · exact ⟨l ++ pre, s, post, v, by rw [e]; simp, h1, h2, h3⟩
    · refine ⟨pre, s, post ++ r, v, by rw [e]; simp, h1, h2, fun s' hs' => ?_⟩
      rcases List.mem_append.1 hs' with hs' | hs'
      · exact h3 s' hs'
      · exact hr s' hs'

theorem inForce_plain {l : List Str} (h : ∀ s ∈ l, '=' ∉ s) (k : Str) : InForce l k ↔ k ∈ l := by
  constructor
  · rintro ⟨pre, s, post, v, e, h1, -, -⟩
    have hm : s ∈ l := by rw [e]; simp
    rw [says_plain (h s hm)] at h1
    rw [h1.1]
    exact hm
  · intro hk
    induction l with
    | nil => simp at hk
    | cons x l ih =>
      by_cases hkl : k ∈ l
      · obtain ⟨pre, s, post, v, e, h1⟩ := ih (fun s hs => h s (by simp [hs])) hkl
        exact ⟨x :: pre, s, post, v, by rw [e]; rfl, h1⟩
      · rcases List.mem_cons.1 hk with rfl | hk
        · refine ⟨[], k, l, .yes, rfl, (says_plain (h k (by simp)) _ _).2 ⟨rfl, rfl⟩, by simp, fun s' hs' v' hv => ?_⟩
          rw [says_plain (h s' (by simp [hs']))] at hv
          exact hkl (hv.1 ▸ hs')
        · exact absurd hk hkl

theorem lookup_create (us : List Unit) (n : Str) {s : Support} (h : Means us n s) (l : List Str) :
    create us n (some l) false = construct s (some (l.filter fun o => s.supported.contains o)) := by
  unfold create
  rw [((C113_names us).1 n s).2 h]
  rfl

/-- **C113, part 4.** If the mode is not strict, an exporter has exactly those of the options that it supports. Partial: if no value is
given to an option (`C113_value_violated`). -/
theorem C113_lenient_partial (us : List Unit) (n : Str) (l : List Str) (e : Exporter) (hl : ∀ o ∈ l, '=' ∉ o)
    (h : create us n (some l) false = .ok e) : Means us n e.unit ∧
    ∀ k, enabled e.options k = true ↔ k ∈ e.unit.supported ∧ InForce (l ++ e.unit.options) k := by
  cases hf : (exporterMap us).lookup n with
  | none =>
    unfold create at h
    rw [hf] at h
    cases h
  | some s =>
    have hs := ((C113_names us).1 n s).1 hf
    rw [lookup_create us n hs] at h
    obtain ⟨hu, hd⟩ := construct_ok h
    rw [hu]
    refine ⟨hs, fun k => ?_⟩
    rw [(Export.C62_options hd k).1]
    obtain ⟨-, hsup⟩ := Export.mkOptions_ok hd
    have hin : InForce s.options k → k ∈ s.supported := by
      rintro ⟨pre, o, post, v, e1, h1, -, -⟩
      obtain ⟨k', v', h2, h3⟩ := hsup o (by simp [e1])
      have := (Export.split_says h1).symm.trans (Export.split_says h2)
      rw [(Prod.mk.inj this).1]
      exact h3
    have hp : ∀ o ∈ l.filter (fun o => s.supported.contains o), '=' ∉ o := fun o ho => hl o (List.mem_of_mem_filter ho)
    simp only [Option.getD_some, inForce_append, inForce_plain hl, inForce_plain hp, List.mem_filter, List.contains_iff_mem]
    constructor
    · rintro (h | ⟨h1, h2, h3⟩)
      · exact ⟨hin h, .inl h⟩
      · exact ⟨h3, .inr ⟨h1, h2⟩⟩
    · rintro ⟨h, h' | ⟨h1, h2⟩⟩
      · exact .inl h'
      · exact .inr ⟨h1, h2, h⟩

/-- **C113, part 5.** If the mode is not strict, no option that is given makes it fail, only unknown names and options of the unit. -/
theorem C113_accepts (us : List Unit) (n : Str) (l : List Str) (hus : ∀ u ∈ us, ∀ k ∈ u.supported, '=' ∉ k) :
    (∃ e, create us n (some l) false = .ok e) ↔
      ∃ s, Means us n s ∧ ∀ o ∈ s.options, ∃ k v, Says o k v ∧ k ∈ s.supported := by
  constructor
  · rintro ⟨e, h⟩
    cases hf : (exporterMap us).lookup n with
    | none =>
      unfold create at h
      rw [hf] at h
      cases h
    | some s =>
      have hs := ((C113_names us).1 n s).1 hf
      rw [lookup_create us n hs] at h
      obtain ⟨-, hsup⟩ := Export.mkOptions_ok (construct_ok h).2
      exact ⟨s, hs, fun o ho => hsup o (by simp [ho])⟩
  · rintro ⟨s, hs, ho⟩
    rw [lookup_create us n hs]
    have hsup : ∀ k ∈ s.supported, '=' ∉ k := by
      have : ∃ m, Provides us m s := by
        rcases hs with ⟨_, h⟩ | ⟨_, h⟩ <;> exact ⟨_, h⟩
      obtain ⟨m, h⟩ := this
      obtain ⟨u, hu, hd⟩ := defines_of_provides h
      rw [hd.2.2.2.1]
      exact hus u hu
    cases hc : construct s (some (l.filter fun o => s.supported.contains o)) with
    | ok e => exact ⟨e, rfl⟩
    | error x =>
      obtain ⟨k, -, pre, o, post, v, e1, h1, h2, -⟩ := (construct_error ..).1 hc
      exfalso
      have hm : o ∈ (l.filter fun o => s.supported.contains o) ++ s.options := by
        rw [Option.getD_some] at e1
        rw [e1]
        simp
      rcases List.mem_append.1 hm with hm | hm
      · obtain ⟨-, hm⟩ := List.mem_filter.1 hm
        rw [List.contains_iff_mem] at hm
        rw [says_plain (hsup o hm)] at h1
        exact h2 (h1.1 ▸ hm)
      · obtain ⟨k', v', h3, h4⟩ := ho o hm
        have := (Export.split_says h1).symm.trans (Export.split_says h3)
        exact h2 ((Prod.mk.inj this).1 ▸ h4)

/-! ## Commands -/

/-- What follows `-p`: no text, or the names with commas between them. -/
def Given (text : Option Str) (o : Option (List Str)) : Prop :=
  (text = none ∨ text = some []) ∧ o = none ∨
    ∃ names, o = some names ∧ text = some (Text.joinWith ',' names) ∧ names ≠ [] ∧ names ≠ [[]] ∧ ∀ x ∈ names, ',' ∉ x

theorem commandOptions_given {text : Option Str} {o : Option (List Str)} (h : Given text o) : commandOptions text = o := by
  unfold commandOptions
  rcases h with ⟨rfl | rfl, rfl⟩ | ⟨names, rfl, rfl, h1, h2, h3⟩
  · rfl
  · rfl
  · have hne : Text.joinWith ',' names ≠ [] := by
      cases names with
      | nil => exact absurd rfl h1
      | cons x xs =>
        cases xs with
        | nil =>
          intro e
          apply h2
          have : x = [] := e
          rw [this]
        | cons y ys =>
          rw [Text.joinWith_cons _ _ (by simp)]
          simp
    rw [Option.getD_some, if_neg hne, Text.split_join h1 h3]

theorem mem_map_iff (us : List Unit) (n : Str) (s : Support) : (n, s) ∈ exporterMap us ↔ Means us n s := by
  rw [← (C113_names us).1]
  have hn := (C113_names us).2
  generalize exporterMap us = l at hn ⊢
  induction l with
  | nil => simp
  | cons p l ih =>
    obtain ⟨k, v⟩ := p
    rw [List.map_cons, List.nodup_cons] at hn
    rw [Assoc.lk_cons, List.mem_cons]
    refine (or_congr Iff.rfl (ih hn.2)).trans ?_
    by_cases e : k = n
    · subst e
      have hk : l.lookup k = none := by
        rw [List.lookup_eq_none_iff]
        intro q hq
        simp only [bne_iff_ne, ne_eq]
        rintro rfl
        exact hn.1 (List.mem_map.2 ⟨q, hq, rfl⟩)
      simp [hk, eq_comm]
    · have e' : ¬ n = k := fun h => e h.symm
      simp [e']

/-- **C113, part 6.** With `-f` and `-p` both commands make the exporter in strict mode with the options between the commas. -/
theorem C113_commands (all us : List Unit) (f : Str) (text : Option Str) (o : Option (List Str)) (s : Support) (hf : f ≠ "?".toList)
    (ht : text ≠ some "?".toList) (hs : Means us f s) (hg : Given text o) :
    runCommand us f text = (create us f o true).map .go ∧ exportCommand all us f text = (create us f o true).map .go := by
  have hl := ((C113_names us).1 f s).2 hs
  unfold runCommand exportCommand
  rw [if_neg (show ¬ text = some ['?'] from ht), if_neg (show ¬ f = ['?'] from hf), if_neg (show ¬ text = some ['?'] from ht),
    if_neg (show ¬ f = ['?'] from hf), hl, commandOptions_given hg]
  exact ⟨rfl, rfl⟩

/-- **C113, part 7.** A name that means nothing is told by `run`, together with the names that mean something and their summaries; the
other command ends with `KeyError`. -/
theorem C113_unknown (all us : List Unit) (f : Str) (text : Option Str) (hf : f ≠ "?".toList)
    (ht : text ≠ some "?".toList) (hs : ¬ ∃ s, Means us f s) :
    (∃ l, runCommand us f text = .ok (.invalid f l) ∧ ∀ n x, (n, x) ∈ l ↔ ∃ s, Means us n s ∧ s.summary = x) ∧
    exportCommand all us f text = .error (.key f) := by
  have hl := (means_none us f).2 hs
  unfold runCommand exportCommand
  rw [if_neg (show ¬ text = some ['?'] from ht), if_neg (show ¬ f = ['?'] from hf), if_neg (show ¬ text = some ['?'] from ht),
    if_neg (show ¬ f = ['?'] from hf), hl]
  refine ⟨⟨_, rfl, fun n x => ?_⟩, ?_⟩
  · simp only [formatsOf, List.mem_map, Prod.mk.injEq, Prod.exists, mem_map_iff]
    constructor
    · rintro ⟨a, b, h, rfl, rfl⟩
      exact ⟨b, h, rfl⟩
    · rintro ⟨s, h, rfl⟩
      exact ⟨n, s, h, rfl, rfl⟩
  · unfold create
    rw [hl]
    rfl

/-- **C113, part 8.** With a question mark the names that mean something are listed, each once, with the options they support or, by
`run`, their summaries. -/
theorem C113_lists (all us : List Unit) (f : Str) (text : Option Str) :
    (∃ l, runCommand us f (some "?".toList) = .ok (.listOptions l) ∧ (l.map (·.1)).Nodup ∧
      ∀ n x, (n, x) ∈ l ↔ ∃ s, Means us n s ∧ s.supported = x) ∧
    (text ≠ some "?".toList → ∃ l, runCommand us "?".toList text = .ok (.listFormats l) ∧ (l.map (·.1)).Nodup ∧
      ∀ n x, (n, x) ∈ l ↔ ∃ s, Means us n s ∧ s.summary = x) ∧
    (∃ l, exportCommand all us "?".toList text = .ok (.listNames l) ∧ l.Nodup ∧ ∀ n, n ∈ l ↔ ∃ s, Means all n s) ∧
    (f ≠ "?".toList → ∃ l, exportCommand all us f (some "?".toList) = .ok (.listOptions l) ∧ (l.map (·.1)).Nodup ∧
      ∀ n x, (n, x) ∈ l ↔ ∃ s, Means all n s ∧ s.supported = x) := by
  have h1 : ∀ us, ((optionsOf us).map (·.1)).Nodup ∧ ∀ n x, (n, x) ∈ optionsOf us ↔ ∃ s, Means us n s ∧ s.supported = x := by
    intro us
    refine ⟨by simp only [optionsOf, List.map_map]; exact (C113_names us).2, fun n x => ?_⟩
    simp only [optionsOf, List.mem_map, Prod.mk.injEq, Prod.exists, mem_map_iff]
    constructor
    · rintro ⟨a, b, h, rfl, rfl⟩
      exact ⟨b, h, rfl⟩
    · rintro ⟨s, h, rfl⟩
      exact ⟨n, s, h, rfl, rfl⟩
  have h2 : ((formatsOf us).map (·.1)).Nodup ∧ ∀ n x, (n, x) ∈ formatsOf us ↔ ∃ s, Means us n s ∧ s.summary = x := by
    refine ⟨by simp only [formatsOf, List.map_map]; exact (C113_names us).2, fun n x => ?_⟩
    simp only [formatsOf, List.mem_map, Prod.mk.injEq, Prod.exists, mem_map_iff]
    constructor
    · rintro ⟨a, b, h, rfl, rfl⟩
      exact ⟨b, h, rfl⟩
    · rintro ⟨s, h, rfl⟩
      exact ⟨n, s, h, rfl, rfl⟩
  refine ⟨⟨_, rfl, h1 us⟩, fun ht => ⟨formatsOf us, ?_, h2⟩, ⟨_, rfl, (C113_names all).2, fun n => ?_⟩,
    fun hf => ⟨optionsOf all, ?_, h1 all⟩⟩
  · unfold runCommand
    rw [if_neg (show ¬ text = some ['?'] from ht)]
    rfl
  · simp only [List.mem_map, Prod.exists, mem_map_iff]
    constructor
    · rintro ⟨a, b, h, rfl⟩
      exact ⟨b, h⟩
    · rintro ⟨s, h⟩
      exact ⟨n, s, h, rfl⟩
  · unfold exportCommand
    rw [if_neg (show ¬ f = ['?'] from hf)]
    rfl

/-! ## Violations and examples -/

/-- An exporter of plainbox with the given options in its definition. -/
def textUnit (options : Option Str) : Unit :=
  ⟨"exporter".toList, "com.canonical.plainbox::text".toList, true, ["with-io-log".toList, "client-name".toList], options,
    "txt".toList, "Text".toList⟩

/-- **C113** is violated by options with values in the mode that is not strict: they are dropped although the exporter supports them. -/
theorem C113_value_violated :
    (create [textUnit none] "text".toList (some ["client-name=me".toList]) true).map (·.options) =
      .ok [("client-name".toList, .text "me".toList)] ∧
    (create [textUnit none] "text".toList (some ["client-name=me".toList]) false).map (·.options) = .ok [] := by decide +kernel

/-- **C113** is violated by a definition whose options end with a comma: the exporter can never be made, although the unit has no
problems. -/
theorem C113_comma_violated (o : List Str) (ho : ∀ x ∈ o, x ∈ ["with-io-log".toList, "client-name".toList]) (strict : Bool) :
    create [textUnit (some "with-io-log,".toList)] "text".toList (some o) strict = .error (.value []) := by
  have hm : Means [textUnit (some "with-io-log,".toList)] "text".toList
      ⟨["with-io-log".toList, "client-name".toList], ["with-io-log".toList, []], "txt".toList, "Text".toList⟩ := by
    rw [← (C113_names _).1]
    decide +kernel
  have hplain : ∀ x ∈ ["with-io-log".toList, "client-name".toList], '=' ∉ x := by decide +kernel
  have hb : ∀ o : List Str, (∀ x ∈ o, x ∈ ["with-io-log".toList, "client-name".toList]) →
      FirstBad ["with-io-log".toList, "client-name".toList] (o ++ ["with-io-log".toList, []]) [] := by
    intro o ho
    refine ⟨o ++ ["with-io-log".toList], [], [], .yes, by simp, ⟨by simp, .inl ⟨rfl, rfl⟩⟩, by decide +kernel, ?_⟩
    intro x hx
    have hx' : x ∈ ["with-io-log".toList, "client-name".toList] := by
      rcases List.mem_append.1 hx with hx | hx
      · exact ho x hx
      · rw [List.mem_singleton.1 hx]
        simp
    exact ⟨x, .yes, (says_plain (hplain x hx') _ _).2 ⟨rfl, rfl⟩, hx'⟩
  cases strict with
  | true => exact (C113_strict ..).2 (.inr ⟨_, [], hm, rfl, hb o ho⟩)
  | false =>
    rw [lookup_create _ _ hm]
    exact (construct_error ..).2 ⟨[], rfl, hb _ fun x hx => ho x (List.mem_of_mem_filter hx)⟩

/-- **C113** is violated in the mode that is not strict if no options are given at all. -/
theorem C113_none_violated : (∃ e, create [textUnit none] "text".toList none true = .ok e) ∧
    create [textUnit none] "text".toList none false = .error .type := by
  refine ⟨⟨⟨⟨["with-io-log".toList, "client-name".toList], [], "txt".toList, "Text".toList⟩, []⟩, ?_⟩, ?_⟩ <;> decide +kernel

/-- Definitions can be spread over lines. -/
example : Cut "a=1;b,\nc".toList ["a=1".toList, "b".toList, "c".toList] :=
  .more (w := "a=1".toList) (run := ";".toList) (by unfold Sep; decide +kernel) (by simp) (by unfold Sep; decide +kernel)
    (by intro c h; injection h with h; subst h; unfold Sep; decide)
    (.more (w := "b".toList) (run := ",\n".toList) (rest := "c".toList) (by unfold Sep; decide +kernel) (by simp)
      (by unfold Sep; decide +kernel) (by intro c h; injection h with h; subst h; unfold Sep; decide)
      (.last (by unfold Sep; decide +kernel)))

/-- The short name means the exporter of plainbox, with the options of its definition. -/
example : Means [textUnit (some "with-io-log".toList)] "text".toList
    ⟨["with-io-log".toList, "client-name".toList], ["with-io-log".toList], "txt".toList, "Text".toList⟩ := by
  rw [← (C113_names _).1]
  decide +kernel

/-- An exporter is made, and the option of its definition comes last. -/
example : (create [textUnit (some "client-name=us".toList)] "text".toList (some ["client-name=me".toList]) true).map (·.options) =
    .ok [("client-name".toList, .text "us".toList)] := by decide +kernel

/-- The hypotheses of `C113_lenient_partial` are met. -/
example : ∃ e, create [textUnit none] "text".toList (some ["with-io-log".toList, "with-colour".toList]) false = .ok e ∧
    enabled e.options "with-io-log".toList = true ∧ enabled e.options "with-colour".toList = false := by
  obtain ⟨e, he⟩ := (C113_accepts [textUnit none] "text".toList ["with-io-log".toList, "with-colour".toList] (by decide +kernel)).2
    ⟨⟨["with-io-log".toList, "client-name".toList], [], "txt".toList, "Text".toList⟩, by
      rw [← (C113_names _).1]; decide +kernel, by simp⟩
  have hm := C113_lenient_partial _ _ _ e (by decide +kernel) he
  have hu : e.unit = ⟨["with-io-log".toList, "client-name".toList], [], "txt".toList, "Text".toList⟩ :=
    means_unique hm.1 (by rw [← (C113_names _).1]; decide +kernel)
  refine ⟨e, he, ?_, ?_⟩
  · rw [hm.2, hu, inForce_plain (by decide +kernel)]
    decide +kernel
  · rw [← Bool.not_eq_true, hm.2, hu]
    rintro ⟨h, -⟩
    exact absurd h (by decide +kernel)

/-- The command with options. -/
example : runCommand [textUnit none] "text".toList (some "with-io-log,client-name=me".toList) =
    (create [textUnit none] "text".toList (some ["with-io-log".toList, "client-name=me".toList]) true).map .go :=
  (C113_commands [] [textUnit none] "text".toList _ _
    ⟨["with-io-log".toList, "client-name".toList], [], "txt".toList, "Text".toList⟩ (by decide +kernel) (by decide +kernel)
    (by rw [← (C113_names _).1]; decide +kernel)
    (.inr ⟨["with-io-log".toList, "client-name=me".toList], rfl, by decide +kernel, by simp, by decide +kernel, by decide +kernel⟩)).1

/-- A name that is not known. -/
example : exportCommand [] [textUnit none] "html".toList none = .error (.key "html".toList) :=
  (C113_unknown [] [textUnit none] "html".toList none (by decide +kernel) (by simp) (by rw [← means_none]; decide +kernel)).2

end Verif.ByName
