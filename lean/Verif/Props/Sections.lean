import Verif.Lemmas.Sections
import Verif.Props.IniText
import Verif.Props.Ctrl

/-!
# C107: sections of a configuration
-/

namespace Verif.Sections

open Verif.Restart (Str settable)
open Verif.IniText (Key Data find)
open Verif.Config (DEFAULT)
open Verif.Assoc

/-! ## Specification -/

/-- What a text stands for, given what names stand for: two percent signs are one, `%(name)s` is the text of that
name, in which there may be further references, at most so many levels deep; nothing else has a percent sign. -/
inductive Means (names : Str → Option (Option Str)) : Nat → Str → Str → Prop
  | nil {n : Nat} : Means names (n + 1) [] []
  | char {n : Nat} {c : Char} {s t : Str} : c ≠ '%' → Means names (n + 1) s t → Means names (n + 1) (c :: s) (c :: t)
  | percent {n : Nat} {s t : Str} : Means names (n + 1) s t → Means names (n + 1) ('%' :: '%' :: s) ('%' :: t)
  | plain {n : Nat} {name v s t : Str} : name ≠ [] → ')' ∉ name → names name = some (some v) → '%' ∉ v →
      Means names (n + 1) s t → Means names (n + 1) ('%' :: '(' :: (name ++ ')' :: 's' :: s)) (v ++ t)
  | deep {n : Nat} {name v u s t : Str} : name ≠ [] → ')' ∉ name → names name = some (some v) → '%' ∈ v →
      Means names n v u → Means names (n + 1) s t →
      Means names (n + 1) ('%' :: '(' :: (name ++ ')' :: 's' :: s)) (u ++ t)

/-- Where options come from: section and name of an option, and what was written there, if anything. -/
abbrev Source := Str → Str → Option (Option Str)

/-- What a source has in a section, with `DEFAULT` behind it. -/
def behind (src : Source) (s : Str) : Str → Option (Option Str) := fun o =>
  match src s o with
  | some raw => some raw
  | none => src DEFAULT o

/-- What the source says of an option of a section. -/
def Says (src : Source) (s o t : Str) : Prop :=
  match behind src s o with
  | none => False
  | some none => t = []
  | some (some v) => Means (behind src s) 10 v t

/-- A text as a source. -/
def inText (text : Str) : Source := fun s o => IniText.option text (s, o)

/-- Files as a source: the last one that has an option. -/
def inFiles (files : List Str) : Source := fun s o =>
  files.reverse.findSome? fun t => IniText.option (IniText.universal t) (s, o)

/-- The sections of a text. -/
def sectionsOf (text : Str) : List Str := (IniText.read IniText.noData text).1.sections

/-! ## References -/

theorem expand_sound (names : Str → Option (Option Str)) : ∀ (n : Nat) (s t : Str), expand names n s = some t →
    Means names n s t := by
  intro n
  induction n with
  | zero => intro s t h; simp [expand] at h
  | succ n ihn =>
    have inner : ∀ (m : Nat) (s t : Str), pieces (fun name =>
        match names name with
        | some (some v) => if '%' ∈ v then expand names n v else some v
        | _ => none) m s = some t → Means names (n + 1) s t := by
      intro m
      induction m with
      | zero =>
        intro s t h
        cases s with
        | nil => simp only [pieces, Option.some.injEq] at h; subst h; exact .nil
        | cons c s => simp [pieces] at h
      | succ m ih =>
        intro s t h
        cases s with
        | nil => simp only [pieces, Option.some.injEq] at h; subst h; exact .nil
        | cons c s =>
          rw [pieces] at h
          by_cases hc : c = '%'
          · subst hc
            rw [if_pos rfl] at h
            by_cases h1 : s.head? = some '%'
            · rw [if_pos h1, Option.map_eq_some_iff] at h
              obtain ⟨u, hu, rfl⟩ := h
              obtain ⟨r, rfl⟩ : ∃ r, s = '%' :: r := by
                cases s with
                | nil => simp at h1
                | cons a r => simp only [List.head?_cons, Option.some.injEq] at h1; exact ⟨r, by rw [h1]⟩
              exact .percent (ih _ _ hu)
            · rw [if_neg h1] at h
              by_cases h2 : s.head? = some '('
              · rw [if_pos h2] at h
                obtain ⟨r, rfl⟩ : ∃ r, s = '(' :: r := by
                  cases s with
                  | nil => simp at h2
                  | cons a r => simp only [List.head?_cons, Option.some.injEq] at h2; exact ⟨r, by rw [h2]⟩
                rw [List.tail_cons] at h
                simp only [Option.bind_eq_some_iff, Option.map_eq_some_iff] at h
                obtain ⟨⟨name, rest⟩, hr, v, hv, u, hu, rfl⟩ := h
                obtain ⟨e1, e2, rfl⟩ := (reference_iff _ _ _).1 hr
                dsimp only at hv hu
                cases hn : names name with
                | none => rw [hn] at hv; simp at hv
                | some w =>
                  cases w with
                  | none => rw [hn] at hv; simp at hv
                  | some x =>
                    rw [hn] at hv
                    dsimp only at hv
                    by_cases hp : '%' ∈ x
                    · rw [if_pos hp] at hv
                      exact .deep e1 e2 hn hp (ihn _ _ hv) (ih _ _ hu)
                    · rw [if_neg hp, Option.some.injEq] at hv
                      subst hv
                      exact .plain e1 e2 hn hp (ih _ _ hu)
              · rw [if_neg h2] at h; simp at h
          · rw [if_neg hc, Option.map_eq_some_iff] at h
            obtain ⟨u, hu, rfl⟩ := h
            exact .char hc (ih _ _ hu)
    intro s t h
    exact inner _ s t h

theorem expand_parts (names : Str → Option (Option Str)) (n : Nat) (s : Str) :
    expand names (n + 1) s = parts (fun name =>
      match names name with
      | some (some v) => if '%' ∈ v then expand names n v else some v
      | _ => none) s := rfl

theorem expand_complete (names : Str → Option (Option Str)) {n : Nat} {s t : Str} (h : Means names n s t) :
    expand names n s = some t := by
  induction h with
  | nil => rw [expand_parts]; rfl
  | char hc _ ih => rw [expand_parts] at ih ⊢; rw [parts_char _ hc, ih]; rfl
  | percent _ ih => rw [expand_parts] at ih ⊢; rw [parts_percent, ih]; rfl
  | plain h1 h2 hn hp _ ih =>
    rw [expand_parts] at ih ⊢
    rw [parts_ref _ h1 h2, ih]
    simp [hn, hp]
  | deep h1 h2 hn hp _ _ ih1 ih2 =>
    rw [expand_parts] at ih2 ⊢
    rw [parts_ref _ h1 h2, ih2]
    simp [hn, hp, ih1]

/-- **C107**: the value of an option is what its text stands for, in all of its references. -/
theorem C107_value (names : Str → Option (Option Str)) (n : Nat) (s t : Str) :
    expand names n s = some t ↔ Means names n s t :=
  ⟨expand_sound names n s t, expand_complete names⟩

theorem means_unique {names : Str → Option (Option Str)} {n : Nat} {s t u : Str} (h : Means names n s t)
    (h' : Means names n s u) : t = u := by
  have := (expand_complete names h).symm.trans (expand_complete names h')
  simpa using this

theorem means_self (names : Str → Option (Option Str)) (n : Nat) {s : Str} (h : '%' ∉ s) : Means names (n + 1) s s := by
  induction s with
  | nil => exact .nil
  | cons c s ih =>
    simp only [List.mem_cons, not_or] at h
    exact .char (Ne.symm h.1) (ih h.2)

example : Means (fun n => if n = "HOME".toList then some (some "/h/%(USER)s".toList) else
      if n = "USER".toList then some (some "me".toList) else none) 10
    "%(HOME)s/100%%".toList "/h/me/100%".toList := by
  rw [← C107_value]
  decide +kernel

/-! ## Items -/

theorem names_behind (d : Data) (s : Str) : Data.names d s = behind (fun s o => find (s, o) d.opts) s := by
  funext o
  unfold Data.names behind
  dsimp only
  cases find (s, o) d.opts <;> rfl

theorem itemValue_iff (d : Data) (s o t : Str) : itemValue d s o = some t ↔
    Says (fun s o => find (s, o) d.opts) s o t := by
  unfold itemValue Says
  rw [names_behind]
  cases behind (fun s o => find (s, o) d.opts) s o with
  | none => simp
  | some raw =>
    cases raw with
    | none => simp only [Option.some.injEq]; exact ⟨fun h => h.symm, fun h => h.symm⟩
    | some v => exact C107_value _ _ _ _

theorem items_found {d : Data} {n : Str} {l : Dict} (h : items d n = .found l) :
    (n = DEFAULT ∨ n ∈ d.sections) ∧
    ∀ o t, l.lookup o = some t ↔ Says (fun s o => find (s, o) d.opts) n o t := by
  unfold items at h
  by_cases hp : n = DEFAULT ∨ n ∈ d.sections
  · rw [if_pos hp] at h
    refine ⟨hp, fun o t => ?_⟩
    cases hl : itemList d n (optionNames d n) with
    | none => rw [hl] at h; simp at h
    | some l' =>
      rw [hl] at h
      simp only [Items.found.injEq] at h
      subst h
      rw [lookup_itemList hl o, ← itemValue_iff]
      by_cases ho : o ∈ optionNames d n
      · rw [if_pos ho]
      · rw [if_neg ho]
        have : Data.names d n o = none := Classical.byContradiction fun hc => ho (mem_optionNames.2 hc)
        simp [itemValue, this]
  · rw [if_neg hp] at h; simp at h

theorem items_missing {d : Data} {n : Str} : items d n = .missing ↔ ¬ (n = DEFAULT ∨ n ∈ d.sections) := by
  unfold items
  by_cases hp : n = DEFAULT ∨ n ∈ d.sections
  · rw [if_pos hp]
    cases itemList d n (optionNames d n) <;> simp [hp]
  · rw [if_neg hp]; simp [hp]

theorem items_error {d : Data} {n : Str} : items d n = .error ↔ (n = DEFAULT ∨ n ∈ d.sections) ∧
    ∃ o, behind (fun s o => find (s, o) d.opts) n o ≠ none ∧ ∀ t, ¬ Says (fun s o => find (s, o) d.opts) n o t := by
  unfold items
  by_cases hp : n = DEFAULT ∨ n ∈ d.sections
  · rw [if_pos hp]
    constructor
    · intro h
      refine ⟨hp, ?_⟩
      cases hl : itemList d n (optionNames d n) with
      | some l => rw [hl] at h; simp at h
      | none =>
        obtain ⟨o, ho, hv⟩ := itemList_none.1 hl
        refine ⟨o, ?_, fun t ht => ?_⟩
        · rw [← names_behind]; exact mem_optionNames.1 ho
        · rw [(itemValue_iff d n o t).2 ht] at hv; cases hv
    · rintro ⟨_, o, ho, hn⟩
      have : itemList d n (optionNames d n) = none := by
        rw [itemList_none]
        refine ⟨o, mem_optionNames.2 (by rw [names_behind]; exact ho), ?_⟩
        cases hv : itemValue d n o with
        | none => rfl
        | some t => exact absurd ((itemValue_iff d n o t).1 hv) (hn t)
      rw [this]
  · rw [if_neg hp]; simp [hp]

/-! ## Reading -/

theorem readCommit_ok {w : Config.World} {c : Decl} {d : Data} {whole : St → Config.Verdict} {st : St}
    (h : (readCommit w c d whole st).2 = false) :
    (Config.readVars w (get d) c.vars st.base).2 = false ∧
    (readCommit w c d whole st).1.base.vars = (Config.readVars w (get d) c.vars st.base).1.vars ∧
    (∀ n ∈ c.secs, items d n ≠ .error ∧ (readCommit w c d whole st).1.sec n =
      after (items d n) (st.sec n)) ∧
    (∀ n ∈ c.params, ∃ l, readParam d n (matching d n) [] = some l ∧ (readCommit w c d whole st).1.param n = some l) := by
  unfold readCommit at h ⊢
  dsimp only at h ⊢
  by_cases hr : (Config.readVars w (get d) c.vars st.base).2 = true
  · rw [if_pos hr] at h; simp at h
  · rw [if_neg hr] at h ⊢
    generalize hst : ({ st with base := (Config.readVars w (get d) c.vars st.base).1 } : St) = st1 at h ⊢
    unfold readRest at h ⊢
    dsimp only at h ⊢
    have hb1 : st1.base.vars = (Config.readVars w (get d) c.vars st.base).1.vars := by rw [← hst]
    have hs1 : ∀ n, st1.sec n = st.sec n := fun n => by rw [← hst]; rfl
    by_cases hs : (readSections d c.secs st1).2 = true
    · rw [if_pos hs] at h; rw [hs] at h; simp at h
    · rw [if_neg hs] at h ⊢
      by_cases hp : (readParams d c.params (readSections d c.secs st1).1).2 = true
      · rw [if_pos hp] at h; rw [hp] at h; simp at h
      · rw [if_neg hp] at h ⊢
        have hsec : ∀ n ∈ c.secs, items d n ≠ .error ∧
            (readParams d c.params (readSections d c.secs st1).1).1.sec n =
              after (items d n) (st.sec n) := by
          intro n hn
          refine ⟨fun he => ?_, ?_⟩
          · exact hs ((readSections_raises d c.secs st1).2 ⟨n, hn, he⟩)
          · have e := readSections_sec d c.secs st1 (Bool.eq_false_iff.2 hs) n
            rw [if_pos hn, hs1] at e
            rw [← e]
            unfold St.sec
            rw [(readParams_base d c.params _).2]
        have hpar : ∀ n ∈ c.params, ∃ l, readParam d n (matching d n) [] = some l ∧
            (readParams d c.params (readSections d c.secs st1).1).1.param n = some l := by
          intro n hn
          have e := readParams_param d c.params _ (Bool.eq_false_iff.2 hp) n
          rw [if_pos hn] at e
          cases hl : readParam d n (matching d n) [] with
          | none =>
            have := (readParams_raises d c.params (readSections d c.secs st1).1).2 ⟨n, hn, hl⟩
            exact absurd this hp
          | some l => exact ⟨l, rfl, by rw [e, hl]⟩
        have hvars : (readParams d c.params (readSections d c.secs st1).1).1.base.vars =
            (Config.readVars w (get d) c.vars st.base).1.vars := by
          rw [(readParams_base d c.params _).1, (readSections_base d c.secs _).1, hb1]
        cases hw : whole (readParams d c.params (readSections d c.secs st1).1).1 with
        | ok => exact ⟨Bool.eq_false_iff.2 hr, hvars, hsec, hpar⟩
        | refuse => exact ⟨Bool.eq_false_iff.2 hr, hvars, hsec, hpar⟩
        | raise => rw [hw] at h; simp at h

/-- What a dictionary holds is what the source says of a section. -/
def Holds (src : Source) (s : Str) (l : Dict) : Prop := ∀ o t, l.lookup o = some t ↔ Says src s o t

/-- What a parametric section holds: one dictionary for each section of its kind. -/
def HoldsAll (src : Source) (sections : List Str) (n : Str) (m : List (Str × Dict)) : Prop :=
  ∀ p, if n ++ ':' :: p ∈ sections then ∃ l, m.lookup p = some l ∧ Holds src (n ++ ':' :: p) l
    else m.lookup p = none

theorem readCommit_spec {w : Config.World} {c : Decl} {d : Data} {whole : St → Config.Verdict} {st : St}
    (h : (readCommit w c d whole st).2 = false) :
    (∀ n ∈ c.secs, if n = DEFAULT ∨ n ∈ d.sections then
        ∃ l, (readCommit w c d whole st).1.sec n = some l ∧ Holds (fun s o => find (s, o) d.opts) n l
      else (readCommit w c d whole st).1.sec n = st.sec n) ∧
    (∀ n ∈ c.params, ∃ m, (readCommit w c d whole st).1.param n = some m ∧
      HoldsAll (fun s o => find (s, o) d.opts) d.sections n m) := by
  obtain ⟨_, _, h1, h2⟩ := readCommit_ok h
  constructor
  · intro n hn
    obtain ⟨he, e⟩ := h1 n hn
    cases hi : items d n with
    | error => exact absurd hi he
    | missing =>
      rw [hi] at e
      rw [if_neg (items_missing.1 hi)]
      exact e
    | found l =>
      rw [hi] at e
      obtain ⟨hp, hl⟩ := items_found hi
      rw [if_pos hp]
      exact ⟨l, e, hl⟩
  · intro n hn
    obtain ⟨m, hm, e⟩ := h2 n hn
    refine ⟨m, e, fun p => ?_⟩
    have hl := readParam_lookup d n (matching d n) [] m hm (fun k hk => (mem_matching.1 hk).1) p
    by_cases hp : n ++ ':' :: p ∈ d.sections
    · rw [if_pos hp]
      have hk : n ++ ':' :: p ∈ matching d n := mem_matching.2 ⟨⟨p, rfl⟩, hp⟩
      rw [if_pos hk] at hl
      cases hi : items d (n ++ ':' :: p) with
      | found l => rw [hi] at hl; exact ⟨l, hl, (items_found hi).2⟩
      | missing => exact absurd (.inr hp) (items_missing.1 hi)
      | error =>
        have := (readParam_none d n (matching d n) []).2 ⟨_, hk, fun l hl => by rw [hi] at hl; cases hl⟩
        rw [this] at hm; cases hm
    · rw [if_neg hp]
      rw [if_neg (fun hk => hp (mem_matching.1 hk).2)] at hl
      rw [hl]; rfl

theorem readString_eq {w : Config.World} {c : Decl} {whole : St → Config.Verdict} {text : Str} {st : St}
    (h : (readString w c whole text st).2 = false) :
    ∃ l, readString w c whole text st =
      readCommit w c (IniText.read IniText.noData text).1 whole (st.withProblems l) := by
  unfold readString at h ⊢
  cases hr : IniText.read IniText.noData text with
  | mk d e =>
    rw [hr] at h
    cases e with
    | none => exact ⟨_, rfl⟩
    | some x => cases x <;> first | exact ⟨_, rfl⟩ | simp at h

/-- **C107**: when `read_string` returns, a section that the text has holds exactly what the text says of it, with
the options of `DEFAULT` among them; a section that the text does not have is what it was. -/
theorem C107_section (w : Config.World) (c : Decl) (whole : St → Config.Verdict) (text : Str) (st : St)
    (h : (readString w c whole text st).2 = false) (n : Str) (hn : n ∈ c.secs) :
    if n = DEFAULT ∨ n ∈ sectionsOf text then
      ∃ l, (readString w c whole text st).1.sec n = some l ∧ Holds (inText text) n l
    else (readString w c whole text st).1.sec n = st.sec n := by
  obtain ⟨l, e⟩ := readString_eq h
  rw [e] at h ⊢
  exact (readCommit_spec h).1 n hn

/-- **C107**, partial: in a text without options in `DEFAULT` a section holds exactly the options written in that
section. Full statement: without this condition (`C107_default_violated`). -/
theorem C107_section_partial (w : Config.World) (c : Decl) (whole : St → Config.Verdict) (text : Str) (st : St)
    (h : (readString w c whole text st).2 = false) (n : Str) (hn : n ∈ c.secs) (ht : n ∈ sectionsOf text)
    (hd : ∀ o, inText text DEFAULT o = none) :
    ∃ l, (readString w c whole text st).1.sec n = some l ∧
      ∀ o t, l.lookup o = some t ↔
        (inText text n o = some none ∧ t = []) ∨
        ∃ v, inText text n o = some (some v) ∧ Means (inText text n) 10 v t := by
  have := C107_section w c whole text st h n hn
  rw [if_pos (.inr ht)] at this
  obtain ⟨l, h1, h2⟩ := this
  refine ⟨l, h1, fun o t => ?_⟩
  have hb : behind (inText text) n = inText text n := by
    funext o
    unfold behind
    cases hi : inText text n o with
    | none => exact hd o
    | some _ => rfl
  rw [h2 o t]
  unfold Says
  rw [hb]
  cases inText text n o with
  | none => simp
  | some raw => cases raw <;> simp

/-- **C107**: a parametric section holds one dictionary for each section `name:parameter` of the text, with what
the text says there, and nothing else. -/
theorem C107_param (w : Config.World) (c : Decl) (whole : St → Config.Verdict) (text : Str) (st : St)
    (h : (readString w c whole text st).2 = false) (n : Str) (hn : n ∈ c.params) :
    ∃ m, (readString w c whole text st).1.param n = some m ∧ HoldsAll (inText text) (sectionsOf text) n m := by
  obtain ⟨l, e⟩ := readString_eq h
  rw [e] at h ⊢
  exact (readCommit_spec h).2 n hn

/-- **C107**: when `read` returns, sections hold what the files say together, where the last file that has an option
counts, whatever section it is in; a section that no file has is what it was. -/
theorem C107_files (w : Config.World) (c : Decl) (whole : St → Config.Verdict) (files : List Str) (st : St)
    (h : (read w c whole files st).2 = false)
    (hok : ∀ t ∈ files, (IniText.read IniText.noData (IniText.universal t)).2 = none) :
    (∀ n ∈ c.secs, if n = DEFAULT ∨ ∃ t ∈ files, n ∈ sectionsOf (IniText.universal t) then
        ∃ l, (read w c whole files st).1.sec n = some l ∧ Holds (inFiles files) n l
      else (read w c whole files st).1.sec n = st.sec n) ∧
    (∀ n ∈ c.params, ∃ m, (read w c whole files st).1.param n = some m ∧
      ∀ p, if ∃ t ∈ files, n ++ ':' :: p ∈ sectionsOf (IniText.universal t) then
          ∃ l, m.lookup p = some l ∧ Holds (inFiles files) (n ++ ':' :: p) l
        else m.lookup p = none) := by
  obtain ⟨h1, h2, h3⟩ := IniText.C106_files files IniText.noData (by simp [IniText.noData]) hok
  have hsrc : (fun s o => find (s, o) (IniText.readFiles files IniText.noData).1.opts) = inFiles files := by
    funext s o
    rw [h2]
    simp [inFiles, IniText.noData, IniText.find]
  have hsec : ∀ s, s ∈ (IniText.readFiles files IniText.noData).1.sections ↔
      ∃ t ∈ files, s ∈ sectionsOf (IniText.universal t) := by
    intro s
    rw [h3]
    simp [IniText.noData, sectionsOf]
  have e : read w c whole files st =
      readCommit w c (IniText.readFiles files IniText.noData).1 whole (st.withProblems []) := by
    unfold read
    cases hr : IniText.readFiles files IniText.noData with
    | mk d x =>
      rw [hr] at h1
      dsimp only at h1
      subst h1
      rfl
  rw [e] at h ⊢
  obtain ⟨g1, g2⟩ := readCommit_spec h
  rw [hsrc] at g1 g2
  constructor
  · intro n hn
    have := g1 n hn
    by_cases hp : n = DEFAULT ∨ ∃ t ∈ files, n ∈ sectionsOf (IniText.universal t)
    · rw [if_pos hp]
      rw [if_pos (hp.imp_right (hsec n).2)] at this
      exact this
    · rw [if_neg hp]
      rw [if_neg (fun hc => hp (hc.imp_right (hsec n).1))] at this
      exact this
  · intro n hn
    obtain ⟨m, hm, hall⟩ := g2 n hn
    refine ⟨m, hm, fun p => ?_⟩
    have := hall p
    by_cases hp : ∃ t ∈ files, n ++ ':' :: p ∈ sectionsOf (IniText.universal t)
    · rw [if_pos hp]
      rw [if_pos ((hsec _).2 hp)] at this
      exact this
    · rw [if_neg hp]
      rw [if_neg (fun hc => hp ((hsec _).1 hc))] at this
      exact this

/-- **C107**: an exception comes out of `read_string`, for a class that has sections only, exactly if some option of a
section that is looked at, or of `DEFAULT` behind it, has a value that means nothing. (A text on which the parser
itself raises is left to C106.) -/
theorem C107_raises (w : Config.World) (c : Decl) (hc : c.vars = []) (whole : St → Config.Verdict)
    (hw : ∀ s, whole s ≠ .raise) (text : Str) (st : St)
    (ht : (IniText.read IniText.noData text).2 ≠ some .attribute) :
    (readString w c whole text st).2 = true ↔
      ∃ s, ((s ∈ c.secs ∧ (s = DEFAULT ∨ s ∈ sectionsOf text)) ∨
          ∃ n ∈ c.params, ∃ p, s = n ++ ':' :: p ∧ s ∈ sectionsOf text) ∧
        ∃ o, behind (inText text) s o ≠ none ∧ ∀ t, ¬ Says (inText text) s o t := by
  have e : ∃ l, readString w c whole text st =
      readCommit w c (IniText.read IniText.noData text).1 whole (st.withProblems l) := by
    unfold readString
    cases hr : IniText.read IniText.noData text with
    | mk d e =>
      rw [hr] at ht
      cases e with
      | none => exact ⟨_, rfl⟩
      | some x => cases x <;> first | exact ⟨_, rfl⟩ | simp at ht
  obtain ⟨l, e⟩ := e
  rw [e]
  generalize hd : (IniText.read IniText.noData text).1 = d
  have hin : inText text = fun s o => find (s, o) d.opts := by
    funext s o; rw [← hd]; rfl
  have hsec : sectionsOf text = d.sections := by rw [← hd]; rfl
  have key : (readCommit w c d whole (st.withProblems l)).2 = true ↔
      (∃ n ∈ c.secs, items d n = .error) ∨ ∃ n ∈ c.params, readParam d n (matching d n) [] = none := by
    have e0 : readCommit w c d whole (st.withProblems l) = readRest c d whole (st.withProblems l) := by
      unfold readCommit
      rw [hc]
      rfl
    rw [e0]
    unfold readRest
    dsimp only
    have hR := readSections_raises d c.secs (st.withProblems l)
    have hP := readParams_raises d c.params (readSections d c.secs (st.withProblems l)).1
    by_cases h1 : (readSections d c.secs (st.withProblems l)).2 = true
    · rw [if_pos h1]
      exact ⟨fun _ => .inl (hR.1 h1), fun _ => h1⟩
    · rw [if_neg h1]
      have hR' := fun h => h1 (hR.2 h)
      by_cases h2 : (readParams d c.params (readSections d c.secs (st.withProblems l)).1).2 = true
      · rw [if_pos h2]
        exact ⟨fun _ => .inr (hP.1 h2), fun _ => h2⟩
      · rw [if_neg h2]
        refine ⟨fun h => ?_, fun h => h.elim (fun h => absurd h hR') fun h => absurd (hP.2 h) h2⟩
        exfalso
        revert h
        cases h3 : whole (readParams d c.params (readSections d c.secs (st.withProblems l)).1).1 with
        | ok => exact h2
        | refuse => simp
        | raise => exact absurd h3 (hw _)
  rw [key, hin, hsec]
  constructor
  · rintro (⟨n, hn, he⟩ | ⟨n, hn, he⟩)
    · obtain ⟨h1, h2⟩ := items_error.1 he
      exact ⟨n, .inl ⟨hn, h1⟩, h2⟩
    · obtain ⟨k, hk, hl⟩ := (readParam_none d n _ _).1 he
      obtain ⟨⟨p, rfl⟩, hs⟩ := mem_matching.1 hk
      have : items d (n ++ ':' :: p) = .error := by
        cases hi : items d (n ++ ':' :: p) with
        | found l => exact absurd hi (hl l)
        | missing => exact absurd (.inr hs) (items_missing.1 hi)
        | error => rfl
      exact ⟨_, .inr ⟨n, hn, p, rfl, hs⟩, (items_error.1 this).2⟩
  · rintro ⟨s, (⟨hs, hp⟩ | ⟨n, hn, p, rfl, hp⟩), ho⟩
    · exact .inl ⟨s, hs, items_error.2 ⟨hp, ho⟩⟩
    · refine .inr ⟨n, hn, (readParam_none d n _ _).2 ⟨_, mem_matching.2 ⟨⟨p, rfl⟩, hp⟩, fun l hl => ?_⟩⟩
      rw [items_error.2 ⟨.inr hp, ho⟩] at hl
      cases hl

/-- **C107**: what a variable is read from is, like the options of a section, the meaning of what is written in its section or in
`DEFAULT` behind it; a value that means nothing is an error and not a missing one. -/
theorem C107_get (d : Data) (s o : Str) :
    let src : Source := fun s o => find (s, o) d.opts
    (∀ t, get d s o = .value (some t) ↔
      (s = DEFAULT ∨ s ∈ d.sections) ∧ ∃ raw, behind src s o = some (some raw) ∧ Means (behind src s) 10 raw t) ∧
    (get d s o = .missing ↔ ¬ (s = DEFAULT ∨ s ∈ d.sections) ∨ behind src s o = none) ∧
    (get d s o = .error ↔
      (s = DEFAULT ∨ s ∈ d.sections) ∧ ∃ raw, behind src s o = some (some raw) ∧ ∀ t, ¬ Means (behind src s) 10 raw t) := by
  intro src
  have hv : ∀ raw t, expand (Data.names d s) maxDepth raw = some t ↔ Means (behind src s) 10 raw t := by
    intro raw t
    rw [names_behind]
    exact C107_value _ _ _ _
  have hn : Data.names d s o = behind src s o := by rw [names_behind]
  by_cases hs : s = DEFAULT ∨ s ∈ d.sections
  · unfold get
    simp only [if_true, hn, hs, true_and, not_true_eq_false, false_or]
    cases hb : behind src s o with
    | none => simp
    | some x =>
      cases x with
      | none => simp
      | some raw =>
        cases he : expand (Data.names d s) maxDepth raw with
        | none =>
          simp only [he]
          have : ∀ t, ¬ Means (behind src s) 10 raw t := by
            intro t ht
            rw [(hv raw t).2 ht] at he
            cases he
          refine ⟨fun t => ⟨nofun, ?_⟩, ⟨nofun, nofun⟩, fun _ => ⟨raw, rfl, this⟩, fun _ => trivial⟩
          rintro ⟨r, hr, hm⟩
          cases hr
          exact absurd hm (this t)
        | some u =>
          simp only [he]
          have hu := (hv raw u).1 he
          refine ⟨fun t => ⟨?_, ?_⟩, ⟨nofun, nofun⟩, nofun, ?_⟩
          · intro h
            cases h
            exact ⟨raw, rfl, hu⟩
          · rintro ⟨r, hr, hm⟩
            cases hr
            rw [means_unique hu hm]
          · rintro ⟨r, hr, hm⟩
            cases hr
            exact absurd hu (hm u)
  · unfold get
    simp [hs]

theorem readVars_syntax (w : Config.World) (p : Config.Parser) (xs : List Config.Var) (st : Config.St) :
    .syntax ∈ (Config.readVars w p xs st).1.problems ↔ .syntax ∈ st.problems := by
  induction xs generalizing st with
  | nil => exact Iff.rfl
  | cons x xs ih =>
    rw [Config.readVars]
    cases hr : Config.readVar w p x with
    | none => exact Iff.rfl
    | some v =>
      dsimp only
      have hset : (x.set v st).1.problems = st.problems := by
        unfold Config.Var.set
        split <;> rfl
      cases (x.set v st).2 with
      | ok =>
        refine Iff.trans (ih _) ?_
        rw [hset]
      | refuse =>
        refine Iff.trans (ih _) ?_
        simp
      | raise => exact Iff.rfl

theorem readCommit_syntax (w : Config.World) (c : Decl) (d : Data) (whole : St → Config.Verdict) (st : St) :
    .syntax ∈ (readCommit w c d whole st).1.base.problems ↔ .syntax ∈ st.base.problems := by
  unfold readCommit
  rw [← readVars_syntax w (get d) c.vars st.base]
  by_cases h1 : (Config.readVars w (get d) c.vars st.base).2 = true
  · simp only [if_pos h1]
  · simp only [if_neg h1]
    unfold readRest
    generalize hst : ({ st with base := (Config.readVars w (get d) c.vars st.base).1 } : St) = st1
    have hb : st1.base = (Config.readVars w (get d) c.vars st.base).1 := by rw [← hst]
    rw [← hb]
    have hs := (readSections_base d c.secs st1).1
    by_cases h2 : (readSections d c.secs st1).2 = true
    · simp only [if_pos h2, hs]
    · simp only [if_neg h2]
      have hp := (readParams_base d c.params (readSections d c.secs st1).1).1
      by_cases h3 : (readParams d c.params (readSections d c.secs st1).1).2 = true
      · simp only [if_pos h3, hp, hs]
      · simp only [if_neg h3]
        cases whole (readParams d c.params (readSections d c.secs st1).1).1 with
        | ok => simp only [hp, hs]
        | refuse => simp [hp, hs]
        | raise => simp only [hp, hs]

/-- **C107**: errors in the syntax of a text are problems of the object, and go on with what could be read, except for what makes
the parser itself fail; errors in files come out of `read`. -/
theorem C107_syntax (w : Config.World) (c : Decl) (whole : St → Config.Verdict) (st : St) :
    (∀ text, (IniText.read IniText.noData text).2 = some .attribute → (readString w c whole text st).2 = true) ∧
    (∀ text, (IniText.read IniText.noData text).2 ≠ some .attribute →
      (.syntax ∈ (readString w c whole text st).1.base.problems ↔ (IniText.read IniText.noData text).2 ≠ none)) ∧
    (∀ files, (IniText.readFiles files IniText.noData).2 ≠ none → (read w c whole files st).2 = true) ∧
    (∀ files, .syntax ∉ (read w c whole files st).1.base.problems) := by
  refine ⟨?_, ?_, ?_, ?_⟩
  · intro text h
    unfold readString
    cases hr : IniText.read IniText.noData text with
    | mk d e =>
      rw [hr] at h
      cases h
      rfl
  · intro text h
    unfold readString
    cases hr : IniText.read IniText.noData text with
    | mk d e =>
      rw [hr] at h
      cases e with
      | none => rw [readCommit_syntax]; simp [St.withProblems]
      | some e =>
        cases e <;>
          first
          | exact absurd rfl h
          | (rw [readCommit_syntax]; simp [St.withProblems])
  · intro files h
    unfold read
    cases hr : IniText.readFiles files IniText.noData with
    | mk d e =>
      rw [hr] at h
      cases e with
      | none => exact absurd rfl h
      | some e => rfl
  · intro files
    unfold read
    cases hr : IniText.readFiles files IniText.noData with
    | mk d e =>
      cases e with
      | none => rw [readCommit_syntax]; simp [St.withProblems]
      | some e => simp [St.withProblems]

/-- A text that does not begin with a section, and one that makes the parser fail. -/
example (w : Config.World) (c : Decl) (whole : St → Config.Verdict) (st : St) :
    .syntax ∈ (readString w c whole "a = 1\n".toList st).1.base.problems :=
  ((C107_syntax w c whole st).2.1 _ (by decide +kernel)).2 (by decide +kernel)

example (w : Config.World) (c : Decl) (whole : St → Config.Verdict) (st : St) :
    (read w c whole ["[s]\na = 1\n".toList, "[s]\na = 1\na = 2\n".toList] st).2 = true :=
  (C107_syntax w c whole st).2.2.1 _ (by decide +kernel)

example : get ⟨["s".toList], [(("s".toList, "a".toList), some "%(b)s!".toList), ((DEFAULT, "b".toList), some "x".toList)]⟩
    "s".toList "a".toList = .value (some "x!".toList) ∧
  get ⟨["s".toList], [(("s".toList, "a".toList), some "%(b)s!".toList)]⟩ "s".toList "a".toList = .error := by decide +kernel

end Verif.Sections
