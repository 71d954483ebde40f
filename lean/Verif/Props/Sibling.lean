import Verif.Lemmas.Sibling
import Verif.Props.Varies

/-! # C105: siblings and jobs to be run after suspending -/

set_option linter.unusedSimpArgs false
set_option linter.unusedSectionVars false

namespace Verif.Sibling

open Verif.Checksum (Str dictSet)
open Verif.Words (Gap Item WellWritten render BareChar BareStart)

variable {P : Type}

/-! ## Specification -/

/-- White space or a comma. -/
def Sep (c : Char) : Prop := Text.isSpace c = true ∨ c = ','

/-- `w` is one of the words of the text, which are separated by white space and commas. -/
def IsWord (w t : Str) : Prop :=
  w ≠ [] ∧ (∀ c ∈ w, ¬ Sep c) ∧ ∃ a b, t = a ++ w ++ b ∧ (∀ c, a.getLast? = some c → Sep c) ∧ (∀ c, b.head? = some c → Sep c)

/-- No braces in the text. -/
def NoBraces (t : Str) : Prop := '{' ∉ t ∧ '}' ∉ t

/-- Inserting parameters into the texts of a job changes nothing outside of braces. -/
structure Inserts (lib : Lib P) (j : Job P) : Prop where
  plain : ∀ t, NoBraces t → insert lib j t = .ok t
  append : ∀ t s u, NoBraces u → insert lib j t = .ok s → insert lib j (t ++ u) = .ok (s ++ u)

/-- A job with a flag, as one would write it: the fields `id`, `flags` and `depends` are not marked for translation; the id and
the namespace are words that need no quotes; `flags` and the summary have no braces once parameters are inserted; no flag
contains `also-after-suspend` but the two that are known; and `depends` is a list of words, `l`, with no comment at the
end that the end of the line does not end. -/
structure Fine (lib : Lib P) (j : Job P) (pid sum flags : Str) (l : List (List Gap × Item)) (tail : List Gap) : Prop where
  ins : Inserts lib j
  noId : j.data.lookup "_id".toList = none
  noFlags : j.data.lookup "_flags".toList = none
  noDepends : j.data.lookup "_depends".toList = none
  id : partialId lib j = .ok (some pid)
  idNe : pid ≠ []
  idPlain : NoBraces pid ∧ ∀ c ∈ pid, BareChar c
  nsPlain : NoBraces j.ns ∧ '"' ∉ j.ns ∧ ∀ c ∈ j.ns, BareChar c
  sumIs : summary lib j = .ok (some sum)
  sumPlain : NoBraces sum
  flagsIs : j.data.lookup "flags".toList = some flags
  flagsPlain : NoBraces flags
  known : ∀ w, IsWord w flags → autoFlag <:+: w → w = autoFlag ∨ w = manualFlag
  written : WellWritten l tail
  words : ∀ p ∈ l, p.2 ≠ .equals
  depends : recordValue lib j "depends".toList = .ok (some (render l tail)) ∨
    recordValue lib j "depends".toList = .ok none ∧ l = [] ∧ tail = []

/-! ## Words -/

theorem sep_iff (c : Char) : isSep c = true ↔ Sep c := by
  simp [isSep, Sep]

theorem noSep_iff (w : Str) : NoSep w ↔ ∀ c ∈ w, ¬ Sep c := by
  unfold NoSep
  constructor
  · intro h c hc hs; rw [← sep_iff, h c hc] at hs; exact Bool.noConfusion hs
  · intro h c hc
    have := h c hc
    rw [← sep_iff] at this
    simpa using this

theorem glue_append (l1 l2 : List (Str × Char)) (last : Str) : glue (l1 ++ l2) last = glue l1 [] ++ glue l2 last := by
  induction l1 with
  | nil => rfl
  | cons p l ih => obtain ⟨u, c⟩ := p; simp [glue, ih]

theorem glue_last (l : List (Str × Char)) (h : ∀ p ∈ l, isSep p.2 = true) : ∀ c, (glue l []).getLast? = some c → Sep c := by
  intro c hc
  rcases List.eq_nil_or_concat l with rfl | ⟨l', p, rfl⟩
  · simp [glue] at hc
  · obtain ⟨u, d⟩ := p
    rw [List.concat_eq_append, glue_append] at hc
    have : glue [(u, d)] [] = u ++ [d] := by simp [glue]
    rw [this, ← List.append_assoc, List.getLast?_concat] at hc
    rw [← Option.some.inj hc, ← sep_iff]
    exact h (u, d) (by simp)

/-- The words of a text are found. -/
theorem mem_split_iff {w t : Str} (hw : w ≠ []) : w ∈ split t [] false ↔ IsWord w t := by
  constructor
  · intro h
    obtain ⟨l, last, rfl, hp⟩ := exists_glue t
    rw [mem_split_glue hw l last false hp] at h
    unfold wordsOf at h
    rcases List.mem_append.1 h with h | h
    · obtain ⟨p, hm, rfl⟩ := List.mem_map.1 h
      obtain ⟨l1, l2, rfl⟩ := List.append_of_mem hm
      obtain ⟨u, c⟩ := p
      refine ⟨hw, (noSep_iff _).1 (hp.1 _ hm).1, glue l1 [], c :: glue l2 last, ?_, ?_, ?_⟩
      · rw [glue_append]; simp [glue]
      · exact glue_last l1 fun p hp' => (hp.1 p (List.mem_append_left _ hp')).2
      · intro d hd
        rw [List.head?_cons] at hd
        rw [← Option.some.inj hd, ← sep_iff]
        exact (hp.1 _ hm).2
    · rw [List.mem_singleton] at h
      subst h
      refine ⟨hw, (noSep_iff _).1 hp.2, glue l [], [], ?_, ?_, by simp⟩
      · have := glue_append l [] w
        rw [List.append_nil] at this
        rw [this]; simp [glue]
      · exact glue_last l fun p hp' => (hp.1 p hp').2
  · rintro ⟨_, hn, a, b, rfl, ha, hb⟩
    have hn' := (noSep_iff _).2 hn
    have key : ∀ (la : List (Str × Char)), (∀ p ∈ la, NoSep p.1 ∧ isSep p.2 = true) → glue la [] = a →
        w ∈ split (a ++ w ++ b) [] false := by
      intro la hla hga
      cases b with
      | nil =>
        have e : a ++ w ++ [] = glue (la ++ []) w := by rw [glue_append, hga]; simp [glue]
        rw [e, List.append_nil, mem_split_glue hw _ _ _ ⟨hla, hn'⟩]
        simp [wordsOf]
      | cons d b =>
        obtain ⟨lb, lastb, rfl, hpb⟩ := exists_glue b
        have e : a ++ w ++ d :: glue lb lastb = glue (la ++ (w, d) :: lb) lastb := by
          rw [glue_append, hga]; simp [glue]
        rw [e, mem_split_glue hw]
        · simp [wordsOf]
        · refine ⟨?_, hpb.2⟩
          intro p hp
          rcases List.mem_append.1 hp with hp | hp
          · exact hla p hp
          · rcases List.mem_cons.1 hp with rfl | hp
            · exact ⟨hn', (sep_iff _).2 (hb d rfl)⟩
            · exact hpb.1 p hp
    rcases List.eq_nil_or_concat a with rfl | ⟨a', c, rfl⟩
    · exact key [] (by simp) rfl
    · obtain ⟨la, lasta, rfl, hpa⟩ := exists_glue a'
      refine key (la ++ [(lasta, c)]) ?_ ?_
      · intro p hp
        rcases List.mem_append.1 hp with hp | hp
        · exact hpa.1 p hp
        · rw [List.mem_singleton] at hp
          subst hp
          refine ⟨hpa.2, (sep_iff _).2 (ha c ?_)⟩
          simp
      · rw [glue_append]
        have := glue_append la [] lasta
        rw [List.append_nil] at this
        rw [this]; simp [glue]

theorem not_word_nil (t : Str) : ¬ IsWord [] t := fun h => h.1 rfl

/-- The flags of the new job. -/
theorem word_withoutFlags {t : Str} (h : ∀ w, IsWord w t → autoFlag <:+: w → w = autoFlag ∨ w = manualFlag) (w : Str) :
    IsWord w (withoutFlags t) ↔
      (IsWord w t ∧ w ≠ autoFlag ∧ w ≠ manualFlag) ∨ (w = leftover ∧ IsWord manualFlag t) := by
  by_cases hw : w = []
  · subst hw
    constructor
    · intro h; exact absurd h (not_word_nil _)
    · rintro (⟨h, _⟩ | ⟨h, _⟩)
      · exact absurd h (not_word_nil _)
      · exact absurd h (by decide +kernel)
  · have hne : ∀ u, autoFlag <:+: u → u ≠ [] := by
      intro u hi hu
      subst hu
      exact auto_ne (List.eq_nil_of_infix_nil hi)
    rw [← mem_split_iff hw, mem_withoutFlags hw fun u hu hi => h u ((mem_split_iff (hne u hi)).1 hu) hi]
    constructor
    · rintro ⟨u, hu, hs⟩
      have hun : u ≠ [] := by
        intro hn
        subst hn
        exact hw (by rw [← hs]; decide +kernel)
      have hu := (mem_split_iff hun).1 hu
      unfold stays at hs
      by_cases h1 : u = autoFlag
      · rw [if_pos h1] at hs; exact absurd hs.symm hw
      · rw [if_neg h1] at hs
        by_cases h2 : u = manualFlag
        · rw [if_pos h2] at hs; subst h2; exact .inr ⟨hs.symm, hu⟩
        · rw [if_neg h2] at hs; subst hs; exact .inl ⟨hu, h1, h2⟩
    · rintro (⟨hu, h1, h2⟩ | ⟨rfl, hm⟩)
      · exact ⟨w, (mem_split_iff hw).2 hu, by rw [stays, if_neg h1, if_neg h2]⟩
      · exact ⟨manualFlag, (mem_split_iff manual_ne).2 hm, by rw [stays, if_neg (Ne.symm auto_ne_manual), if_pos rfl]⟩

/-! ## The fields of the new job -/

/-- Names of fields that end in `siblings`. -/
def isSiblings (f : Str) : Bool := "siblings".toList.isSuffixOf f

theorem lookup_plainData (j : Job P) (f : Str) :
    (plainData j).lookup f = if isSiblings f = true then none else j.data.lookup f := by
  unfold plainData
  rw [Assoc.lookup_filter (fun f => !"siblings".toList.isSuffixOf f)]
  unfold isSiblings
  cases "siblings".toList.isSuffixOf f <;> simp

/-- The fields of the new job, one over the other. -/
def newData (k : Kind) (pid sum flags deps : Str) (j : Job P) : List (Str × Str) :=
  dictSet "depends".toList deps (dictSet "_summary".toList (sum ++ " after suspend (S3)".toList)
    (dictSet "id".toList (k.prefix ++ pid) (dictSet "flags".toList (withoutFlags flags) (plainData j))))

theorem lookup_newData (k : Kind) (pid sum flags deps : Str) (j : Job P) (f : Str) :
    (newData k pid sum flags deps j).lookup f =
      if f = "depends".toList then some deps
      else if f = "_summary".toList then some (sum ++ " after suspend (S3)".toList)
      else if f = "id".toList then some (k.prefix ++ pid)
      else if f = "flags".toList then some (withoutFlags flags)
      else if isSiblings f = true then none else j.data.lookup f := by
  unfold newData
  rw [Assoc.lookup_dictSet, Assoc.lookup_dictSet, Assoc.lookup_dictSet, Assoc.lookup_dictSet, lookup_plainData]

theorem jobId_eq {lib : Lib P} {j : Job P} {pid : Str} (h : partialId lib j = .ok (some pid)) (hn : pid ≠ []) :
    jobId lib j = .ok (some (j.ns ++ "::".toList ++ pid)) := by
  unfold jobId
  rw [h]
  cases pid with
  | nil => exact absurd rfl hn
  | cons c p => rfl

/-- The text of `depends` in the new job. -/
theorem suspended_eq {lib : Lib P} {j : Job P} {pid sum flags : Str} {l : List (List Gap × Item)} {tail : List Gap}
    (h : Fine lib j pid sum flags l tail) (k : Kind) : ∃ deps,
    suspended lib k j = .ok (derive j (newData k pid sum flags deps j)) ∧
    ((∃ old, j.data.lookup "depends".toList = some old ∧ insert lib j old = .ok (render l tail) ∧
        deps = old ++ ' ' :: (j.ns ++ "::".toList ++ pid ++ ' ' :: k.test)) ∨
      render l tail = [] ∧ deps = j.ns ++ "::".toList ++ pid ++ ' ' :: k.test) := by
  have hf : (plainData j).lookup "flags".toList = some flags := by
    rw [lookup_plainData, if_neg (by decide +kernel), h.flagsIs]
  have hid := jobId_eq h.id h.idNe
  have main : ∀ deps, recordValue lib j "depends".toList = .ok deps →
      suspended lib k j = (match deps with
        | some (_ :: _) => match j.data.lookup "depends".toList with
          | none => .error .key
          | some old => .ok (derive j (newData k pid sum flags (old ++ ' ' :: (j.ns ++ "::".toList ++ pid ++ ' ' :: k.test)) j))
        | _ => .ok (derive j (newData k pid sum flags (j.ns ++ "::".toList ++ pid ++ ' ' :: k.test) j))) := by
    intro deps hd
    unfold suspended
    dsimp only
    rw [hf]
    dsimp only
    rw [h.id]
    dsimp only
    rw [h.sumIs]
    dsimp only
    rw [hd]
    dsimp only
    rw [hid]
    dsimp only
    have hl : (dictSet "_summary".toList (shown (some sum) ++ " after suspend (S3)".toList)
        (dictSet "id".toList (k.prefix ++ shown (some pid)) (dictSet "flags".toList (withoutFlags flags)
          (plainData j)))).lookup "depends".toList = j.data.lookup "depends".toList := by
      rw [Assoc.lookup_dictSet, Assoc.lookup_dictSet, Assoc.lookup_dictSet, lookup_plainData, if_neg (by decide +kernel),
        if_neg (by decide +kernel), if_neg (by decide +kernel), if_neg (by decide +kernel)]
    rw [hl]
    rfl
  rcases h.depends with hd | ⟨hd, rfl, rfl⟩
  · have hm := main _ hd
    cases hr : render l tail with
    | nil => rw [hr] at hm; exact ⟨_, hm, .inr ⟨rfl, rfl⟩⟩
    | cons c r =>
      rw [hr] at hm hd
      unfold recordValue at hd
      have e : '_' :: "depends".toList = "_depends".toList := by decide +kernel
      rw [e, h.noDepends, Option.none_or] at hd
      have hold : ∃ old, j.data.lookup "depends".toList = some old := by
        cases ho : j.data.lookup "depends".toList with
        | none => rw [ho] at hd; simp at hd
        | some old => exact ⟨old, rfl⟩
      obtain ⟨old, ho⟩ := hold
      rw [ho] at hd hm
      refine ⟨_, hm, .inl ⟨old, ho, ?_, rfl⟩⟩
      cases hi : insert lib j old with
      | error x => simp [hi] at hd; cases hd
      | ok s =>
        simp only [Option.some_or, hi] at hd
        have : Except.ok (some s) = (Except.ok (some (c :: r)) : Except Exc (Option Str)) := hd
        injection this with this
        injection this with this
        rw [this]
  · exact ⟨_, main _ hd, .inr ⟨rfl, rfl⟩⟩

theorem insert_derive (lib : Lib P) (j : Job P) (d : List (Str × Str))
    (h : d.lookup "template-engine".toList = j.data.lookup "template-engine".toList) (t : Str) :
    insert lib (derive j d) t = insert lib j t := by
  have : engine (derive j d) = engine j := by unfold engine; rw [show (derive j d).data = d from rfl, h]
  unfold insert
  rw [this]
  rfl

theorem insert_new (lib : Lib P) (k : Kind) (pid sum flags deps : Str) (j : Job P) (t : Str) :
    insert lib (derive j (newData k pid sum flags deps j)) t = insert lib j t := by
  refine insert_derive _ _ _ ?_ t
  rw [lookup_newData, if_neg (by decide +kernel), if_neg (by decide +kernel), if_neg (by decide +kernel),
    if_neg (by decide +kernel), if_neg (by decide +kernel)]

/-- The fields that the new job has from the job. -/
theorem record_new (lib : Lib P) (k : Kind) (pid sum flags deps : Str) (j : Job P) (f : Str) (d : Option Str)
    (h0 : f.head? ≠ some '_') (h1 : isSiblings f = false)
    (h2 : f ≠ "id".toList ∧ f ≠ "summary".toList ∧ f ≠ "flags".toList ∧ f ≠ "depends".toList) :
    recordValue lib (derive j (newData k pid sum flags deps j)) f d = recordValue lib j f d := by
  unfold recordValue
  have hm : ∀ g : Str, g ≠ "depends".toList → g ≠ "_summary".toList → g ≠ "id".toList → g ≠ "flags".toList →
      isSiblings g = false → (derive j (newData k pid sum flags deps j)).data.lookup g = j.data.lookup g := by
    intro g a b c e i
    show (newData k pid sum flags deps j).lookup g = _
    rw [lookup_newData, if_neg a, if_neg b, if_neg c, if_neg e, if_neg (by rw [i]; exact Bool.noConfusion)]
  have hs : isSiblings ('_' :: f) = false := by
    unfold isSiblings at h1 ⊢
    rw [Bool.eq_false_iff, ne_eq, List.isSuffixOf_iff_suffix] at h1 ⊢
    intro hh
    rcases List.suffix_cons_iff.1 hh with hh | hh
    · have : ("siblings".toList).head? = some '_' := by rw [hh]; rfl
      exact absurd this (by decide +kernel)
    · exact h1 hh
  have hu : ∀ g : Str, g.head? ≠ some '_' → '_' :: f ≠ g := by
    intro g hg he; rw [← he] at hg; exact hg rfl
  rw [hm ('_' :: f) (hu _ (by decide +kernel)) (by
      intro he
      have e : "_summary".toList = '_' :: "summary".toList := by decide +kernel
      rw [e] at he
      injection he with _ he
      exact h2.2.1 he) (hu _ (by decide +kernel)) (hu _ (by decide +kernel)) hs,
    hm f h2.2.2.2 (by
      intro he
      rw [he] at h0
      exact h0 (by decide +kernel)) h2.1 h2.2.2.1 h1]
  cases (j.data.lookup ('_' :: f)).or ((j.data.lookup f).or d) with
  | none => rfl
  | some t => simp only [insert_new]

/-- A field that the new job has of its own. -/
theorem record_own (lib : Lib P) (j : Job P) (data : List (Str × Str)) (f t v : Str) (d : Option Str)
    (h : (data.lookup ('_' :: f)).or ((data.lookup f).or d) = some t) (hi : insert lib (derive j data) t = .ok v) :
    recordValue lib (derive j data) f d = .ok (some v) := by
  unfold recordValue
  rw [show (derive j data).data = data from rfl, h]
  dsimp only
  rw [hi]
  rfl

theorem noBraces_append {a b : Str} (ha : NoBraces a) (hb : NoBraces b) : NoBraces (a ++ b) :=
  ⟨fun h => (List.mem_append.1 h).elim ha.1 hb.1, fun h => (List.mem_append.1 h).elim ha.2 hb.2⟩

theorem mem_replaceAll (x : Str) (c : Char) : ∀ (n : Nat) (s : Str), c ∈ Export.replaceAll x [] n s → c ∈ s := by
  intro n
  induction n with
  | zero => intro s h; exact h
  | succ n ih =>
    intro s h
    cases s with
    | nil => exact h
    | cons d r =>
      rw [Export.replaceAll] at h
      by_cases hp : x.isPrefixOf (d :: r) = true
      · rw [if_pos hp, List.nil_append] at h
        exact List.mem_of_mem_drop (ih _ h)
      · rw [if_neg hp] at h
        rcases List.mem_cons.1 h with rfl | h
        · exact List.mem_cons_self
        · exact List.mem_cons_of_mem _ (ih _ h)

theorem noBraces_withoutFlags {t : Str} (h : NoBraces t) : NoBraces (withoutFlags t) :=
  ⟨fun hh => h.1 (mem_replaceAll _ _ _ _ (mem_replaceAll _ _ _ _ hh)),
    fun hh => h.2 (mem_replaceAll _ _ _ _ (mem_replaceAll _ _ _ _ hh))⟩

theorem noBraces_prefix (k : Kind) : NoBraces k.prefix := by cases k <;> (unfold NoBraces Kind.prefix; decide +kernel)

theorem noBraces_test (k : Kind) : NoBraces k.test := by cases k <;> (unfold NoBraces Kind.test; decide +kernel)

/-! ## The words of `depends` -/

/-- A word without quotes, as an item. -/
def bareItem : Str → Item
  | [] => .quoted []
  | c :: w => .bare c w

theorem bareItem_text {w : Str} (h : w ≠ []) : (bareItem w).text = w ∧ (bareItem w).word? = some w ∧
    bareItem w ≠ .equals := by
  cases w with
  | nil => exact absurd rfl h
  | cons c w => exact ⟨rfl, rfl, by simp [bareItem]⟩

theorem bareItem_ok {w : Str} (h : ∀ c ∈ w, BareChar c) (hq : w.head? ≠ some '"') : (bareItem w).Ok := by
  cases w with
  | nil => simp [bareItem, Item.Ok]
  | cons c w =>
    refine ⟨⟨h c List.mem_cons_self, ?_⟩, fun d hd => h d (List.mem_cons_of_mem _ hd)⟩
    intro hc
    exact hq (by rw [hc]; rfl)

theorem render_append (l m : List (List Gap × Item)) (tail : List Gap) :
    render (l ++ m) tail = render l [] ++ render m tail := by
  induction l with
  | nil => rfl
  | cons p l ih => obtain ⟨g, i⟩ := p; simp [render, ih]

theorem render_tail (l : List (List Gap × Item)) (tail : List Gap) :
    render l tail = render l [] ++ tail.flatMap Gap.text := by
  have := render_append l [] tail
  rw [List.append_nil] at this
  rw [this]; rfl

/-- A list of words with two more after it. -/
theorem wellWritten_more {l : List (List Gap × Item)} {tail : List Gap} (h : WellWritten l tail) {i j : Item} (hi : i.Ok)
    (hj : j.Ok) : WellWritten (l ++ [(tail ++ [.ws ' '], i), ([.ws ' '], j)]) [] ∧
      (tail = [] → WellWritten [([], i), ([.ws ' '], j)] []) := by
  have hws : Gap.Ok (.ws ' ') := by unfold Gap.Ok; decide +kernel
  refine ⟨⟨?_, by simp, ?_⟩, fun _ => ⟨?_, by simp, ?_⟩⟩
  · intro p hp
    rcases List.mem_append.1 hp with hp | hp
    · exact h.1 p hp
    · simp only [List.mem_cons, List.not_mem_nil, or_false] at hp
      rcases hp with rfl | rfl
      · refine ⟨?_, hi⟩
        intro g hg
        rcases List.mem_append.1 hg with hg | hg
        · exact h.2.1 g hg
        · rw [List.mem_singleton] at hg; subst hg; exact hws
      · refine ⟨?_, hj⟩
        intro g hg
        rw [List.mem_singleton] at hg; subst hg; exact hws
  · have hs := h.2.2
    clear h
    induction l with
    | nil => simp [Words.Spaced]
    | cons p l ih =>
      obtain ⟨g, a⟩ := p
      cases l with
      | nil => simp [Words.Spaced]
      | cons q l =>
        obtain ⟨g', b⟩ := q
        exact ⟨hs.1, ih hs.2⟩
  · intro p hp
    simp only [List.mem_cons, List.not_mem_nil, or_false] at hp
    rcases hp with rfl | rfl
    · exact ⟨by simp, hi⟩
    · refine ⟨?_, hj⟩
      intro g hg
      rw [List.mem_singleton] at hg; subst hg; exact hws
  · simp [Words.Spaced]

theorem dependencies_of {lib : Lib P} {j : Job P} {l : List (List Gap × Item)} {tail : List Gap}
    (hd : recordValue lib j "depends".toList = .ok (some (render l tail))) (hw : WellWritten l tail)
    (he : ∀ p ∈ l, p.2 ≠ .equals) {n : Nat} (hn : l.length < n) :
    dependencies lib n j = .ok ((l.filterMap fun p => p.2.word?).map (qualify j)) := by
  unfold dependencies
  rw [hd]
  dsimp only
  rw [Words.C28_round_trip l tail hw he n hn]
  dsimp only
  congr 1
  induction l.filterMap fun p => p.2.word? with
  | nil => rfl
  | cons w ws ih => rw [List.map_cons, List.filterMap_cons, ih]; rfl

theorem dependencies_more {lib : Lib P} {s : Job P} {l : List (List Gap × Item)} {tail : List Gap} {a b : Str}
    (hd : recordValue lib s "depends".toList = .ok (some (render l tail ++ ' ' :: (a ++ ' ' :: b))))
    (hw : WellWritten l tail) (he : ∀ p ∈ l, p.2 ≠ .equals) (ha : a ≠ []) (hb : b ≠ []) (hao : (bareItem a).Ok)
    (hbo : (bareItem b).Ok) (hqa : qualify s a = a) (hqb : qualify s b = b) {n : Nat} (hn : l.length + 2 < n) :
    dependencies lib n s = .ok ((l.filterMap fun p => p.2.word?).map (qualify s) ++ [a, b]) := by
  have hr : render l tail ++ ' ' :: (a ++ ' ' :: b) =
      render (l ++ [(tail ++ [.ws ' '], bareItem a), ([.ws ' '], bareItem b)]) [] := by
    rw [render_append, render_tail l tail]
    simp [render, (bareItem_text ha).1, (bareItem_text hb).1, Gap.text]
  rw [hr] at hd
  rw [dependencies_of hd (wellWritten_more hw hao hbo).1 ?_ (by simp; omega)]
  · simp [(bareItem_text ha).2.1, (bareItem_text hb).2.1, hqa, hqb]
  · intro p hp
    rcases List.mem_append.1 hp with hp | hp
    · exact he p hp
    · simp only [List.mem_cons, List.not_mem_nil, or_false] at hp
      rcases hp with rfl | rfl
      · exact (bareItem_text ha).2.2
      · exact (bareItem_text hb).2.2

theorem dependencies_two {lib : Lib P} {s : Job P} {a b : Str}
    (hd : recordValue lib s "depends".toList = .ok (some (a ++ ' ' :: b))) (ha : a ≠ []) (hb : b ≠ [])
    (hao : (bareItem a).Ok) (hbo : (bareItem b).Ok) (hqa : qualify s a = a) (hqb : qualify s b = b) {n : Nat}
    (hn : 2 < n) : dependencies lib n s = .ok [a, b] := by
  have hr : a ++ ' ' :: b = render [([], bareItem a), ([.ws ' '], bareItem b)] [] := by
    simp [render, (bareItem_text ha).1, (bareItem_text hb).1, Gap.text]
  rw [hr] at hd
  rw [dependencies_of hd
    ((wellWritten_more (l := []) (tail := []) ⟨by simp, by simp, by simp [Words.Spaced]⟩ hao hbo).2 rfl) ?_ (by simp; omega)]
  · simp [(bareItem_text ha).2.1, (bareItem_text hb).2.1, hqa, hqb]
  · intro p hp
    simp only [List.mem_cons, List.not_mem_nil, or_false] at hp
    rcases hp with rfl | rfl
    · exact (bareItem_text ha).2.2
    · exact (bareItem_text hb).2.2

theorem head_append {a b : Str} (h : a ≠ []) : (a ++ b).head? = a.head? := by
  cases a with
  | nil => exact absurd rfl h
  | cons c a => rfl

theorem colon_bare : ∀ c ∈ "::".toList, BareChar c := by
  unfold BareChar; decide +kernel

theorem test_ok (k : Kind) : (bareItem k.test).Ok := by
  refine bareItem_ok ?_ ?_
  · cases k <;> (unfold Kind.test BareChar; decide +kernel)
  · cases k <;> (unfold Kind.test; decide +kernel)

theorem render_nil {l : List (List Gap × Item)} {tail : List Gap} (h : render l tail = []) : l = [] := by
  cases l with
  | nil => rfl
  | cons p l =>
    obtain ⟨g, i⟩ := p
    rw [render] at h
    have := (List.append_eq_nil_iff.1 (List.append_eq_nil_iff.1 h).1).2
    cases i <;> simp [Item.text] at this

theorem pid_new {lib : Lib P} {j : Job P} {pid sum flags : Str} {l : List (List Gap × Item)} {tail : List Gap}
    (h : Fine lib j pid sum flags l tail) (k : Kind) (deps : Str) :
    partialId lib (derive j (newData k pid sum flags deps j)) = .ok (some (k.prefix ++ pid)) := by
  have hid := h.id
  unfold partialId at hid ⊢
  rw [record_new lib k pid sum flags deps j "name".toList none (by decide +kernel) (by decide +kernel) (by decide +kernel)]
  cases hn : recordValue lib j "name".toList with
  | error e => rw [hn] at hid; cases hid
  | ok d =>
    dsimp only
    refine record_own lib j _ "id".toList (k.prefix ++ pid) _ _ ?_ ?_
    · rw [lookup_newData, lookup_newData, if_neg (by decide +kernel), if_neg (by decide +kernel), if_neg (by decide +kernel),
        if_neg (by decide +kernel), if_neg (by decide +kernel), if_neg (by decide +kernel), if_neg (by decide +kernel),
        if_pos rfl]
      have e : '_' :: "id".toList = "_id".toList := by decide +kernel
      rw [e, h.noId]; rfl
    · rw [insert_new]
      exact h.ins.plain _ (noBraces_append (noBraces_prefix k) h.idPlain.1)

theorem flags_new {lib : Lib P} {j : Job P} {pid sum flags : Str} {l : List (List Gap × Item)} {tail : List Gap}
    (h : Fine lib j pid sum flags l tail) (k : Kind) (deps : Str) :
    recordValue lib (derive j (newData k pid sum flags deps j)) "flags".toList = .ok (some (withoutFlags flags)) := by
  refine record_own lib j _ "flags".toList (withoutFlags flags) _ _ ?_ ?_
  · rw [lookup_newData, lookup_newData, if_neg (by decide +kernel), if_neg (by decide +kernel), if_neg (by decide +kernel),
      if_neg (by decide +kernel), if_neg (by decide +kernel), if_neg (by decide +kernel), if_neg (by decide +kernel),
      if_neg (by decide +kernel), if_pos rfl]
    have e : '_' :: "flags".toList = "_flags".toList := by decide +kernel
    rw [e, h.noFlags]; rfl
  · rw [insert_new]
    exact h.ins.plain _ (noBraces_withoutFlags h.flagsPlain)

theorem siblings_new (lib : Lib P) (k : Kind) (pid sum flags deps : Str) (j : Job P) :
    recordValue lib (derive j (newData k pid sum flags deps j)) "siblings".toList = .ok none := by
  unfold recordValue
  have h1 : (derive j (newData k pid sum flags deps j)).data.lookup ('_' :: "siblings".toList) = none := by
    show (newData k pid sum flags deps j).lookup _ = _
    rw [lookup_newData, if_neg (by decide +kernel), if_neg (by decide +kernel), if_neg (by decide +kernel),
      if_neg (by decide +kernel), if_pos (by decide +kernel)]
  have h2 : (derive j (newData k pid sum flags deps j)).data.lookup "siblings".toList = none := by
    show (newData k pid sum flags deps j).lookup _ = _
    rw [lookup_newData, if_neg (by decide +kernel), if_neg (by decide +kernel), if_neg (by decide +kernel),
      if_neg (by decide +kernel), if_pos (by decide +kernel)]
  rw [h1, h2]
  rfl

/-! ## C105 -/

/-- **C105, the job after suspending.** The job to be run after the machine was suspended has the id of the job with a prefix,
the summary with a remark, depends on what the job depends on, on the job and on the job that suspends the machine, does not
have the flags that ask for it and no siblings; each of its other fields is as in the job. One flag remains in part: of
`also-after-suspend-manual` there is `-manual` left. -/
theorem C105_suspended_partial {lib : Lib P} {j : Job P} {pid sum flags : Str} {l : List (List Gap × Item)} {tail : List Gap}
    (h : Fine lib j pid sum flags l tail) (k : Kind) : ∃ s, suspended lib k j = .ok s ∧
    jobId lib s = .ok (some (j.ns ++ "::".toList ++ k.prefix ++ pid)) ∧
    summary lib s = .ok (some (sum ++ " after suspend (S3)".toList)) ∧
    (∀ n, l.length + 2 < n → ∃ old, dependencies lib n j = .ok old ∧
      dependencies lib n s = .ok (old ++ [j.ns ++ "::".toList ++ pid, k.test])) ∧
    (∃ new, recordValue lib s "flags".toList = .ok (some new) ∧ ∀ w, IsWord w new ↔
      (IsWord w flags ∧ w ≠ autoFlag ∧ w ≠ manualFlag) ∨ (w = leftover ∧ IsWord manualFlag flags)) ∧
    recordValue lib s "siblings".toList = .ok none ∧
    (∀ f, f.head? ≠ some '_' → ¬ "siblings".toList <:+ f →
      f ≠ "id".toList ∧ f ≠ "summary".toList ∧ f ≠ "flags".toList ∧ f ≠ "depends".toList →
      recordValue lib s f = recordValue lib j f) := by
  obtain ⟨deps, hs, hdeps⟩ := suspended_eq h k
  refine ⟨_, hs, ?_, ?_, ?_, ?_, ?_, ?_⟩
  all_goals clear hs
  · have hp := pid_new h k deps
    rw [jobId_eq (lib := lib) hp (fun hh => h.idNe (List.append_eq_nil_iff.1 hh).2), List.append_assoc _ k.prefix]
    rfl
  · unfold summary
    rw [pid_new h k deps]
    dsimp only
    refine record_own lib j _ "summary".toList (sum ++ " after suspend (S3)".toList) _ _ ?_ ?_
    · rw [lookup_newData, if_neg (by decide +kernel), if_pos (by decide +kernel), Option.some_or]
    · rw [insert_new]
      exact h.ins.plain _ (noBraces_append h.sumPlain (by unfold NoBraces; decide +kernel))
  · intro n hn
    have hjid : ∀ c ∈ j.ns ++ "::".toList ++ pid, BareChar c := by
      intro c hc
      rcases List.mem_append.1 hc with hc | hc
      · rcases List.mem_append.1 hc with hc | hc
        · exact h.nsPlain.2.2 c hc
        · exact colon_bare c hc
      · exact h.idPlain.2 c hc
    have hjne : j.ns ++ "::".toList ++ pid ≠ [] := by
      intro hh
      have := List.append_eq_nil_iff.1 hh
      exact h.idNe this.2
    have hi : (bareItem (j.ns ++ "::".toList ++ pid)).Ok := by
      refine bareItem_ok hjid ?_
      rw [List.append_assoc]
      by_cases hns : j.ns = []
      · rw [hns, List.nil_append, head_append (by decide +kernel)]; decide +kernel
      · rw [head_append hns]
        intro hh
        exact h.nsPlain.2.1 (List.mem_of_mem_head? hh)
    have ht : (bareItem k.test).Ok := test_ok k
    have htne : k.test ≠ [] := by cases k <;> (unfold Kind.test; decide +kernel)
    have hbr : NoBraces (j.ns ++ "::".toList ++ pid ++ ' ' :: k.test) := by
      refine noBraces_append (noBraces_append (noBraces_append h.nsPlain.1 (by unfold NoBraces; decide +kernel)) h.idPlain.1) ?_
      have := noBraces_append (a := [' ']) (by unfold NoBraces; decide +kernel) (noBraces_test k)
      exact this
    have hq1 : ∀ d : List (Str × Str), qualify (derive j d) (j.ns ++ "::".toList ++ pid) = j.ns ++ "::".toList ++ pid := by
      intro d
      unfold qualify
      rw [if_pos ⟨j.ns, pid, rfl⟩]
    have hq2 : ∀ d : List (Str × Str), qualify (derive j d) k.test = k.test := by
      intro d
      unfold qualify
      rw [if_pos (by cases k <;> (unfold Kind.test; decide +kernel))]
    have hold : dependencies lib n j = .ok ((l.filterMap fun p => p.2.word?).map (qualify j)) := by
      rcases h.depends with hd | ⟨hd, rfl, rfl⟩
      · exact dependencies_of hd h.written h.words (by omega)
      · unfold dependencies
        rw [hd]; rfl
    refine ⟨_, hold, ?_⟩
    have hrec : ∀ v, insert lib j deps = .ok v →
        recordValue lib (derive j (newData k pid sum flags deps j)) "depends".toList = .ok (some v) := by
      intro v hv
      refine record_own lib j _ "depends".toList deps _ _ ?_ ?_
      · rw [lookup_newData, lookup_newData, if_neg (by decide +kernel), if_neg (by decide +kernel), if_neg (by decide +kernel),
          if_neg (by decide +kernel), if_neg (by decide +kernel), if_pos rfl]
        have e : '_' :: "depends".toList = "_depends".toList := by decide +kernel
        rw [e, h.noDepends]; rfl
      · rw [insert_new, hv]
    rcases hdeps with ⟨old, -, ho, rfl⟩ | ⟨hr, rfl⟩
    · have hv := hrec _ (h.ins.append old _ (' ' :: (j.ns ++ "::".toList ++ pid ++ ' ' :: k.test))
        (noBraces_append (a := [' ']) (by unfold NoBraces; decide +kernel) hbr) ho)
      exact dependencies_more hv h.written h.words hjne htne hi ht (hq1 _) (hq2 _) hn
    · have hv := hrec _ (h.ins.plain _ hbr)
      rw [render_nil hr, List.filterMap_nil, List.map_nil, List.nil_append]
      exact dependencies_two hv hjne htne hi ht (hq1 _) (hq2 _) (by omega)
  · exact ⟨_, flags_new h k deps, word_withoutFlags h.known⟩
  · exact siblings_new lib k pid sum flags deps j
  · intro f h0 h1 h2
    refine record_new lib k pid sum flags deps j f none h0 ?_ h2
    unfold isSiblings
    rw [Bool.eq_false_iff, ne_eq, List.isSuffixOf_iff_suffix]
    exact h1

theorem flagSet_of {lib : Lib P} {j : Job P} {t : Str} (h : recordValue lib j "flags".toList = .ok (some t)) :
    flagSet lib j = .ok (split t [] false) := by
  unfold flagSet
  rw [h]

theorem flags_old {lib : Lib P} {j : Job P} {pid sum flags : Str} {l : List (List Gap × Item)} {tail : List Gap}
    (h : Fine lib j pid sum flags l tail) : recordValue lib j "flags".toList = .ok (some flags) := by
  unfold recordValue
  have e : '_' :: "flags".toList = "_flags".toList := by decide +kernel
  rw [e, h.noFlags, h.flagsIs]
  show (insert lib j flags).map some = _
  rw [h.ins.plain _ h.flagsPlain]
  rfl

theorem flag_word (k : Kind) : k.flag ≠ [] := by cases k <;> decide +kernel

open Classical in
theorem madeSuspended_eq {lib : Lib P} {j : Job P} {t : Str} (h : recordValue lib j "flags".toList = .ok (some t)) {k : Kind}
    {s : Job P} (hs : suspended lib k j = .ok s) :
    madeSuspended lib k j = (if IsWord k.flag t then [s] else [], none) := by
  unfold madeSuspended
  rw [flagSet_of h]
  dsimp only
  by_cases hw : IsWord k.flag t
  · rw [if_pos ((mem_split_iff (flag_word k)).2 hw), hs, if_pos hw]
  · rw [if_neg (fun hh => hw ((mem_split_iff (flag_word k)).1 hh)), if_neg hw]

theorem madeSuspended_none {lib : Lib P} {j : Job P} {t : Str} (h : recordValue lib j "flags".toList = .ok (some t)) {k : Kind}
    (hw : ¬ IsWord k.flag t) : madeSuspended lib k j = ([], none) := by
  unfold madeSuspended
  rw [flagSet_of h]
  dsimp only
  rw [if_neg (fun hh => hw ((mem_split_iff (flag_word k)).1 hh))]

theorem made_new {lib : Lib P} {j : Job P} {pid sum flags : Str} {l : List (List Gap × Item)} {tail : List Gap}
    (h : Fine lib j pid sum flags l tail) (k : Kind) (deps : Str) :
    made lib (derive j (newData k pid sum flags deps j)) = ([], none) := by
  have hno : ∀ k' : Kind, ¬ IsWord k'.flag (withoutFlags flags) := by
    intro k' hw
    rcases (word_withoutFlags h.known _).1 hw with ⟨_, h1, h2⟩ | ⟨h1, _⟩
    · cases k' with
      | auto => exact h1 rfl
      | manual => exact h2 rfl
    · cases k' with
      | auto => exact absurd h1 (by decide +kernel)
      | manual => exact absurd h1 (by decide +kernel)
  unfold made
  rw [madeSuspended_none (flags_new h k deps) (hno .auto), madeSuspended_none (flags_new h k deps) (hno .manual)]
  unfold madeSiblings
  rw [siblings_new]
  rfl

/-- The siblings that the job describes: none if the field `siblings` is missing or empty, else one for each of the overrides
in the translated text of the field. -/
def Siblings (lib : Lib P) (j : Job P) (os : List (List (Str × Str))) : Prop :=
  (recordValue lib j "siblings".toList = .ok none ∨ recordValue lib j "siblings".toList = .ok (some [])) ∧ os = [] ∨
    ∃ t text, t ≠ [] ∧ recordValue lib j "siblings".toList = .ok (some t) ∧
      trRecordValue lib j "siblings".toList = .ok (some text) ∧ lib.loads text = some os

theorem madeSiblings_eq {lib : Lib P} {j : Job P} {os : List (List (Str × Str))} (h : Siblings lib j os) :
    madeSiblings lib j = (os.map (sibling j), none) := by
  unfold madeSiblings
  rcases h with ⟨h | h, rfl⟩ | ⟨t, text, ht, h1, h2, h3⟩
  · rw [h]; rfl
  · rw [h]; rfl
  · rw [h1]
    cases t with
    | nil => exact absurd rfl ht
    | cons c t =>
      dsimp only
      rw [h2]
      dsimp only
      rw [h3]

open Classical in
/-- **C105, which jobs a job brings.** One sibling for each of the overrides, and one job to be run after suspending for each
of the two flags that the job has; the jobs to be run after suspending bring no others. -/
theorem C105_brings_partial {lib : Lib P} {j : Job P} {pid sum flags : Str} {l : List (List Gap × Item)} {tail : List Gap}
    (h : Fine lib j pid sum flags l tail) {os : List (List (Str × Str))} (hos : Siblings lib j os) : ∃ a m,
    suspended lib .auto j = .ok a ∧ suspended lib .manual j = .ok m ∧
    made lib j = (os.map (sibling j) ++ ((if IsWord autoFlag flags then [a] else []) ++
      (if IsWord manualFlag flags then [m] else [])), none) ∧
    made lib a = ([], none) ∧ made lib m = ([], none) := by
  obtain ⟨da, ha, -⟩ := suspended_eq h .auto
  obtain ⟨dm, hm, -⟩ := suspended_eq h .manual
  refine ⟨_, _, ha, hm, ?_, made_new h .auto da, made_new h .manual dm⟩
  unfold made
  rw [madeSiblings_eq hos, madeSuspended_eq (flags_old h) ha, madeSuspended_eq (flags_old h) hm]
  rfl

/-- **C105, nothing else.** A job without siblings and without flags brings no jobs. -/
theorem C105_brings_none {lib : Lib P} {j : Job P} (hs : Siblings lib j [])
    (hf : recordValue lib j "flags".toList = .ok none ∨ ∃ t, recordValue lib j "flags".toList = .ok (some t) ∧
      ¬ IsWord autoFlag t ∧ ¬ IsWord manualFlag t) : made lib j = ([], none) := by
  unfold made
  rw [madeSiblings_eq hs]
  rcases hf with hf | ⟨t, hf, h1, h2⟩
  · unfold madeSuspended flagSet
    rw [hf]
    simp [Made.andThen]
  · rw [madeSuspended_none (k := .auto) hf h1, madeSuspended_none (k := .manual) hf h2]
    rfl

/-! ## Siblings -/

theorem lookup_update (o : List (Str × Str)) (f : Str) (hn : (o.map (·.1)).Nodup) : ∀ d : List (Str × Str),
    (o.foldl (fun d kv => dictSet kv.1 kv.2 d) d).lookup f = (o.lookup f).or (d.lookup f) := by
  induction o with
  | nil => intro d; rfl
  | cons x o ih =>
    intro d
    rw [List.map_cons, List.nodup_cons] at hn
    rw [List.foldl_cons, ih hn.2, Assoc.lookup_dictSet, Assoc.lk_cons]
    by_cases hf : f = x.1
    · rw [if_pos hf]
      have : o.lookup f = none := by
        cases ho : o.lookup f with
        | none => rfl
        | some v =>
          refine absurd ?_ hn.1
          rw [← hf]
          exact List.mem_map.2 ⟨(f, v), Varies.mem_of_lookup ho, rfl⟩
      rw [this, if_pos hf, Option.none_or, Option.some_or]
    · rw [if_neg hf, if_neg hf]

theorem lookup_sibling (j : Job P) {o : List (Str × Str)} (hn : (o.map (·.1)).Nodup) (f : Str) :
    (sibling j o).data.lookup f = (o.lookup f).or (if isSiblings f = true then none else j.data.lookup f) := by
  show (o.foldl (fun d kv => dictSet kv.1 kv.2 d) (plainData j)).lookup f = _
  rw [lookup_update o f hn, lookup_plainData]

theorem insert_sibling (lib : Lib P) (j : Job P) {o : List (Str × Str)} (hn : (o.map (·.1)).Nodup)
    (ht : o.lookup "template-engine".toList = none) (t : Str) : insert lib (sibling j o) t = insert lib j t := by
  refine insert_derive lib j _ ?_ t
  have := lookup_sibling j hn "template-engine".toList
  rw [ht, Option.none_or, if_neg (by decide +kernel)] at this
  exact this

theorem siblings_under {f : Str} (h0 : ¬ "siblings".toList <:+ f) : isSiblings f = false ∧ isSiblings ('_' :: f) = false := by
  unfold isSiblings
  rw [Bool.eq_false_iff, Bool.eq_false_iff, ne_eq, ne_eq, List.isSuffixOf_iff_suffix, List.isSuffixOf_iff_suffix]
  refine ⟨h0, fun hh => ?_⟩
  rcases List.suffix_cons_iff.1 hh with hh | hh
  · have : ("siblings".toList).head? = some '_' := by rw [hh]; rfl
    exact absurd this (by decide +kernel)
  · exact h0 hh

/-- **C105, siblings.** A sibling has the namespace and the parameters of the job. A field that is overridden has the given text,
with parameters inserted, if the override is marked for translation or the field of the job is not. Every other field is as in
the job, but for the field `siblings`, which is missing. -/
theorem C105_sibling_partial (lib : Lib P) (j : Job P) (o : List (Str × Str)) (hn : (o.map (·.1)).Nodup)
    (ht : o.lookup "template-engine".toList = none) :
    (sibling j o).ns = j.ns ∧ (sibling j o).params = j.params ∧
    (∀ f v, o.lookup ('_' :: f) = some v → recordValue lib (sibling j o) f = (insert lib j v).map some) ∧
    (∀ f v, o.lookup ('_' :: f) = none → o.lookup f = some v → j.data.lookup ('_' :: f) = none →
      recordValue lib (sibling j o) f = (insert lib j v).map some) ∧
    (∀ f, o.lookup ('_' :: f) = none → o.lookup f = none → ¬ "siblings".toList <:+ f →
      recordValue lib (sibling j o) f = recordValue lib j f) ∧
    (o.lookup "siblings".toList = none → o.lookup "_siblings".toList = none →
      recordValue lib (sibling j o) "siblings".toList = .ok none) := by
  refine ⟨rfl, rfl, ?_, ?_, ?_, ?_⟩
  · intro f v h
    unfold recordValue
    rw [lookup_sibling j hn, h, Option.some_or, Option.some_or]
    show (insert lib (sibling j o) v).map some = _
    rw [insert_sibling lib j hn ht]
  · intro f v h1 h2 h3
    unfold recordValue
    rw [lookup_sibling j hn, lookup_sibling j hn, h1, h2, h3, Option.none_or, ite_self, Option.some_or, Option.none_or,
      Option.some_or]
    show (insert lib (sibling j o) v).map some = _
    rw [insert_sibling lib j hn ht]
  · intro f h1 h2 h3
    unfold recordValue
    rw [lookup_sibling j hn, lookup_sibling j hn, h1, h2, Option.none_or, Option.none_or,
      if_neg (by rw [(siblings_under h3).2]; exact Bool.noConfusion),
      if_neg (by rw [(siblings_under h3).1]; exact Bool.noConfusion)]
    cases (j.data.lookup ('_' :: f)).or ((j.data.lookup f).or none) with
    | none => rfl
    | some t => simp only [insert_sibling lib j hn ht]
  · intro h1 h2
    unfold recordValue
    have e : '_' :: "siblings".toList = "_siblings".toList := by decide +kernel
    rw [e, lookup_sibling j hn, lookup_sibling j hn, h1, h2, if_pos (by decide +kernel), if_pos (by decide +kernel)]
    rfl

/-- **C105, an override without effect.** The field of the job is marked for translation and the override is not: the field of
the sibling is as in the job, whatever the override says. -/
theorem C105_override_violated (lib : Lib P) (j : Job P) (o : List (Str × Str)) (hn : (o.map (·.1)).Nodup)
    (ht : o.lookup "template-engine".toList = none) (f v old : Str) (h1 : o.lookup ('_' :: f) = none)
    (_h2 : o.lookup f = some v) (h3 : ¬ "siblings".toList <:+ f) (h4 : j.data.lookup ('_' :: f) = some old) :
    recordValue lib (sibling j o) f = recordValue lib j f := by
  unfold recordValue
  rw [lookup_sibling j hn, h1, Option.none_or, if_neg (by rw [(siblings_under h3).2]; exact Bool.noConfusion), h4,
    Option.some_or, Option.some_or]
  show (insert lib (sibling j o) old).map some = (insert lib j old).map some
  rw [insert_sibling lib j hn ht]

/-- **C105, translations.** A field that is not overridden is shown in the language of the user as in the job, if the text that
is translated is the same as the text that is not, which is so when normalisation leaves it alone. -/
theorem C105_translated_partial (lib : Lib P) (j : Job P) (o : List (Str × Str)) (hn : (o.map (·.1)).Nodup)
    (ht : o.lookup "template-engine".toList = none) (f : Str) (h1 : o.lookup ('_' :: f) = none) (h2 : o.lookup f = none)
    (h3 : ¬ "siblings".toList <:+ f) (hraw : j.raw.lookup ('_' :: f) = j.data.lookup ('_' :: f)) :
    trRecordValue lib (sibling j o) f = trRecordValue lib j f := by
  unfold trRecordValue
  have hr : (sibling j o).raw.lookup ('_' :: f) = j.raw.lookup ('_' :: f) := by
    rw [hraw]
    show (sibling j o).data.lookup ('_' :: f) = _
    rw [lookup_sibling j hn, h1, Option.none_or, if_neg (by rw [(siblings_under h3).2]; exact Bool.noConfusion)]
  have hd : (sibling j o).data.lookup f = j.data.lookup f := by
    rw [lookup_sibling j hn, h2, Option.none_or, if_neg (by rw [(siblings_under h3).1]; exact Bool.noConfusion)]
  rw [hr, hd]
  simp only [insert_sibling lib j hn ht]

/-! ## The session -/

/-- `l` are the jobs `js`, each followed by the jobs that it brings, and they by theirs. -/
inductive Grows (lib : Lib P) : List (Job P) → List (Job P) → Prop
  | nil : Grows lib [] []
  | cons {j : Job P} {js rest l1 l2 : List (Job P)} : made lib j = (js, none) → Grows lib js l1 → Grows lib rest l2 →
      Grows lib (j :: rest) (j :: l1 ++ l2)

theorem find_some {before after : Known P} {i : Option Str} {j : Job P} (h : i ∉ before.map (·.1)) :
    find (before ++ (i, j) :: after) i = some j := by
  unfold find
  rw [List.find?_append, List.find?_eq_none.2, Option.none_or, List.find?_cons_of_pos (by simp)]
  · rfl
  · intro e he hh
    exact h (List.mem_map.2 ⟨e, he, by simpa using hh⟩)

theorem find_none {known : Known P} {i : Option Str} (h : i ∉ known.map (·.1)) : find known i = none := by
  unfold find
  rw [Option.map_eq_none_iff, List.find?_eq_none]
  intro e he hh
  simp only [decide_eq_true_eq] at hh
  exact h (List.mem_map.2 ⟨e, he, hh⟩)

/-- **C105, the session.** When all ids are new and different, adding a job adds it, the jobs it brings and those they bring,
each once, and nothing else. -/
theorem C105_added_partial {lib : Lib P} {js l : List (Job P)} (h : Grows lib js l) : ∀ (known : Known P) (ids : List (Option Str)),
    l.map (jobId lib) = ids.map .ok → ids.Nodup → (∀ i ∈ ids, i ∉ known.map (·.1)) →
    ∃ n, ∀ m, n ≤ m → addEach (addJob lib m) js none known = (known ++ ids.zip l, none) := by
  induction h with
  | nil =>
    intro known ids _ _ _
    exact ⟨0, fun m _ => by simp [addEach]⟩
  | @cons j js rest l1 l2 hm _ _ ih1 ih2 =>
    intro known ids hi hd hk
    rw [List.cons_append, List.map_cons, List.map_append] at hi
    cases ids with
    | nil => cases hi
    | cons i ids =>
      rw [List.map_cons] at hi
      injection hi with hj hi
      have hlen : ids.length = l1.length + l2.length := by
        have := congrArg List.length hi
        simpa using this.symm
      have h1 : l1.map (jobId lib) = (ids.take l1.length).map .ok := by
        have := congrArg (List.take l1.length) hi
        rw [List.take_left' (by simp), List.map_take.symm] at this
        exact this
      have h2 : l2.map (jobId lib) = (ids.drop l1.length).map .ok := by
        have := congrArg (List.drop l1.length) hi
        rw [List.drop_left' (by simp), List.map_drop.symm] at this
        exact this
      rw [List.nodup_cons] at hd
      obtain ⟨n1, hn1⟩ := ih1 (known ++ [(i, j)]) _ h1 (hd.2.sublist (List.take_sublist _ _)) (by
        intro a ha
        have ha := List.mem_of_mem_take ha
        rw [List.map_append, List.mem_append, not_or]
        refine ⟨hk a (List.mem_cons_of_mem _ ha), ?_⟩
        simp only [List.map_cons, List.map_nil, List.mem_singleton]
        intro he
        subst he
        exact hd.1 ha)
      obtain ⟨n2, hn2⟩ := ih2 (known ++ [(i, j)] ++ (ids.take l1.length).zip l1) _ h2
        (hd.2.sublist (List.drop_sublist _ _)) (by
        intro a ha
        have hmem := List.mem_of_mem_drop ha
        rw [List.map_append, List.map_append, List.mem_append, List.mem_append, not_or, not_or]
        refine ⟨⟨hk a (List.mem_cons_of_mem _ hmem), ?_⟩, ?_⟩
        · simp only [List.map_cons, List.map_nil, List.mem_singleton]
          intro he
          subst he
          exact hd.1 hmem
        · intro hz
          rw [List.map_fst_zip (by rw [List.length_take]; omega)] at hz
          have hdis := hd.2
          rw [← List.take_append_drop l1.length ids, List.nodup_append] at hdis
          exact hdis.2.2 a hz a ha rfl)
      refine ⟨max (n1 + 1) n2, fun m hm' => ?_⟩
      obtain ⟨m', rfl⟩ : ∃ m', m = m' + 1 := ⟨m - 1, by omega⟩
      have hadd : addJob lib (m' + 1) known j = (known ++ [(i, j)] ++ (ids.take l1.length).zip l1, none) := by
        rw [addJob, hj]
        dsimp only
        rw [find_none (hk i List.mem_cons_self)]
        dsimp only
        rw [hm]
        exact hn1 m' (by omega)
      unfold addEach
      rw [hadd]
      dsimp only
      rw [hn2 (m' + 1) (by omega)]
      congr 1
      rw [List.cons_append, List.zip_cons_cons, List.append_assoc, List.append_assoc]
      congr 1
      rw [List.singleton_append, ← List.zip_append (by rw [List.length_take]; omega), List.take_append_drop]

/-- **C105, both ways of suspending.** A job with both flags brings two jobs with different ids, each of which depends on its own
job that suspends the machine; all three are added. -/
theorem C105_both_partial {lib : Lib P} {j : Job P} {pid sum flags : Str} {l : List (List Gap × Item)} {tail : List Gap}
    (h : Fine lib j pid sum flags l tail) (hs : Siblings lib j []) (ha : IsWord "also-after-suspend".toList flags)
    (hm : IsWord "also-after-suspend-manual".toList flags) (known : Known P)
    (hk : ∀ p ∈ ["::".toList, "::after-suspend-".toList, "::after-suspend-manual-".toList],
      some (j.ns ++ p ++ pid) ∉ known.map (·.1)) : ∃ a b, (∃ n, ∀ m, n ≤ m → addJob lib m known j =
      (known ++ [(some (j.ns ++ "::".toList ++ pid), j), (some (j.ns ++ "::after-suspend-".toList ++ pid), a),
        (some (j.ns ++ "::after-suspend-manual-".toList ++ pid), b)], none)) ∧
    ∃ n old, dependencies lib n j = .ok old ∧
      dependencies lib n a = .ok (old ++ [j.ns ++ "::".toList ++ pid,
        "com.canonical.certification::suspend/suspend_advanced_auto".toList]) ∧
      dependencies lib n b = .ok (old ++ [j.ns ++ "::".toList ++ pid,
        "com.canonical.certification::suspend/suspend_advanced".toList]) := by
  obtain ⟨a, b, hsa, hsb, hmade, hma, hmb⟩ := C105_brings_partial h hs
  rw [if_pos (show IsWord autoFlag flags from ha), if_pos (show IsWord manualFlag flags from hm)] at hmade
  obtain ⟨a', ha', hida, -, hda, -⟩ := C105_suspended_partial h .auto
  rw [hsa] at ha'
  injection ha' with ha'
  subst ha'
  obtain ⟨b', hb', hidb, -, hdb, -⟩ := C105_suspended_partial h .manual
  rw [hsb] at hb'
  injection hb' with hb'
  subst hb'
  have hg : Grows lib [j] [j, a, b] := by
    have := Grows.cons (lib := lib) (rest := []) hmade
      (Grows.cons (rest := [b]) hma .nil (Grows.cons (rest := []) hmb .nil .nil)) .nil
    exact this
  have e1 : j.ns ++ "::".toList ++ Kind.auto.prefix ++ pid = j.ns ++ "::after-suspend-".toList ++ pid := by
    rw [List.append_assoc j.ns]; rfl
  have e2 : j.ns ++ "::".toList ++ Kind.manual.prefix ++ pid = j.ns ++ "::after-suspend-manual-".toList ++ pid := by
    rw [List.append_assoc j.ns]; rfl
  rw [e1] at hida
  rw [e2] at hidb
  obtain ⟨n, hn⟩ := C105_added_partial hg known
    [some (j.ns ++ "::".toList ++ pid), some (j.ns ++ "::after-suspend-".toList ++ pid),
      some (j.ns ++ "::after-suspend-manual-".toList ++ pid)] (by
      rw [List.map_cons, List.map_cons, List.map_cons, List.map_nil, jobId_eq h.id h.idNe, hida, hidb]; rfl) (by
      have ne : ∀ x y : Str, x.length ≠ y.length → some (j.ns ++ x ++ pid) ≠ some (j.ns ++ y ++ pid) := by
        intro x y hne he
        injection he with he
        have := congrArg List.length he
        simp only [List.length_append] at this
        omega
      rw [List.nodup_cons, List.nodup_cons]
      refine ⟨?_, ?_, by simp⟩
      · intro hc
        rcases List.mem_cons.1 hc with hc | hc
        · exact ne _ _ (by decide) hc
        · exact ne _ _ (by decide) (List.mem_singleton.1 hc)
      · intro hc
        exact ne _ _ (by decide) (List.mem_singleton.1 hc)) (by
      intro i hi
      rcases List.mem_cons.1 hi with rfl | hi
      · exact hk _ (by simp)
      · rcases List.mem_cons.1 hi with rfl | hi
        · exact hk _ (by simp)
        · rw [List.mem_singleton.1 hi]
          exact hk _ (by simp))
  refine ⟨a, b, ⟨n + 1, fun m hm' => ?_⟩, l.length + 3, ?_⟩
  · have := hn m (by omega)
    unfold addEach at this
    have e : ∀ (r : Known P × Option Exc) (x : Known P × Option Exc), (match r with
        | (known, some e) => (known, some e)
        | (known, none) => addEach (addJob lib m) [] none known) = x → r = x := by
      rintro ⟨k, _ | e⟩ x hx
      · exact hx
      · exact hx
    exact e _ _ this
  · obtain ⟨old, ho, hna⟩ := hda (l.length + 3) (by omega)
    obtain ⟨old', ho', hnb⟩ := hdb (l.length + 3) (by omega)
    rw [ho] at ho'
    injection ho' with ho'
    subst ho'
    exact ⟨old, ho, hna, hnb⟩

/-- **C105, no summary.** A job without a summary has its id instead. -/
theorem C105_unnamed (lib : Lib P) (j : Job P) (pid : Str) (hi : partialId lib j = .ok (some pid))
    (hb : insert lib j pid = .ok pid)
    (h1 : j.data.lookup "_summary".toList = none) (h2 : j.data.lookup "summary".toList = none) :
    summary lib j = .ok (some pid) := by
  unfold summary
  rw [hi]
  dsimp only
  unfold recordValue
  rw [show ('_' :: "summary".toList) = "_summary".toList from rfl, h1, h2]
  dsimp only [Option.or]
  rw [hb]
  rfl

/-- **C105, a job that is there already.** Adding a job that is the same as one in the session does not store it again; only
the jobs that it brings are added, if there are any. -/
theorem C105_again_partial {lib : Lib P} {j old : Job P} {js l : List (Job P)} (hm : made lib j = (js, none))
    (h : Grows lib js l) (before after : Known P) (i : Option Str) (hj : jobId lib j = .ok i)
    (hb : i ∉ before.map (·.1)) (hs : lib.same j old = true) (ids : List (Option Str))
    (hi : l.map (jobId lib) = ids.map .ok) (hd : ids.Nodup)
    (hk : ∀ a ∈ ids, a ∉ (before ++ (i, old) :: after).map (·.1)) :
    ∃ n, ∀ m, n ≤ m → addJob lib m (before ++ (i, old) :: after) j = (before ++ (i, old) :: after ++ ids.zip l, none) := by
  obtain ⟨n, hn⟩ := C105_added_partial h _ ids hi hd hk
  refine ⟨n + 1, fun m hm' => ?_⟩
  obtain ⟨m', rfl⟩ : ∃ m', m = m' + 1 := ⟨m - 1, by omega⟩
  rw [addJob, hj]
  dsimp only
  rw [find_some hb]
  dsimp only
  rw [if_pos hs, hm]
  exact hn m' (by omega)

/-- **C105, another job of the same id.** Adding a job when the session has a different one of the same id is refused and the
session stays as it is. -/
theorem C105_refused (lib : Lib P) (n : Nat) (j old : Job P) (before after : Known P) (i : Option Str)
    (hj : jobId lib j = .ok i) (hb : i ∉ before.map (·.1)) (hs : lib.same j old = false) :
    addJob lib (n + 1) (before ++ (i, old) :: after) j = (before ++ (i, old) :: after, some .duplicate) := by
  rw [addJob, hj]
  dsimp only
  rw [find_some hb]
  dsimp only
  rw [if_neg (by rw [hs]; exact Bool.false_ne_true)]

/-- **C105, siblings that cannot be read.** If the field `siblings` has a text that is not JSON, the job is added, nothing is
added for it, and the exception of the reader of JSON comes out. -/
theorem C105_json {lib : Lib P} {j : Job P} {t text : Str} (ht : t ≠ [])
    (h1 : recordValue lib j "siblings".toList = .ok (some t))
    (h2 : trRecordValue lib j "siblings".toList = .ok (some text)) (h3 : lib.loads text = none)
    (n : Nat) (known : Known P) (i : Option Str) (hj : jobId lib j = .ok i) (hk : i ∉ known.map (·.1)) :
    addJob lib (n + 1) known j = (known ++ [(i, j)], some .json) := by
  have hm : made lib j = ([], some .json) := by
    unfold made madeSiblings
    rw [h1]
    cases t with
    | nil => exact absurd rfl ht
    | cons c t =>
      dsimp only
      rw [h2]
      dsimp only
      rw [h3]
      rfl
  rw [addJob, hj]
  dsimp only
  rw [find_none hk]
  dsimp only
  rw [hm]
  rfl

/-- **C105, the session, for a job with the flag `also-after-suspend`.** Adding it adds the job and the job to be run after
suspending. -/
theorem C105_session_partial {lib : Lib P} {j : Job P} {pid sum flags : Str} {l : List (List Gap × Item)} {tail : List Gap}
    (h : Fine lib j pid sum flags l tail) (hs : Siblings lib j []) (ha : IsWord autoFlag flags)
    (hm : ¬ IsWord manualFlag flags) (known : Known P)
    (h1 : some (j.ns ++ "::".toList ++ pid) ∉ known.map (·.1))
    (h2 : some (j.ns ++ "::".toList ++ Kind.auto.prefix ++ pid) ∉ known.map (·.1)) : ∃ s,
    suspended lib .auto j = .ok s ∧ ∃ n, ∀ m, n ≤ m → addJob lib m known j =
      (known ++ [(some (j.ns ++ "::".toList ++ pid), j), (some (j.ns ++ "::".toList ++ Kind.auto.prefix ++ pid), s)],
        none) := by
  obtain ⟨a, m, hsa, hsm, hmade, hma, -⟩ := C105_brings_partial h hs
  rw [if_pos ha, if_neg hm] at hmade
  obtain ⟨a', ha', hid, -⟩ := C105_suspended_partial h .auto
  rw [hsa] at ha'
  injection ha' with ha'
  subst ha'
  have hg : Grows lib [j] [j, a] := by
    have := Grows.cons (lib := lib) (rest := []) hmade (Grows.cons (rest := []) hma .nil .nil) .nil
    exact this
  obtain ⟨n, hn⟩ := C105_added_partial hg known
    [some (j.ns ++ "::".toList ++ pid), some (j.ns ++ "::".toList ++ Kind.auto.prefix ++ pid)] (by
      rw [List.map_cons, List.map_cons, List.map_nil, jobId_eq h.id h.idNe, hid]; rfl) (by
      simp only [List.nodup_cons, List.mem_singleton, List.not_mem_nil, not_false_eq_true, List.nodup_nil, and_true,
        Option.some.injEq]
      intro he
      have := congrArg List.length he
      have hp : Kind.auto.prefix.length = 14 := by decide +kernel
      simp only [List.length_append, hp] at this
      omega) (by
      intro i hi
      simp only [List.mem_cons, List.not_mem_nil, or_false] at hi
      rcases hi with rfl | rfl
      · exact h1
      · exact h2)
  refine ⟨a, hsa, n, fun m hm' => ?_⟩
  have := hn m hm'
  unfold addEach at this
  cases hadd : addJob lib m known j with
  | mk k' e =>
    rw [hadd] at this
    cases e with
    | some e => injection this with _ this; cases this
    | none => exact this

/-! ## The default way to insert parameters -/

/-- What unit 635-639 does, with what is not modelled of the standard library as a parameter. -/
def formatter (vlib : Varies.Lib) (rest : Lib (List (Str × Checksum.PVal))) : Lib (List (Str × Checksum.PVal)) :=
  { rest with
    fmt := fun p _ t => match p with
      | none => some t
      | some ps => (Varies.pieces t).bind (Varies.vformat vlib ps) }

theorem prun_append (st : Varies.PState × List Varies.Piece) (t u : Str) :
    Varies.prun st (t ++ u) = (Varies.prun st t).bind fun st => Varies.prun st u := by
  induction t generalizing st with
  | nil => rfl
  | cons c t ih =>
    rw [List.cons_append, Varies.prun, Varies.prun]
    cases Varies.pstep st c with
    | none => rfl
    | some st => exact ih st

theorem prun_plain : ∀ (s : Str) (out : List Varies.Piece), NoBraces s →
    Varies.prun (.lit, out) s = some (.lit, out ++ s.map .ch) := by
  intro s
  induction s with
  | nil => intro out _; simp [Varies.prun]
  | cons c s ih =>
    intro out h
    unfold NoBraces at h
    simp only [List.mem_cons, not_or] at h
    simp only [Varies.prun, Varies.pstep, if_neg (Ne.symm h.1.1), if_neg (Ne.symm h.2.1), Option.bind_some]
    rw [ih _ ⟨h.1.2, h.2.2⟩]
    simp

theorem pieces_append {t u : Str} {ps : List Varies.Piece} (h : Varies.pieces t = some ps) (hu : NoBraces u) :
    Varies.pieces (t ++ u) = some (ps ++ u.map .ch) := by
  unfold Varies.pieces at h ⊢
  rw [prun_append]
  cases hp : Varies.prun (.lit, []) t with
  | none => rw [hp] at h; cases h
  | some st =>
    rw [hp] at h
    obtain ⟨st, out⟩ := st
    cases st with
    | lit =>
      injection h with h
      subst h
      rw [Option.bind_some, prun_plain _ _ hu]
    | _ => cases h

theorem vformat_append (vlib : Varies.Lib) (params : List (Str × Checksum.PVal)) (ps : List Varies.Piece) (u : Str) :
    Varies.vformat vlib params (ps ++ u.map .ch) = (Varies.vformat vlib params ps).map (· ++ u) := by
  induction ps with
  | nil => rw [List.nil_append, Varies.vformat_plain]; rfl
  | cons p ps ih =>
    cases p with
    | ch c =>
      rw [List.cons_append, Varies.vformat, Varies.vformat, ih]
      cases Varies.vformat vlib params ps <;> rfl
    | fld n cv s =>
      rw [List.cons_append, Varies.vformat, Varies.vformat, ih]
      generalize (if cv = none ∧ s = [] ∧ Varies.isPlain n = true then (params.lookup n).map Varies.showVal
        else vlib.other n cv s params) = v
      cases v with
      | none => rfl
      | some v => cases Varies.vformat vlib params ps <;> simp

/-- **C105, parameters.** Inserting parameters with `string.Formatter` changes nothing outside of braces, so that the theorems
apply to jobs made from a template. -/
theorem C105_inserts (vlib : Varies.Lib) (rest : Lib (List (Str × Checksum.PVal))) (j : Job (List (Str × Checksum.PVal)))
    (he : engine j ≠ "jinja2".toList) : Inserts (formatter vlib rest) j := by
  have hi : ∀ t, insert (formatter vlib rest) j t = match j.params with
      | none => .ok t
      | some ps => match (Varies.pieces t).bind (Varies.vformat vlib ps) with
        | some s => .ok s
        | none => .error .text := by
    intro t
    unfold insert
    cases hp : j.params with
    | none => rw [if_pos ⟨rfl, he⟩]
    | some ps => rw [if_neg (by simp)]; rfl
  constructor
  · intro t ht
    rw [hi]
    cases j.params with
    | none => rfl
    | some ps =>
      dsimp only
      rw [Varies.pieces_plain ht, Option.bind_some, Varies.vformat_plain]
  · intro t s u hu h
    rw [hi] at h ⊢
    cases hp : j.params with
    | none => rw [hp] at h; injection h with h; subst h; rfl
    | some ps =>
      rw [hp] at h
      dsimp only at h ⊢
      cases hq : Varies.pieces t with
      | none => rw [hq] at h; cases h
      | some qs =>
        rw [hq, Option.bind_some] at h
        rw [pieces_append hq hu, Option.bind_some, vformat_append]
        cases hv : Varies.vformat vlib ps qs with
        | none => rw [hv] at h; cases h
        | some v => rw [hv] at h; injection h with h; subst h; rfl

/-! ## Examples and violations -/

/-- A library: one text has a translation, and one text is JSON. -/
def exLib : Lib (List (Str × Checksum.PVal)) :=
  formatter ⟨fun _ _ _ _ => none, fun _ => none, fun _ _ => none⟩
    { fmt := fun _ _ _ => none
      tr := fun t => if t = "one\n two".toList then "eins\n zwei".toList else t
      normalize := fun t => if t = "eins\n zwei".toList then "eins\nzwei".toList else t
      loads := fun t => if t = "J".toList then some [[("summary".toList, "Other".toList)]]
        else if t = "K".toList then some [[("id".toList, "b".toList), ("_summary".toList, "Other".toList)]]
        else none
      same := fun a b => decide (a.data = b.data) }

/-- A job of the provider `p` with these fields. -/
def exJob (fields : List (String × String)) (params : Option (List (Str × Checksum.PVal)) := none) :
    Job (List (Str × Checksum.PVal)) where
  data := fields.map fun f => (f.1.toList, f.2.toList)
  raw := fields.map fun f => (f.1.toList, f.2.toList)
  ns := "p".toList
  params := params

/-- A job made from a template, with a flag, a summary and dependencies. -/
def exWifi : Job (List (Str × Checksum.PVal)) :=
  exJob [("id", "wifi-{dev}"), ("_summary", "Test of {dev}"), ("plugin", "shell"), ("command", "test {dev}"),
    ("flags", "simple,also-after-suspend preserve-locale"), ("depends", "up-{dev}, q::b")] (some [("dev".toList, .str "w0".toList)])

/-- The words of its dependencies. -/
def exWords : List (List Gap × Item) := [([], .bare 'u' "p-w0".toList), ([], .comma), ([.ws ' '], .bare 'q' "::b".toList)]

theorem exFine : Fine exLib exWifi "wifi-w0".toList "Test of w0".toList "simple,also-after-suspend preserve-locale".toList
    exWords [] where
  ins := C105_inserts _ _ _ (by decide +kernel)
  noId := by decide +kernel
  noFlags := by decide +kernel
  noDepends := by decide +kernel
  id := by decide +kernel
  idNe := by decide +kernel
  idPlain := by unfold NoBraces BareChar; decide +kernel
  nsPlain := by unfold NoBraces BareChar; decide +kernel
  sumIs := by decide +kernel
  sumPlain := by unfold NoBraces; decide +kernel
  flagsIs := by decide +kernel
  flagsPlain := by unfold NoBraces; decide +kernel
  known := by
    intro w hw hi
    rw [← mem_split_iff hw.1] at hw
    have : ∀ w ∈ split "simple,also-after-suspend preserve-locale".toList [] false, autoFlag <:+: w →
        w = autoFlag ∨ w = manualFlag := by decide +kernel
    exact this w hw hi
  written := by
    unfold WellWritten exWords
    refine ⟨by decide +kernel, by decide +kernel, ?_⟩
    simp [Words.Spaced, Item.isBare, Item.isWord]
  words := by simp [exWords]
  depends := .inl (by decide +kernel)

/-- A job with both flags. -/
def exBoth : Job (List (Str × Checksum.PVal)) :=
  exJob [("id", "wifi-{dev}"), ("_summary", "Test of {dev}"), ("flags", "also-after-suspend also-after-suspend-manual"),
    ("depends", "up-{dev}, q::b")] (some [("dev".toList, .str "w0".toList)])

theorem exFineBoth : Fine exLib exBoth "wifi-w0".toList "Test of w0".toList "also-after-suspend also-after-suspend-manual".toList
    exWords [] where
  ins := C105_inserts _ _ _ (by decide +kernel)
  noId := by decide +kernel
  noFlags := by decide +kernel
  noDepends := by decide +kernel
  id := by decide +kernel
  idNe := by decide +kernel
  idPlain := by unfold NoBraces BareChar; decide +kernel
  nsPlain := by unfold NoBraces BareChar; decide +kernel
  sumIs := by decide +kernel
  sumPlain := by unfold NoBraces; decide +kernel
  flagsIs := by decide +kernel
  flagsPlain := by unfold NoBraces; decide +kernel
  known := by
    intro w hw hi
    rw [← mem_split_iff hw.1] at hw
    have : ∀ w ∈ split "also-after-suspend also-after-suspend-manual".toList [] false, autoFlag <:+: w →
        w = autoFlag ∨ w = manualFlag := by decide +kernel
    exact this w hw hi
  written := by
    unfold WellWritten exWords
    refine ⟨by decide +kernel, by decide +kernel, ?_⟩
    simp [Words.Spaced, Item.isBare, Item.isWord]
  words := by simp [exWords]
  depends := .inl (by decide +kernel)

/-- It is added together with the two jobs to be run after suspending. -/
example : ∃ a b n, ∀ m, n ≤ m → addJob exLib m [] exBoth = ([(some "p::wifi-w0".toList, exBoth),
    (some "p::after-suspend-wifi-w0".toList, a), (some "p::after-suspend-manual-wifi-w0".toList, b)], none) := by
  obtain ⟨a, b, ⟨n, hn⟩, -⟩ := C105_both_partial exFineBoth (.inl ⟨.inl (by decide +kernel), rfl⟩)
    (by rw [← mem_split_iff (by decide +kernel)]; decide +kernel)
    (by rw [← mem_split_iff (by decide +kernel)]; decide +kernel) [] (by simp)
  exact ⟨a, b, n, hn⟩

/-- No flag asks for suspending by hand. -/
theorem exFlags : IsWord autoFlag "simple,also-after-suspend preserve-locale".toList ∧
    ¬ IsWord manualFlag "simple,also-after-suspend preserve-locale".toList := by
  constructor
  · rw [← mem_split_iff (by decide +kernel)]; decide +kernel
  · rw [← mem_split_iff (by decide +kernel)]; decide +kernel

/-- The job of the example after suspending: id, summary, flags, dependencies and command. -/
example : ∃ s, suspended exLib .auto exWifi = .ok s ∧
    jobId exLib s = .ok (some "p::after-suspend-wifi-w0".toList) ∧
    summary exLib s = .ok (some "Test of w0 after suspend (S3)".toList) ∧
    flagSet exLib s = .ok ["simple".toList, "preserve-locale".toList] ∧
    dependencies exLib 9 s = .ok ["p::up-w0".toList, "q::b".toList, "p::wifi-w0".toList,
      "com.canonical.certification::suspend/suspend_advanced_auto".toList] ∧
    recordValue exLib s "command".toList = .ok (some "test w0".toList) := by
  obtain ⟨s, hs, h1, h2, h3, -, -, h4⟩ := C105_suspended_partial exFine .auto
  refine ⟨s, hs, ?_, ?_, ?_, ?_, ?_⟩
  · rw [h1]; decide +kernel
  · rw [h2]; decide +kernel
  · have : (suspended exLib .auto exWifi).bind (flagSet exLib) = .ok ["simple".toList, "preserve-locale".toList] := by
      decide +kernel
    rw [hs] at this; exact this
  · have : (suspended exLib .auto exWifi).bind (dependencies exLib 9) = .ok ["p::up-w0".toList, "q::b".toList,
        "p::wifi-w0".toList, "com.canonical.certification::suspend/suspend_advanced_auto".toList] := by
      decide +kernel
    rw [hs] at this; exact this
  · rw [h4 _ (by decide +kernel) (by decide +kernel) (by decide +kernel)]; decide +kernel

/-- It is added to an empty session together with the job. -/
example : ∃ s, suspended exLib .auto exWifi = .ok s ∧ ∃ n, ∀ m, n ≤ m → addJob exLib m [] exWifi =
    ([(some "p::wifi-w0".toList, exWifi), (some "p::after-suspend-wifi-w0".toList, s)], none) := by
  have := C105_session_partial exFine (.inl ⟨.inl (by decide +kernel), rfl⟩) exFlags.1 exFlags.2 [] (by simp) (by simp)
  exact this

/-- A job whose sibling has an id and a summary of its own; `K` stands for the JSON text. -/
def exTwo : Job (List (Str × Checksum.PVal)) :=
  exJob [("id", "a"), ("_summary", "First"), ("plugin", "manual"), ("siblings", "K")]

/-- What the overrides of the example are. -/
def exOver : List (Str × Str) := [("id".toList, "b".toList), ("_summary".toList, "Other".toList)]

example : made exLib exTwo = ([sibling exTwo exOver], none) ∧
    jobId exLib (sibling exTwo exOver) = .ok (some "p::b".toList) ∧
    summary exLib (sibling exTwo exOver) = .ok (some "Other".toList) ∧
    recordValue exLib (sibling exTwo exOver) "plugin".toList = .ok (some "manual".toList) := by
  have h := C105_sibling_partial exLib exTwo exOver (by decide +kernel) (by decide +kernel)
  refine ⟨?_, by decide +kernel, ?_, ?_⟩
  · have hs : Siblings exLib exTwo [exOver] :=
      .inr ⟨"K".toList, "K".toList, by decide +kernel, by decide +kernel, by decide +kernel, by decide +kernel⟩
    unfold made
    rw [madeSiblings_eq hs]
    unfold madeSuspended
    have hf : flagSet exLib exTwo = .ok [] := by decide +kernel
    rw [hf]
    simp [Made.andThen]
  · decide +kernel
  · rw [h.2.2.2.2.1 _ (by decide +kernel) (by decide +kernel) (by decide +kernel)]; decide +kernel

/-- A job without a summary. -/
example : summary exLib (exJob [("id", "a")]) = .ok (some "a".toList) :=
  C105_unnamed exLib _ _ (by decide +kernel) (by decide +kernel) (by decide +kernel) (by decide +kernel)

/-- The same job again brings the sibling that is not there yet; a different one of the same id is refused; one with siblings
that are not JSON is added alone. -/
example : (∃ n, ∀ m, n ≤ m → addJob exLib m [(some "p::a".toList, exTwo)] exTwo =
      ([(some "p::a".toList, exTwo), (some "p::b".toList, sibling exTwo exOver)], none)) ∧
    addJob exLib 9 [(some "p::a".toList, exTwo)] (exJob [("id", "a")]) = ([(some "p::a".toList, exTwo)], some .duplicate) ∧
    addJob exLib 9 [] (exJob [("id", "a"), ("siblings", "?")]) =
      ([(some "p::a".toList, exJob [("id", "a"), ("siblings", "?")])], some .json) := by
  refine ⟨?_, ?_, ?_⟩
  · have h1 : made exLib exTwo = ([sibling exTwo exOver], none) := by
      unfold made
      rw [madeSiblings_eq (os := [exOver])
        (.inr ⟨"K".toList, "K".toList, by decide +kernel, by decide +kernel, by decide +kernel, by decide +kernel⟩)]
      unfold madeSuspended
      rw [show flagSet exLib exTwo = .ok [] from by decide +kernel]
      simp [Made.andThen]
    have h2 : made exLib (sibling exTwo exOver) = ([], none) :=
      C105_brings_none (.inl ⟨.inl (by decide +kernel), rfl⟩) (.inl (by decide +kernel))
    exact C105_again_partial h1 (Grows.cons (rest := []) h2 .nil .nil) [] [] _ (by decide +kernel) (by simp)
      (by decide +kernel) [some "p::b".toList] (by decide +kernel) (by decide +kernel) (by decide +kernel)
  · exact C105_refused exLib 8 _ exTwo [] [] _ (by decide +kernel) (by simp) (by decide +kernel)
  · exact C105_json (t := "?".toList) (text := "?".toList) (by decide +kernel) (by decide +kernel) (by decide +kernel)
      (by decide +kernel) 8 [] _ (by decide +kernel) (by simp)

/-- Siblings of siblings: the job, its sibling and nothing else are added. -/
example : Grows exLib [exTwo] [exTwo, sibling exTwo exOver] ∧
    ([exTwo, sibling exTwo exOver].map (jobId exLib)) = [some "p::a".toList, some "p::b".toList].map .ok := by
  refine ⟨?_, by decide +kernel⟩
  have hs : Siblings exLib exTwo [exOver] :=
    .inr ⟨"K".toList, "K".toList, by decide +kernel, by decide +kernel, by decide +kernel, by decide +kernel⟩
  have h1 : made exLib exTwo = ([sibling exTwo exOver], none) := by
    unfold made
    rw [madeSiblings_eq hs]
    unfold madeSuspended
    have hf : flagSet exLib exTwo = .ok [] := by decide +kernel
    rw [hf]
    simp [Made.andThen]
  have h2 : made exLib (sibling exTwo exOver) = ([], none) :=
    C105_brings_none (.inl ⟨.inl (by decide +kernel), rfl⟩) (.inl (by decide +kernel))
  exact Grows.cons (rest := []) h1 (Grows.cons (rest := []) h2 .nil .nil) .nil

/-- **C105, a flag that is left.** The job to be run after suspending by hand has a flag that the job does not have: what
remains of `also-after-suspend-manual` when `also-after-suspend` is removed. -/
theorem C105_flag_violated : ∃ j : Job (List (Str × Checksum.PVal)),
    flagSet exLib j = .ok ["also-after-suspend-manual".toList] ∧
    (suspended exLib .manual j).bind (flagSet exLib) = .ok ["-manual".toList] :=
  ⟨exJob [("id", "a"), ("flags", "also-after-suspend-manual")], by decide +kernel⟩

/-- **C105, dependencies in a comment.** If the field `depends` ends in a comment, the job to be run after suspending depends
neither on the job nor on the one that suspends the machine. -/
theorem C105_comment_violated : ∃ j : Job (List (Str × Checksum.PVal)),
    dependencies exLib 9 j = .ok ["p::b".toList] ∧
    (suspended exLib .auto j).bind (dependencies exLib 9) = .ok ["p::b".toList] :=
  ⟨exJob [("id", "a"), ("flags", "also-after-suspend"), ("depends", "b # c")], by decide +kernel⟩

/-- **C105, no id in the overrides.** A sibling that has no id of its own clashes with the job. Adding the job fails, though it
is in the session by then. -/
theorem C105_clash_violated : ∃ j : Job (List (Str × Checksum.PVal)), Siblings exLib j [[("summary".toList, "Other".toList)]] ∧
    (addJob exLib 9 [] j).2 = some .duplicate ∧ (addJob exLib 9 [] j).1.length = 1 :=
  ⟨exJob [("id", "a"), ("summary", "First"), ("siblings", "J")],
    .inr ⟨"J".toList, "J".toList, by decide +kernel, by decide +kernel, by decide +kernel, by decide +kernel⟩,
    by decide +kernel, by decide +kernel⟩

/-- The overrides of a sibling that has its own id. -/
def exIdOnly : List (Str × Str) := [("id".toList, "b".toList)]

/-- **C105, translations are lost.** The text to translate is the one as written in the file. A sibling has only the normalised
text, so that it is shown untranslated though the same text of the job is translated. -/
theorem C105_translation_violated : ∃ j : Job (List (Str × Checksum.PVal)),
    recordValue exLib j "description".toList = .ok (some "one\ntwo".toList) ∧
    recordValue exLib (sibling j exIdOnly) "description".toList = .ok (some "one\ntwo".toList) ∧
    trRecordValue exLib j "description".toList = .ok (some "eins\nzwei".toList) ∧
    trRecordValue exLib (sibling j exIdOnly) "description".toList = .ok (some "one\ntwo".toList) :=
  ⟨⟨[("id".toList, "a".toList), ("_description".toList, "one\ntwo".toList)],
    [("id".toList, "a".toList), ("_description".toList, "one\n two".toList)], "p".toList, none⟩, by decide +kernel⟩

/-- **C105, braces in a parameter.** The id and the summary have the parameters already inserted when they become fields of the
new job; if a parameter has braces, it is taken for a field, and the id of the new job cannot be read. -/
theorem C105_braces_violated : ∃ j : Job (List (Str × Checksum.PVal)),
    jobId exLib j = .ok (some "p::disk-{1}".toList) ∧
    (suspended exLib .auto j).bind (jobId exLib) = .error .text ∧ (addJob exLib 9 [] j).2 = some .text :=
  ⟨exJob [("id", "disk-{dev}"), ("flags", "also-after-suspend")] (some [("dev".toList, .str "{1}".toList)]), by decide +kernel⟩

/-- The hypotheses of `C105_override_violated` are met: an override of `summary` for a job with `_summary`. -/
example : recordValue exLib (sibling exTwo [("summary".toList, "Other".toList), ("id".toList, "c".toList)]) "summary".toList =
    .ok (some "First".toList) := by
  rw [C105_override_violated exLib exTwo _ (by decide +kernel) (by decide +kernel) "summary".toList "Other".toList
    "First".toList (by decide +kernel) (by decide +kernel) (by decide +kernel) (by decide +kernel)]
  decide +kernel

/-- A translated text that normalisation leaves alone is translated for the sibling as well. -/
example : trRecordValue exLib (sibling exTwo exIdOnly) "summary".toList = trRecordValue exLib exTwo "summary".toList :=
  C105_translated_partial exLib exTwo _ (by decide +kernel) (by decide +kernel) _ (by decide +kernel) (by decide +kernel)
    (by decide +kernel) (by decide +kernel)

end Verif.Sibling
