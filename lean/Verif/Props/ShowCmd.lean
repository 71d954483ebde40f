import Verif.Model.ShowCmd
import Verif.Model.Export
import Verif.Props.Peek
import Verif.Lemmas.Path

/-! # C142: showing and archiving stored sessions -/

namespace Verif.ShowCmd

open Verif.Path (Str)
open Verif.Peek (Meta Loaded Stored End peek Holds writeDoc)
open Verif.ResumeJson (Exc Json)

attribute [-instance] List.instBEq

variable {J : Type}

/-! ## Specification -/

/-- The first stored session with this identifier. -/
def First (l : List Entry) (id : Str) (s : Entry) : Prop :=
  ∃ pre post, l = pre ++ s :: post ∧ s.id = id ∧ ∀ t ∈ pre, t.id ≠ id

/-- What is to be shown for one identifier. -/
inductive Shows (sorted : List Str → List Str) (resume : Bool) (load : Entry → Resumed J) (l : List Entry) :
    Str → List Line → Prop
  | unknown {id} : (∀ s ∈ l, s.id ≠ id) → Shows sorted resume load l id [.unknown id]
  | unsaved {id s} : First l id s → s.loaded = .empty →
      Shows sorted resume load l id [.header id, .location s.location]
  | saved {id s m} : First l id s → Holds J s.toStored m → resume = false →
      Shows sorted resume load l id [.header id, .location s.location, .app m.appId, .blob m.blob, .title m.title,
        .flags (sorted m.flags), .running m.running, .size s.size]
  | resumed {id s m} : First l id s → Holds J s.toStored m → resume = true → load s = .done →
      Shows sorted resume load l id [.header id, .location s.location, .app m.appId, .blob m.blob, .title m.title,
        .flags (sorted m.flags), .running m.running, .size s.size, .resuming id, .resumed]
  | refused {id s m} : First l id s → Holds J s.toStored m → resume = true → load s = .refused →
      Shows sorted resume load l id [.header id, .location s.location, .app m.appId, .blob m.blob, .title m.title,
        .flags (sorted m.flags), .running m.running, .size s.size, .resuming id, .failed]

/-- A session can be read, and resuming it, if asked for, ends well or with a `SessionResumeError`. -/
def Readable (J : Type) (resume : Bool) (load : Entry → Resumed J) (s : Entry) : Prop :=
  s.loaded = .empty ∨ (∃ m, Holds J s.toStored m) ∧ (resume = true → ∀ e, load s ≠ .raises e)

/-! ## Lemmas -/

theorem lookup_none {l : List Entry} {id : Str} : lookup id l = none ↔ ∀ s ∈ l, s.id ≠ id := by
  induction l with
  | nil => simp [lookup]
  | cons s l ih => by_cases h : s.id = id <;> simp [lookup, h, ih]

theorem lookup_some {l : List Entry} {id : Str} {s : Entry} : lookup id l = some s ↔ First l id s := by
  induction l with
  | nil =>
    simp only [lookup, reduceCtorEq, false_iff]
    rintro ⟨pre, post, h, -⟩
    simp at h
  | cons t l ih =>
    by_cases h : t.id = id
    · simp only [lookup, h, if_true, Option.some.injEq]
      constructor
      · rintro rfl; exact ⟨[], l, rfl, h, by simp⟩
      · rintro ⟨pre, post, e, hs, hp⟩
        cases pre with
        | nil => simp at e; exact e.1
        | cons a pre =>
          simp at e
          exact (hp a (by simp) (e.1 ▸ h)).elim
    · simp only [lookup, h, if_false, ih]
      constructor
      · rintro ⟨pre, post, e, hs, hp⟩
        refine ⟨t :: pre, post, by simp [e], hs, ?_⟩
        intro x hx
        rcases List.mem_cons.1 hx with rfl | hx
        · exact h
        · exact hp x hx
      · rintro ⟨pre, post, e, hs, hp⟩
        cases pre with
        | nil => simp at e; exact (h (e.1 ▸ hs)).elim
        | cons a pre =>
          simp at e
          exact ⟨pre, post, e.2, hs, fun x hx => hp x (by simp [hx])⟩

theorem showOne_shows {sorted : List Str → List Str} {resume : Bool} {load : Entry → Resumed J} {l : List Entry} {id : Str}
    (h : ∀ s, First l id s → Readable J resume load s) :
    (showOne sorted resume load l id).2 = none ∧ Shows sorted resume load l id (showOne sorted resume load l id).1 := by
  unfold showOne
  cases hl : lookup id l with
  | none => exact ⟨rfl, .unknown (lookup_none.1 hl)⟩
  | some s =>
    have hf := lookup_some.1 hl
    have hid : s.id = id := by obtain ⟨_, _, _, h, _⟩ := hf; exact h
    rcases h s hf with he | ⟨⟨m, d, hd, hp⟩, hr⟩
    · dsimp only
      rw [he]
      exact ⟨rfl, .unsaved hf he⟩
    · dsimp only
      rw [hd]
      dsimp only
      rw [hp]
      dsimp only
      cases resume with
      | false => exact ⟨rfl, .saved hf ⟨d, hd, hp⟩ rfl⟩
      | true =>
        simp only [if_true, resumeLines]
        cases hL : load s with
        | raises e => exact (hr rfl e hL).elim
        | done =>
          dsimp only
          rw [hid]
          exact ⟨rfl, .resumed hf ⟨d, hd, hp⟩ rfl hL⟩
        | refused =>
          dsimp only
          rw [hid]
          exact ⟨rfl, .refused hf ⟨d, hd, hp⟩ rfl hL⟩

/-! ## Property -/

/-- **C142**: each identifier is shown in turn, as it is to be shown. Missing: sessions that cannot be read, or that end
resuming with an exception that is no `SessionResumeError`, see `C142_stops`. -/
theorem C142_show_partial (sorted : List Str → List Str) (resume : Bool) (load : Entry → Resumed J) (l : List Entry)
    (ids : List Str) (h : ∀ id ∈ ids, ∀ s, First l id s → Readable J resume load s) :
    (showAll sorted resume load l ids).2 = none ∧
      ∃ blocks, List.Forall₂ (Shows sorted resume load l) ids blocks ∧
        (showAll sorted resume load l ids).1 = blocks.flatten := by
  induction ids with
  | nil => exact ⟨rfl, [], .nil, rfl⟩
  | cons id ids ih =>
    obtain ⟨h1, h2⟩ := showOne_shows (sorted := sorted) (h id (by simp))
    obtain ⟨i1, bs, i2, i3⟩ := ih fun x hx => h x (by simp [hx])
    unfold showAll
    generalize showOne sorted resume load l id = r at h1 h2
    obtain ⟨ls, e⟩ := r
    dsimp only at h1 h2
    subst h1
    exact ⟨i1, ls :: bs, .cons h2 i2, by simp [i3]⟩

/-- **C142**: the first session that cannot be read ends the command with the exception, after its location was shown:
those after it are not shown. Likewise one that ends resuming with another exception, after all that is known of it. -/
theorem C142_stops (sorted : List Str → List Str) (resume : Bool) (load : Entry → Resumed J) (l : List Entry)
    (pre post : List Str) (id : Str) (s : Entry) (h : ∀ i ∈ pre, ∀ s, First l i s → Readable J resume load s)
    (hs : First l id s) :
    (s.loaded = .oserror → showAll sorted resume load l (pre ++ id :: post) =
      ((showAll sorted resume load l pre).1 ++ [.header id, .location s.location], some (.peek .oserror))) ∧
    (∀ d e, s.loaded = .data d → peek (J := J) d = .error e → showAll sorted resume load l (pre ++ id :: post) =
      ((showAll sorted resume load l pre).1 ++ [.header id, .location s.location], some (.peek (.peek e)))) ∧
    (∀ m e, Holds J s.toStored m → resume = true → load s = .raises e → showAll sorted resume load l (pre ++ id :: post) =
      ((showAll sorted resume load l pre).1 ++ [.header id, .location s.location, .app m.appId, .blob m.blob, .title m.title,
        .flags (sorted m.flags), .running m.running, .size s.size, .resuming id], some (.resume e))) := by
  induction pre with
  | nil =>
    have hl := lookup_some.2 hs
    have hid : s.id = id := by obtain ⟨_, _, _, h, _⟩ := hs; exact h
    refine ⟨?_, ?_, ?_⟩
    · intro he
      simp [showAll, showOne, hl, he]
    · intro d e hd hp
      simp [showAll, showOne, hl, hd, hp]
    · rintro m e ⟨d, hd, hp⟩ hr hL
      simp [showAll, showOne, hl, hd, hp, hr, resumeLines, hL, metaLines, hid]
  | cons i pre ih =>
    obtain ⟨h1, -⟩ := showOne_shows (sorted := sorted) (h i (by simp))
    obtain ⟨i1, i2, i3⟩ := ih fun x hx => h x (by simp [hx])
    have e : ∀ r, showAll sorted resume load l (i :: r) = ((showOne sorted resume load l i).1 ++ (showAll sorted resume load l r).1,
        (showAll sorted resume load l r).2) := by
      intro r
      rw [showAll]
      generalize showOne sorted resume load l i = q at h1
      obtain ⟨ls, e⟩ := q
      dsimp only at h1
      subst h1
      rfl
    rw [List.cons_append, e, e]
    refine ⟨?_, ?_, ?_⟩
    · intro he; rw [i1 he]; simp
    · intro d e hd hp; rw [i2 d e hd hp]; simp
    · intro m e hm hr hL; rw [i3 m e hm hr hL]; simp

/-- **C142**: of a session that was saved in the present format, the application, the blob, the title, the flags and the
job that was running are shown as they were when it was saved. -/
theorem C142_details (sorted : List Str → List Str) (hso : ∀ l f, f ∈ sorted l ↔ f ∈ l) (load : Entry → Resumed J)
    (l : List Entry) (id : Str) (s : Entry) (jobs results desired mandatory : Json) (m : Meta) (hs : First l id s)
    (hd : s.loaded = .data (.json (writeDoc sorted 6 jobs results desired mandatory m))) :
    ∃ fs, (∀ f, f ∈ fs ↔ f ∈ m.flags) ∧ showAll sorted false load l [id] =
      ([.header id, .location s.location, .app m.appId, .blob m.blob, .title m.title, .flags fs, .running m.running,
        .size s.size], none) := by
  obtain ⟨m', hm, -, h⟩ := Peek.C89_saved (J := J) hso 6 (by omega) jobs results desired mandatory m
  obtain ⟨h1, h2, h3, h4, h5⟩ := h rfl
  refine ⟨sorted m'.flags, fun f => ?_, ?_⟩
  · rw [hso, h2]
  · have hl := lookup_some.2 hs
    simp [showAll, showOne, hl, hd, hm, metaLines, h1, h3, h4, h5]

/-- **C142**: archiving takes exactly the directory of the session, under its own name, and no archive is made if there is
no such session. -/
theorem C142_archive (l : List Entry) (id name : Str) :
    (archive l id name = none ↔ ∀ s ∈ l, s.id ≠ id) ∧
    ∀ s dir base, First l id s → s.location = dir ++ '/' :: base → '/' ∉ base → dir ≠ [] → dir.getLast? ≠ some '/' →
      ∃ a, archive l id name = some a ∧ a.rootDir = dir ∧ a.baseDir = base ∧ a.file = name ++ ".tar.gz".toList := by
  constructor
  · unfold archive
    rw [← lookup_none]
    cases lookup id l <;> simp
  · intro s dir base hs hl hb hd hd'
    refine ⟨⟨name, dir, base⟩, ?_, rfl, rfl, rfl⟩
    simp only [archive, lookup_some.2 hs, hl]
    rw [Path.dirname_slash hb hd hd', Path.basename_slash hb]

/-! ## Examples and violations -/

/-- A good session. -/
def good : Entry := ⟨⟨"s1".toList, .data (.json Peek.exDoc)⟩, "/h/s1.session".toList, 700⟩

/-- One that was not saved yet, one whose file is cut short, and a good one. -/
def stored : List Entry := [⟨⟨"s0".toList, .empty⟩, "/h/s0.session".toList, 0⟩,
  ⟨⟨"s2".toList, .data .truncated⟩, "/h/s2.session".toList, 99⟩, good]

/-- Resuming is refused. -/
def noResume : Entry → Resumed Nat := fun _ => .refused

/-- An unknown session, one that was not saved yet, and one that cannot be resumed. -/
example : (showAll List.reverse true noResume stored ["x".toList, "s0".toList, "s1".toList]).1 =
    [.unknown "x".toList, .header "s0".toList, .location "/h/s0.session".toList, .header "s1".toList,
      .location "/h/s1.session".toList, .app (some "app".toList), .blob (some [104, 105]), .title (some "plan".toList),
      .flags ["incomplete".toList, "submitted".toList], .running (some "a::job".toList), .size 700,
      .resuming "s1".toList, .failed] ∧
    (showAll List.reverse true noResume stored ["x".toList, "s0".toList, "s1".toList]).2.isNone = true := by
  decide +kernel

/-- The archive of a session. -/
example : archive stored "s1".toList "out".toList = some ⟨"out".toList, "/h".toList, "s1.session".toList⟩ := by decide +kernel

/-- **C142**, violated: not all sessions that were asked for are shown: a file that is cut short hides the next one. -/
theorem C142_hidden_violated : ¬ ∀ (l : List Entry) (ids : List Str), ∀ id ∈ ids,
    Line.header id ∈ (showAll List.reverse false noResume l ids).1 ∨ Line.unknown id ∈ (showAll List.reverse false noResume l ids).1 := by
  intro h
  have := h stored ["s2".toList, "s1".toList] "s1".toList (by simp)
  revert this
  decide +kernel

/-- **C142**, violated: of a session that was not saved yet nothing is said about resuming, although this was asked for. -/
theorem C142_unsaved_violated : ∃ (l : List Entry) (id : Str), (∃ s, First l id s) ∧
    ∀ load : Entry → Resumed Nat, (showAll List.reverse true load l [id]).2 = none ∧
      ∀ x ∈ (showAll List.reverse true load l [id]).1, x ≠ .resuming id ∧ x ≠ .resumed ∧ x ≠ .failed := by
  refine ⟨stored, "s0".toList, ⟨_, lookup_some.1 rfl⟩, fun load => ⟨rfl, ?_⟩⟩
  intro x hx
  have : (showAll List.reverse true load stored ["s0".toList]).1 = [.header "s0".toList, .location "/h/s0.session".toList] := rfl
  rw [this] at hx
  simp only [List.mem_cons, List.not_mem_nil, or_false] at hx
  rcases hx with rfl | rfl <;> simp

/-- **C142**, violated: there are stored sessions that cannot be shown, since the identifier is the name of the directory
without what follows the last dot (`SessionStorage.id`, plainbox/impl/session/storage.py 209-213), and the first counts. -/
theorem C142_twin_violated : ∃ (l : List Entry) (t : Entry), t ∈ l ∧ (l.map (·.location)).Nodup ∧
    (∀ s ∈ l, s.id = Export.splitextRoot (Path.basename s.location)) ∧
    ∀ id resume (load : Entry → Resumed Nat),
      Line.location t.location ∉ (showAll List.reverse resume load l [id]).1 ∧ ∀ name a, archive l id name = some a → a.baseDir ≠ Path.basename t.location := by
  refine ⟨[⟨⟨"a".toList, .empty⟩, "/h/a.session".toList, 0⟩, ⟨⟨"a".toList, .empty⟩, "/h/a.backup".toList, 0⟩],
    ⟨⟨"a".toList, .empty⟩, "/h/a.backup".toList, 0⟩, by simp, by decide +kernel, ?_, ?_⟩
  · intro s hs
    simp only [List.mem_cons, List.not_mem_nil, or_false] at hs
    rcases hs with rfl | rfl <;> decide +kernel
  · intro id resume load
    by_cases h : "a".toList = id
    · subst h
      refine ⟨?_, ?_⟩
      · have e : (showAll List.reverse resume load [⟨⟨"a".toList, .empty⟩, "/h/a.session".toList, 0⟩,
            ⟨⟨"a".toList, .empty⟩, "/h/a.backup".toList, 0⟩] ["a".toList]).1 =
            [.header "a".toList, .location "/h/a.session".toList] := rfl
        rw [e]
        decide +kernel
      · intro name a ha
        have e : archive [⟨⟨"a".toList, .empty⟩, "/h/a.session".toList, 0⟩,
            ⟨⟨"a".toList, .empty⟩, "/h/a.backup".toList, 0⟩] "a".toList name = some ⟨name, "/h".toList, "a.session".toList⟩ := rfl
        rw [e] at ha
        cases ha
        show "a.session".toList ≠ Path.basename "/h/a.backup".toList
        decide +kernel
    · have e : lookup id [⟨⟨"a".toList, .empty⟩, "/h/a.session".toList, 0⟩,
          ⟨⟨"a".toList, .empty⟩, "/h/a.backup".toList, 0⟩] = none := by
        rw [lookup, if_neg h, lookup, if_neg h, lookup]
      refine ⟨?_, ?_⟩
      · rw [showAll, showOne, e]
        intro hx
        rcases List.mem_append.1 hx with hx | hx
        · cases List.mem_singleton.1 hx
        · cases hx
      · intro name a ha
        rw [archive, e] at ha
        cases ha

end Verif.ShowCmd
