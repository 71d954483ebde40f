import Verif.Model.Enumerate
import Verif.Props.Content
import Verif.Props.Leftover

/-!
# C109: A provider knows all files in its directories, each of them once
-/

namespace Verif.Enumerate

open Verif.Path
open Verif.Leftover (Tree filenames walk relpath Kind At Seen Proper Open spell join_good good_join spell_cons at_ne seen_at at_seen
  relpath_of mem_filenames)
open Verif.Classify (Dirs)

/-! ## Specification -/

/-- The path is that of a regular file that can be reached from the directory without following links. -/
def Holds (k : Disk) (top x : Str) : Prop :=
  ∃ t p, k.tree top = some t ∧ Seen t p .file ∧ x = top ++ '/' :: spell p ∧ k.isfile x = true

/-- The directory along these names, what it has, all of it being readable. -/
inductive Inside : Tree → List Str → Tree → Prop
  | here (n i r) : Inside (.dir n true i r) [n] i
  | inner (n i r) {p t} : Inside i p t → Inside (.dir n true i r) (n :: p) t
  | restF (n r) {p t} : Inside r p t → Inside (.file n r) p t
  | restL (n r) {p t} : Inside r p t → Inside (.link n r) p t
  | restD (n b i r) {p t} : Inside r p t → Inside (.dir n b i r) p t

/-- Directories as they are given: not ending with a slash, and with entries as file systems have them. -/
def Sane (k : Disk) (top : Str) : Prop := Leftover.Good top ∧ ∀ t, k.tree top = some t → Proper t

/-- The directories that a provider without base directory has. -/
def Has (d : Dirs) (locale : Option Str) (top : Str) : Prop :=
  d.units = some top ∨ d.jobs = some top ∨ d.data = some top ∨ d.bin = some top ∨ locale = some top

/-! ## Lemmas -/

theorem mem_given (o : Option Str) (x : Str) : x ∈ given o ↔ o = some x ∧ x ≠ [] := by
  unfold given
  cases o with
  | none => simp
  | some d =>
    show x ∈ (if d = [] then [] else [d]) ↔ _
    by_cases h : d = []
    · rw [if_pos h]
      exact ⟨nofun, fun ⟨h1, h2⟩ => absurd (Option.some.inj h1 ▸ h) h2⟩
    · rw [if_neg h, List.mem_singleton, Option.some.injEq]
      constructor
      · intro e; exact ⟨e.symm, e ▸ h⟩
      · intro e; exact e.1.symm

theorem mem_walk {top : Str} (hg : Leftover.Good top) {t : Tree} (hp : Proper t) (y : Str) :
    (y ∈ (filenames t).map (join top) ∨ ∃ x ∈ walk top t, ∃ n ∈ x.2, y = join x.1 n) ↔
      ∃ p, Seen t p .file ∧ y = top ++ '/' :: spell p := by
  induction t generalizing top with
  | nil =>
    constructor
    · rintro (h | ⟨x, h, _⟩) <;> cases h
    · rintro ⟨p, h, _⟩; cases h
  | file m r ih =>
    have hr := ih hg fun p k h => hp p k (.restF _ _ h)
    have hm := hp _ _ (.file m r) m (by simp)
    rw [filenames, walk, List.map_cons, List.mem_cons, or_assoc, hr]
    constructor
    · rintro (h | ⟨p, h, e⟩)
      · exact ⟨[m], .file _ _, by rw [h, join_good hg hm.2]; rfl⟩
      · exact ⟨p, .restF _ _ h, e⟩
    · rintro ⟨p, h, e⟩
      cases h with
      | file => exact .inl (by rw [e, join_good hg hm.2]; rfl)
      | restF _ _ h => exact .inr ⟨p, h, e⟩
  | link m r ih =>
    rw [filenames, walk, ih hg fun p k h => hp p k (.restL _ _ h)]
    constructor
    · rintro ⟨p, h, e⟩; exact ⟨p, .restL _ _ h, e⟩
    · rintro ⟨p, h, e⟩
      cases h with
      | restL _ _ h => exact ⟨p, h, e⟩
  | dir m b i r ihi ihr =>
    have hr := ihr hg fun p k h => hp p k (.restD _ _ _ _ h)
    have hn := hp _ _ (.dir m b i r) m (by simp)
    have hpi : Proper i := fun p k h m' hm => hp _ _ (.inner m b i r h) m' (List.mem_cons_of_mem _ hm)
    have hj := join_good hg hn.2
    have hg' : Leftover.Good (join top m) := hj ▸ good_join hn.1 hn.2
    have hi := ihi hg' hpi
    have down : ∀ p, Seen i p .file → join top m ++ '/' :: spell p = top ++ '/' :: spell (m :: p) := by
      intro p h
      rw [spell_cons m (at_ne (seen_at h).1), hj]
      simp
    rw [filenames, walk]
    constructor
    · rintro (h | ⟨x, hx, n, hn, e⟩)
      · obtain ⟨p, h, e⟩ := hr.1 (.inl h)
        exact ⟨p, .restD _ _ _ _ h, e⟩
      · rcases List.mem_append.1 hx with hx | hx
        · cases b with
          | false => cases hx
          | true =>
            obtain ⟨p, h, e⟩ := hi.1 (by
              rcases List.mem_cons.1 hx with hx | hx
              · subst hx
                exact .inl (e ▸ List.mem_map_of_mem hn)
              · exact .inr ⟨x, hx, n, hn, e⟩)
            exact ⟨m :: p, .inner _ _ _ h, by rw [e, down p h]⟩
        · obtain ⟨p, h, e⟩ := hr.1 (.inr ⟨x, hx, n, hn, e⟩)
          exact ⟨p, .restD _ _ _ _ h, e⟩
    · rintro ⟨p, h, e⟩
      cases h with
      | inner _ _ _ h =>
        rcases hi.2 ⟨_, h, e.trans (down _ h).symm⟩ with h | ⟨x, hx, n, hn, e⟩
        · obtain ⟨n, hn, e⟩ := List.mem_map.1 h
          exact .inr ⟨_, List.mem_append_left _ (List.mem_cons_self), n, hn, e.symm⟩
        · exact .inr ⟨x, List.mem_append_left _ (List.mem_cons_of_mem _ hx), n, hn, e⟩
      | restD _ _ _ _ h =>
        rcases hr.2 ⟨_, h, e⟩ with h | ⟨x, hx, h⟩
        · exact .inl h
        · exact .inr ⟨x, List.mem_append_right _ hx, h⟩

theorem seen_head {t : Tree} (hp : Proper t) {p : List Str} {k : Kind} (h : At t p k) : (spell p).head? ≠ some '/' := by
  have hh := hp p k h
  cases p with
  | nil => exact nofun
  | cons n p =>
    obtain ⟨h1, h2⟩ := hh n (by simp)
    cases n with
    | nil => exact absurd rfl h1
    | cons c n =>
      intro e
      have : c = '/' := by
        cases p <;> simpa [spell] using e
      exact h2 (by simp [this])

theorem join_top {top s : Str} (hg : Leftover.Good top) (hs : s.head? ≠ some '/') : join top s = top ++ '/' :: s := by
  unfold join
  rw [if_neg hs, if_neg]
  rintro (h | h)
  · exact hg.1 h
  · exact hg.2 h

theorem mem_listed {k : Disk} {top : Str} (hs : Sane k top) (e : Str) :
    e ∈ listed k top ↔ ∃ t p, k.tree top = some t ∧ Seen t p .file ∧ e = spell p := by
  unfold listed
  cases ht : k.tree top with
  | none => exact ⟨nofun, fun ⟨t, _, h, _⟩ => by cases h⟩
  | some t =>
    have hm := mem_walk hs.1 (hs.2 t ht)
    have : e ∈ entries top ((top, filenames t) :: walk top t) ↔
        ∃ y, (y ∈ (filenames t).map (join top) ∨ ∃ x ∈ walk top t, ∃ n ∈ x.2, y = join x.1 n) ∧ e = relpath top y := by
      unfold entries
      rw [List.mem_flatMap]
      constructor
      · rintro ⟨x, hx, he⟩
        obtain ⟨n, hn, rfl⟩ := List.mem_map.1 he
        rcases List.mem_cons.1 hx with hx | hx
        · subst hx
          exact ⟨_, .inl (List.mem_map_of_mem hn), rfl⟩
        · exact ⟨_, .inr ⟨x, hx, n, hn, rfl⟩, rfl⟩
      · rintro ⟨y, h | ⟨x, hx, n, hn, rfl⟩, rfl⟩
        · obtain ⟨n, hn, rfl⟩ := List.mem_map.1 h
          exact ⟨_, List.mem_cons_self, List.mem_map.2 ⟨n, hn, rfl⟩⟩
        · exact ⟨x, List.mem_cons_of_mem _ hx, List.mem_map.2 ⟨n, hn, rfl⟩⟩
    show e ∈ entries top ((top, filenames t) :: walk top t) ↔ _
    rw [this]
    constructor
    · rintro ⟨y, hy, rfl⟩
      obtain ⟨p, hp, rfl⟩ := (hm y).1 hy
      exact ⟨t, p, rfl, hp, relpath_of _ _⟩
    · rintro ⟨t', p, h, hp, rfl⟩
      cases h
      exact ⟨_, (hm _).2 ⟨p, hp, rfl⟩, (relpath_of _ _).symm⟩

theorem mem_found {k : Disk} {dirs : List Str} (hs : ∀ d ∈ dirs, Sane k d) (x : Str) :
    x ∈ found k dirs ↔ ∃ d ∈ dirs, Holds k d x := by
  unfold found
  rw [Plugins.C64_files]
  constructor
  · rintro ⟨dir, es, e, hd, he, hx, hf, _⟩
    obtain ⟨d, hdm, hde⟩ := List.mem_map.1 hd
    obtain ⟨e1, e2⟩ := Prod.mk.inj hde
    subst e1
    cases Option.some.inj e2
    obtain ⟨t, p, ht, hp, rfl⟩ := (mem_listed (hs d hdm) e).1 he
    refine ⟨d, hdm, t, p, ht, hp, ?_, hf⟩
    rw [hx, join_top (hs d hdm).1 (seen_head ((hs d hdm).2 t ht) (seen_at hp).1)]
  · rintro ⟨d, hd, t, p, ht, hp, hx, hf⟩
    refine ⟨d, listed k d, spell p, List.mem_map_of_mem hd, (mem_listed (hs d hd) _).2 ⟨t, p, ht, hp, rfl⟩, ?_, hf, trivial⟩
    rw [hx, join_top (hs d hd).1 (seen_head ((hs d hd).2 t ht) (seen_at hp).1)]

theorem spell_append (p : List Str) {q : List Str} (hp : p ≠ []) (hq : q ≠ []) : spell (p ++ q) = spell p ++ '/' :: spell q := by
  induction p with
  | nil => exact absurd rfl hp
  | cons n p ih =>
    cases p with
    | nil => exact spell_cons n hq
    | cons m p =>
      rw [List.cons_append, spell_cons n (by simp), ih (by simp), spell_cons n (by simp)]
      simp

theorem inside_seen {t t' : Tree} {p q : List Str} {k : Kind} (h : Inside t p t') (hs : Seen t' q k) : Seen t (p ++ q) k := by
  induction h with
  | here n i r => exact .inner _ _ _ hs
  | inner n i r _ ih => exact .inner _ _ _ (ih hs)
  | restF _ _ _ ih => exact .restF _ _ (ih hs)
  | restL _ _ _ ih => exact .restL _ _ (ih hs)
  | restD _ _ _ _ _ ih => exact .restD _ _ _ _ (ih hs)

theorem inside_ne {t t' : Tree} {p : List Str} (h : Inside t p t') : p ≠ [] := by
  induction h <;> simp_all

/-! ## C109 -/

/-- **C109, part 1.** A provider without base directory has exactly the regular files that can be reached from its directories for
units, jobs, data, programs and translations. -/
theorem C109_packaged (k : Disk) (d : Dirs) (locale : Option Str) (hb : d.base = none ∨ d.base = some [])
    (hs : ∀ top, Has d locale top → top ≠ [] → Sane k top) (x : Str) :
    x ∈ files k d locale ↔ ∃ top, Has d locale top ∧ top ≠ [] ∧ Holds k top x := by
  have hm : ∀ y, y ∈ dirList d locale ↔ Has d locale y ∧ y ≠ [] := by
    intro y
    unfold dirList Has
    rw [if_neg (by rcases hb with h | h <;> simp [h, given])]
    simp only [List.mem_append, mem_given]
    constructor
    · rintro ((((h | h) | h) | h) | h) <;> simp [h]
    · rintro ⟨h | h | h | h | h, hn⟩ <;> simp [h, hn]
  unfold files
  rw [(Content.C65_order _).1, mem_found (fun y hy => hs y ((hm y).1 hy).1 ((hm y).1 hy).2)]
  constructor
  · rintro ⟨y, hy, h⟩; exact ⟨y, ((hm y).1 hy).1, ((hm y).1 hy).2, h⟩
  · rintro ⟨y, h1, h2, h⟩; exact ⟨y, (hm y).2 ⟨h1, h2⟩, h⟩

/-- The directories below the base directory that are looked at once more. -/
def again : List (List Str) := [["src".toList], ["build".toList, "bin".toList], ["build".toList, "mo".toList]]

theorem dirList_base {d : Dirs} {locale : Option Str} {b : Str} (hb : d.base = some b) (hg : Leftover.Good b) (y : Str) :
    y ∈ dirList d locale ↔ y = b ∨ ∃ p ∈ again, y = b ++ '/' :: spell p := by
  have e1 : join b "src".toList = b ++ '/' :: spell ["src".toList] := join_good hg (by decide)
  have e2 : join b "build".toList = b ++ '/' :: "build".toList := join_good hg (by decide)
  have e3 : ∀ n : Str, '/' ∉ n → join (b ++ '/' :: "build".toList) n = b ++ '/' :: spell ["build".toList, n] := by
    intro n hn
    rw [join_good (good_join (by decide) (by decide)) hn]
    simp [spell]
  unfold dirList
  rw [if_pos (by simp [hb, given, hg.1])]
  unfold Dirs.src Dirs.buildBin Dirs.buildMo
  simp only [List.mem_append, mem_given, hb, Option.map_some, e1, e2, e3 _ (show '/' ∉ "bin".toList by decide),
    e3 _ (show '/' ∉ "mo".toList by decide), Option.some.injEq, again, List.mem_cons, List.not_mem_nil, or_false]
  constructor
  · rintro (((⟨h, _⟩ | ⟨h, _⟩) | ⟨h, _⟩) | ⟨h, _⟩)
    · exact .inl h.symm
    · exact .inr ⟨_, .inl rfl, h.symm⟩
    · exact .inr ⟨_, .inr (.inl rfl), h.symm⟩
    · exact .inr ⟨_, .inr (.inr rfl), h.symm⟩
  · rintro (h | ⟨p, h | h | h, e⟩)
    · exact .inl (.inl (.inl ⟨h.symm, h ▸ hg.1⟩))
    · subst h; exact .inl (.inl (.inr ⟨e.symm, by simp [e]⟩))
    · subst h; exact .inl (.inr ⟨e.symm, by simp [e]⟩)
    · subst h; exact .inr ⟨e.symm, by simp [e]⟩

/-- **C109, part 2.** A provider with a base directory has exactly the regular files that can be reached from there, and those
reached from `src`, `build/bin` and `build/mo` in it, should these be links. -/
theorem C109_source (k : Disk) (d : Dirs) (locale : Option Str) (b : Str) (hb : d.base = some b) (hs : Sane k b)
    (hs' : ∀ p ∈ again, Sane k (b ++ '/' :: spell p)) (x : Str) :
    x ∈ files k d locale ↔ Holds k b x ∨ ∃ p ∈ again, Holds k (b ++ '/' :: spell p) x := by
  have hm := dirList_base (locale := locale) hb hs.1
  unfold files
  rw [(Content.C65_order _).1, mem_found (by
    intro y hy
    rcases (hm y).1 hy with rfl | ⟨p, hp, rfl⟩
    · exact hs
    · exact hs' p hp)]
  constructor
  · rintro ⟨y, hy, h⟩
    rcases (hm y).1 hy with rfl | ⟨p, hp, rfl⟩
    · exact .inl h
    · exact .inr ⟨p, hp, h⟩
  · rintro (h | ⟨p, hp, h⟩)
    · exact ⟨b, (hm b).2 (.inl rfl), h⟩
    · exact ⟨_, (hm _).2 (.inr ⟨p, hp, rfl⟩), h⟩

/-- **C109, part 3.** If these are ordinary directories, what is in them counts as what is in the base directory, and nothing
more. -/
theorem C109_base (k : Disk) (d : Dirs) (locale : Option Str) (b : Str) (hb : d.base = some b) (hs : Sane k b)
    (hs' : ∀ p ∈ again, Sane k (b ++ '/' :: spell p))
    (hi : ∀ p ∈ again, ∀ t', k.tree (b ++ '/' :: spell p) = some t' → ∃ t, k.tree b = some t ∧ Inside t p t') (x : Str) :
    x ∈ files k d locale ↔ Holds k b x := by
  rw [C109_source k d locale b hb hs hs']
  constructor
  · rintro (h | ⟨p, hp, t', q, ht', hq, hx, hf⟩)
    · exact h
    · obtain ⟨t, ht, hin⟩ := hi p hp t' ht'
      refine ⟨t, p ++ q, ht, inside_seen hin hq, ?_, hf⟩
      rw [hx, spell_append p (inside_ne hin) (at_ne (seen_at hq).1)]
      simp
  · exact .inl

/-- **C109, part 4.** No file is there twice, and they are in the order of their paths. -/
theorem C109_once (k : Disk) (d : Dirs) (locale : Option Str) :
    (files k d locale).Nodup ∧ (files k d locale).Pairwise (fun a b => Sort.strLe a b = true) :=
  (Content.C65_order _).2

/-- **C109, part 5.** Every regular file in a directory is reached. Partial: only if all directories in it can be read, and not
through links. -/
theorem C109_complete_partial (k : Disk) (top : Str) (t : Tree) (ht : k.tree top = some t) (ho : Open t) (p : List Str)
    (hp : At t p .file) (hf : k.isfile (top ++ '/' :: spell p) = true) : Holds k top (top ++ '/' :: spell p) :=
  ⟨t, p, ht, at_seen hp ho nofun, rfl, hf⟩

/-- **C109, part 6.** All units that are defined in files called `.pxu` in the directories for units and jobs are there, if the
file defining them is well formed, and all files can be opened. -/
theorem C109_units {R U : Type} (w : Content.World R U) (k : Disk) (d : Dirs) (fs : Classify.Fs) (locale : Option Str)
    (check validate : Bool) (hb : d.base = none) (hs : ∀ top, Has d locale top → top ≠ [] → Sane k top)
    (hw : w.classify = Classify.classify d fs) (hc : ∀ f ∈ files k d locale, ¬ ['/', '/'] <+: f ∧ fs.hashBang f ≠ none)
    (top x : Str) (hu : d.units = some top ∨ d.jobs = some top) (hn : top ≠ []) (hx : Holds k top x)
    (he : HasExt x ".pxu".toList) (us : List U) (hg : Content.Good w check validate x us) :
    let r := Content.ensure w check validate (found k (dirList d locale)) Content.new
    r.2 = false ∧ (∀ u ∈ us, .decl u ∈ r.1.units) ∧ ∃ b, .file x .unitSource b ∈ r.1.units := by
  have hfc : ∀ f, f ∈ files k d locale ↔ f ∈ found k (dirList d locale) := (Content.C65_order _).1
  have hcl := Content.C65_classifiable w d fs (found k (dirList d locale)) hw fun f hf => hc f ((hfc f).2 hf)
  have hin : x ∈ found k (dirList d locale) :=
    (hfc x).1 ((C109_packaged k d locale (.inl hb) hs x).2
      ⟨top, by rcases hu with h | h <;> simp [Has, h], hn, hx⟩)
  have hpre : top <+: x := by
    obtain ⟨t, p, _, _, e, _⟩ := hx
    exact ⟨_, e.symm⟩
  have hcls : ∃ b, w.classify x = .found .unitSource b .units := by
    rw [hw]
    by_cases hj : Classify.JobsSrc d x
    · obtain ⟨y, h1, h2⟩ := hj
      exact ⟨some y, (Classify.C66_source d fs x _ _).2 ⟨rfl, .inl ⟨y, rfl, h1, h2⟩⟩⟩
    · rcases hu with hu | hu
      · exact ⟨some top, (Classify.C66_source d fs x _ _).2 ⟨rfl, .inr ⟨hj, top, rfl, ⟨hu, hn, hpre⟩, .inr he⟩⟩⟩
      · exact absurd ⟨top, ⟨hu, hn, hpre⟩, .inr (.inr he)⟩ hj
  obtain ⟨b, hb'⟩ := hcls
  have h1 := Content.C65_load_partial w check validate _ hcl
  have h2 := Content.C65_isolation_partial w check validate _ hcl x hin _ b hb' us hg
  exact ⟨h1.1, h2.1, b, h2.2.1⟩

/-! ## Examples -/

/-- A file, a directory with a file, a link to a directory, and a directory that cannot be read. -/
def exTree : Tree := .file "a.pxu".toList (.dir "sub".toList true (.file "b.pxu".toList (.file "pipe".toList .nil))
  (.link "more".toList (.dir "secret".toList false (.file "c.pxu".toList .nil) .nil)))

/-- Everything but `pipe` is a regular file. -/
def exDisk (m : List (Str × Tree)) : Disk := ⟨fun x => m.lookup x, fun x => !"pipe".toList.isSuffixOf x⟩

theorem exTree_paths {p : List Str} {k : Kind} (h : At exTree p k) :
    (p = ["a.pxu".toList] ∨ p = ["sub".toList, "b.pxu".toList] ∨ p = ["sub".toList, "pipe".toList] ∨
      p = ["secret".toList, "c.pxu".toList]) ∧ k = .file ∨ p = ["more".toList] ∨ p = ["sub".toList] ∨ p = ["secret".toList] := by
  cases h with
  | file => simp
  | restF _ _ h =>
    cases h with
    | dir => simp
    | inner _ _ _ _ h =>
      cases h with
      | file => simp
      | restF _ _ h =>
        cases h with
        | file => simp
        | restF _ _ h => cases h
    | restD _ _ _ _ h =>
      cases h with
      | link => simp
      | restL _ _ h =>
        cases h with
        | dir => simp
        | inner _ _ _ _ h =>
          cases h with
          | file => simp
          | restF _ _ h => cases h
        | restD _ _ _ _ h => cases h

theorem exTree_proper : Proper exTree := by
  intro p k h
  rcases exTree_paths h with ⟨h | h | h | h, _⟩ | h | h | h <;> subst h <;> decide +kernel

def exUnits : Str := "/u".toList

def exDirs : Dirs := ⟨none, some exUnits, none, none, none⟩

def exK : Disk := exDisk [(exUnits, exTree)]

theorem exK_sane : Sane exK exUnits :=
  ⟨⟨by decide, by decide⟩, fun t h => by
    have : t = exTree := by
      have e : exK.tree exUnits = some exTree := by decide +kernel
      exact Option.some.inj (h.symm.trans e)
    exact this ▸ exTree_proper⟩

theorem exHas {locale : Option Str} (hl : locale = none) (top : Str) (h : Has exDirs locale top) : top = exUnits := by
  subst hl
  rcases h with h | h | h | h | h <;> cases h
  rfl

example : files exK exDirs none = ["/u/a.pxu".toList, "/u/sub/b.pxu".toList] := by decide +kernel

/-- The hypotheses of C109, part 1, and what it says about one file. -/
example : "/u/sub/b.pxu".toList ∈ files exK exDirs none :=
  (C109_packaged exK exDirs none (.inl rfl) (fun top h _ => exHas rfl top h ▸ exK_sane) _).2
    ⟨exUnits, .inl rfl, by decide, exTree, ["sub".toList, "b.pxu".toList], by decide +kernel,
      .restF _ _ (.inner _ _ _ (.file _ _)), by decide +kernel, by decide +kernel⟩

/-- A provider being developed: what is in `src` is found twice. -/
def exBase : Str := "/p".toList

def exSrc : Tree := .file "prog.c".toList .nil

def exBaseTree : Tree := .file "manage.py".toList (.dir "src".toList true exSrc .nil)

def exB : Disk := exDisk [(exBase, exBaseTree), ("/p/src".toList, exSrc)]

theorem exSrc_proper : Proper exSrc := by
  intro p k h
  cases h with
  | file => decide +kernel
  | restF _ _ h => cases h

theorem exBaseTree_proper : Proper exBaseTree := by
  intro p k h
  cases h with
  | file => decide +kernel
  | restF _ _ h =>
    cases h with
    | dir => decide +kernel
    | inner _ _ _ _ h =>
      intro n hn
      rcases List.mem_cons.1 hn with h' | h'
      · subst h'; decide +kernel
      · exact exSrc_proper _ _ h n h'
    | restD _ _ _ _ h => cases h

theorem exB_trees (x : Str) (t : Tree) (h : exB.tree x = some t) :
    x = exBase ∧ t = exBaseTree ∨ x = "/p/src".toList ∧ t = exSrc := by
  have h' : [(exBase, exBaseTree), ("/p/src".toList, exSrc)].lookup x = some t := h
  rw [List.lookup_cons] at h'
  by_cases h1 : x = exBase
  · subst h1
    rw [show (exBase == exBase) = true by decide] at h'
    exact .inl ⟨rfl, (Option.some.inj h').symm⟩
  · rw [show (x == exBase) = false by simpa using h1, List.lookup_cons] at h'
    by_cases h2 : x = "/p/src".toList
    · rw [show (x == "/p/src".toList) = true by simpa using h2] at h'
      exact .inr ⟨h2, (Option.some.inj h').symm⟩
    · rw [show (x == "/p/src".toList) = false by simpa using h2] at h'
      cases h'

theorem exB_sane (x : Str) (hg : Leftover.Good x) : Sane exB x := by
  refine ⟨hg, fun t h => ?_⟩
  rcases exB_trees x t h with ⟨_, rfl⟩ | ⟨_, rfl⟩
  · exact exBaseTree_proper
  · exact exSrc_proper

/-- The hypotheses of C109, parts 2 and 3. -/
example (x : Str) : x ∈ files exB ⟨none, none, none, none, some exBase⟩ none ↔ Holds exB exBase x := by
  refine C109_base exB _ none exBase rfl (exB_sane _ ⟨by decide, by decide⟩) ?_ ?_ x
  · intro p hp
    refine exB_sane _ ?_
    unfold again at hp
    revert p
    unfold Leftover.Good
    decide +kernel
  · intro p hp t' h
    refine ⟨exBaseTree, by decide +kernel, ?_⟩
    simp only [again, List.mem_cons, List.not_mem_nil, or_false] at hp
    rcases hp with hp | hp | hp <;> subst hp
    · have e : exB.tree (exBase ++ '/' :: spell ["src".toList]) = some exSrc := by decide +kernel
      cases Option.some.inj (h.symm.trans e)
      exact .restF _ _ (.here _ _ _)
    · have e : exB.tree (exBase ++ '/' :: spell ["build".toList, "bin".toList]) = none := by decide +kernel
      cases h.symm.trans e
    · have e : exB.tree (exBase ++ '/' :: spell ["build".toList, "mo".toList]) = none := by decide +kernel
      cases h.symm.trans e

example : found exB (dirList ⟨none, none, none, none, some exBase⟩ none) =
    ["/p/manage.py".toList, "/p/src/prog.c".toList, "/p/src/prog.c".toList] ∧
  files exB ⟨none, none, none, none, some exBase⟩ none = ["/p/manage.py".toList, "/p/src/prog.c".toList] := by decide +kernel

/-- The hypotheses of C109, part 5. -/
example : Holds exB exBase "/p/src/prog.c".toList := by
  have := C109_complete_partial exB exBase exBaseTree (by decide +kernel) (by
      intro p b h
      cases h with
      | restF _ _ h =>
        cases h with
        | dir => rfl
        | inner _ _ _ _ h =>
          cases h with
          | restF _ _ h => cases h
        | restD _ _ _ _ h => cases h)
    ["src".toList, "prog.c".toList] (.restF _ _ (.inner _ _ _ _ (.file _ _))) (by decide +kernel)
  rwa [show exBase ++ '/' :: spell ["src".toList, "prog.c".toList] = "/p/src/prog.c".toList by decide +kernel] at this

/-- Every text is that of one unit, which is the path of the file. -/
def exWorld (d : Dirs) (fs : Classify.Fs) : Content.World Str Str where
  classify := Classify.classify d fs
  parse f := .records [f]
  unitName _ := "job".toList
  known _ := true
  make r := .ok r
  check _ := .fine
  validate _ := .fine
  idOf u := some (some u)
  pathOf _ := none

def exFs : Classify.Fs := ⟨fun _ => false, fun _ => some false, fun _ => false⟩

/-- The hypotheses of C109, part 6. -/
example : .decl "/u/sub/b.pxu".toList ∈
    (Content.ensure (exWorld exDirs exFs) true false (found exK (dirList exDirs none)) Content.new).1.units := by
  refine (C109_units (exWorld exDirs exFs) exK exDirs exFs none true false rfl (fun top h _ => exHas rfl top h ▸ exK_sane) rfl
    ?_ exUnits "/u/sub/b.pxu".toList (.inl rfl) (by decide)
    ⟨exTree, ["sub".toList, "b.pxu".toList], by decide +kernel, .restF _ _ (.inner _ _ _ (.file _ _)), by decide +kernel,
      by decide +kernel⟩ ?_ ["/u/sub/b.pxu".toList] ?_).2.1 _ (by simp)
  · intro f hf
    rw [show files exK exDirs none = ["/u/a.pxu".toList, "/u/sub/b.pxu".toList] by decide +kernel] at hf
    revert f
    decide +kernel
  · exact ⟨"/u/sub/".toList, "b".toList, "pxu".toList, by decide +kernel, by decide +kernel, by decide, by decide +kernel,
      by decide, by decide, 'b', by decide, by decide⟩
  · exact ⟨_, rfl, .cons ⟨rfl, rfl, fun _ => rfl, fun _ => rfl⟩ .nil⟩

/-! ## Disagreements -/

/-- The provider has all regular files in its directories for units and jobs, wherever they are. -/
def All (k : Disk) (d : Dirs) : Prop :=
  ∀ top t p, (d.units = some top ∨ d.jobs = some top) → k.tree top = some t → At t p .file →
    k.isfile (top ++ '/' :: spell p) = true → top ++ '/' :: spell p ∈ files k d none

/-- **C109** is violated by directories that cannot be read: nothing tells that something is missing. -/
theorem C109_unreadable_violated (n : Str) (i : Tree) (hi : filenames i ≠ []) :
    let k : Disk := ⟨fun x => if x = exUnits then some (.dir n false i .nil) else none, fun _ => true⟩
    files k exDirs none = [] ∧ ¬ All k exDirs ∧
    (Content.ensure (exWorld exDirs exFs) true false (found k (dirList exDirs none)) Content.new).1.problems = [] := by
  intro k
  have e : found k (dirList exDirs none) = [] := rfl
  have ef : files k exDirs none = [] := by unfold files; rw [e]; rfl
  refine ⟨ef, ?_, by rw [e]; rfl⟩
  intro h
  cases hf : filenames i with
  | nil => exact hi hf
  | cons m l =>
    have := h exUnits (.dir n false i .nil) [n, m] (.inl rfl) rfl
      (.inner _ _ _ _ ((mem_filenames i m).1 (by simp [hf]))) rfl
    rw [ef] at this
    cases this

/-- **C109** is violated by directories given apart from the base directory: they are not looked at. -/
theorem C109_outside_violated :
    let d : Dirs := { exDirs with base := some exBase }
    let k := exDisk [(exUnits, .file "a.pxu".toList .nil), (exBase, .nil)]
    files k d none = [] ∧ files k { d with base := none } none = ["/u/a.pxu".toList] ∧ ¬ All k d := by
  refine ⟨by decide +kernel, by decide +kernel, ?_⟩
  intro h
  have := h exUnits (.file "a.pxu".toList .nil) ["a.pxu".toList] (.inl rfl) (by decide +kernel) (.file _ _) (by decide +kernel)
  revert this
  decide +kernel

/-- **C109** is violated by a directory that is a link to another one: if it is given its files are there twice, if it is in a
directory that is given they are not there at all. -/
theorem C109_link_violated :
    files (exDisk [(exUnits, .file "a.pxu".toList .nil), ("/j".toList, .file "a.pxu".toList .nil)])
      { exDirs with jobs := some "/j".toList } none = ["/j/a.pxu".toList, "/u/a.pxu".toList] ∧
    files (exDisk [(exUnits, .link "more".toList .nil), ("/u/more".toList, .file "a.pxu".toList .nil)]) exDirs none = [] ∧
    files (exDisk [(exBase, .link "src".toList .nil), ("/p/src".toList, .file "prog.c".toList .nil)])
      ⟨none, none, none, none, some exBase⟩ none = ["/p/src/prog.c".toList] := by decide +kernel

end Verif.Enumerate
