import Verif.Model.Build
import Verif.Props.Locate
import Verif.Lemmas.Path
import Verif.Lemmas.Sort

/-!
# C117: `manage.py build` builds the sources of a provider in `build/bin`

What should happen is written down without the scores and the functions that look for files: the command given to `setup()` is used; or
else that of autotools if there is a file `src/configure`, that of make if there is a file `src/Makefile`, and that of go if a file that is
not hidden in `src` ends with `.go`; otherwise nothing is done. The command runs in `build/bin`, made before if need be, and `src` is
reached from there as `../../src`, wherever the provider is.

This is so (`C117_build_partial`, `C117_choice_partial`) unless the name of the provider's directory has one of the characters `*`, `?` and
`[`, when sources of go are looked for in other places (`C117_bracket_violated`, `C117_star_violated`).
-/

namespace Verif.Build

open Verif.Path (Str join dirname basename)
open Verif.Locate (parts collapse common relpath)

/-! ## Specification -/

/-- There is a source of go in a directory. -/
def GoSource (w : Disk) (dir : Str) : Prop := ∃ stem : Str, stem.head? ≠ some '.' ∧ stem ++ ".go".toList ∈ w.names dir ∧ stem ≠ []

/-- A place that can be written in front of a slash and more. -/
def Place (location : Str) : Prop := location ≠ [] ∧ location.getLast? ≠ some '/'

/-- No character with a meaning for `glob`. -/
def Plain (location : Str) : Prop := ∀ c ∈ location, c ≠ '*' ∧ c ≠ '?' ∧ c ≠ '['

/-- The command that has to be run for the sources of the provider at a place, if any. -/
inductive Wants (w : Disk) (location : Str) : Option Str → Prop
  | autotools : w.isfile (location ++ "/src/configure".toList) = true → Wants w location (some "../../src/configure && make".toList)
  | make : w.isfile (location ++ "/src/configure".toList) = false → w.isfile (location ++ "/src/Makefile".toList) = true →
      Wants w location (some "VPATH=../../src make -f ../../src/Makefile".toList)
  | go : w.isfile (location ++ "/src/configure".toList) = false → w.isfile (location ++ "/src/Makefile".toList) = false →
      GoSource w (location ++ "/src".toList) → Wants w location (some "go build ../../src/*.go".toList)
  | nothing : w.isfile (location ++ "/src/configure".toList) = false → w.isfile (location ++ "/src/Makefile".toList) = false →
      ¬ GoSource w (location ++ "/src".toList) → Wants w location none

/-- Go has to be thought of only if there are no other sources; then the place must be plain. -/
def PlainForGo (w : Disk) (location : Str) : Prop :=
  w.isfile (location ++ "/src/configure".toList) = false → w.isfile (location ++ "/src/Makefile".toList) = false → Plain location

/-! ## The best score -/

theorem insert_last {α : Type} (x : α × Int) : ∀ (l : List (α × Int)) (m : α × Int), l.getLast? = some m → (∀ y ∈ l, y.2 ≤ m.2) →
    (Sort.insertBy (fun a b => decide (a.2 ≤ b.2)) x l).getLast? = if x.2 ≤ m.2 then some m else some x
  | [], _, h, _ => by simp at h
  | y :: l, m, h, hl => by
    rw [Sort.insertBy]
    by_cases hxy : x.2 ≤ y.2
    · have hm : x.2 ≤ m.2 := Int.le_trans hxy (hl y (by simp))
      rw [if_pos (by simpa using hxy), if_pos hm]
      simpa using h
    · rw [if_neg (by simpa using hxy)]
      cases l with
      | nil =>
        have : y = m := by simpa using h
        subst this
        rw [if_neg hxy]
        simp [Sort.insertBy]
      | cons z l =>
        have h' : (z :: l).getLast? = some m := by simpa using h
        have := insert_last x (z :: l) m h' (fun a ha => hl a (by simp [ha]))
        rw [← this]
        cases e : Sort.insertBy (fun a b : α × Int => decide (a.2 ≤ b.2)) x (z :: l) with
        | nil =>
          rw [e] at this
          split at this <;> simp at this
        | cons a r => simp

/-- The best is the last of those with the greatest score. -/
def Best {α : Type} (scores : List (α × Int)) (x : α × Int) : Prop :=
  ∃ pre post, scores = pre ++ x :: post ∧ (∀ y ∈ pre, y.2 ≤ x.2) ∧ ∀ y ∈ post, y.2 < x.2

theorem sorted_last {α : Type} : ∀ (l : List (α × Int)), l ≠ [] →
    ∃ m, (Sort.sortBy (fun a b => decide (a.2 ≤ b.2)) l).getLast? = some m ∧ Best l m
  | [], h => absurd rfl h
  | x :: l, _ => by
    by_cases hl : l = []
    · subst hl
      exact ⟨x, by simp [Sort.sortBy, Sort.insertBy], [], [], rfl, by simp, by simp⟩
    · obtain ⟨m, hm, pre, post, e, h1, h2⟩ := sorted_last l hl
      have hmax : ∀ y ∈ l, y.2 ≤ m.2 := by
        intro y hy
        rw [e] at hy
        rcases List.mem_append.1 hy with h | h
        · exact h1 y h
        · rcases List.mem_cons.1 h with rfl | h
          · exact Int.le_refl _
          · exact Int.le_of_lt (h2 y h)
      have hins := insert_last x _ m hm fun y hy => hmax y ((Sort.sortBy_perm l).mem_iff.1 hy)
      rw [Sort.sortBy]
      by_cases hx : x.2 ≤ m.2
      · rw [if_pos hx] at hins
        exact ⟨m, hins, x :: pre, post, by rw [e]; rfl, by simpa using ⟨hx, fun a b hab => h1 (a, b) hab⟩, h2⟩
      · rw [if_neg hx] at hins
        exact ⟨x, hins, [], l, rfl, by simp, fun y hy => by have := hmax y hy; omega⟩

/-- **C117, the score**: the last of the build systems with the greatest score is used; there is an error only if there are none. -/
theorem C117_best {α : Type} (scores : List (α × Int)) :
    (scores = [] ∧ best scores = .error .index) ∨ ∃ x, best scores = .ok x ∧ Best scores x := by
  by_cases h : scores = []
  · exact Or.inl ⟨h, by subst h; rfl⟩
  · obtain ⟨m, hm, hb⟩ := sorted_last scores h
    exact Or.inr ⟨m, by unfold best; rw [hm], hb⟩

/-! ## Where the sources are -/

theorem join_place {a n : Str} (ha : Place a) (hn : n.head? ≠ some '/') : join a n = a ++ '/' :: n := by
  unfold join
  rw [if_neg hn, if_neg (by rintro (h | h); exact ha.1 h; exact ha.2 h)]

theorem join_cwd (cwd a r : Str) (ha : Place a) : join cwd (a ++ '/' :: r) = join cwd a ++ '/' :: r := by
  have hh : (a ++ '/' :: r).head? = a.head? := by
    cases a with
    | nil => exact absurd rfl ha.1
    | cons c a => rfl
  unfold join
  rw [hh]
  by_cases h1 : a.head? = some '/'
  · rw [if_pos h1, if_pos h1]
  · rw [if_neg h1, if_neg h1]
    by_cases h2 : cwd = [] ∨ cwd.getLast? = some '/'
    · rw [if_pos h2, if_pos h2]
      simp
    · rw [if_neg h2, if_neg h2]
      simp

theorem parts_below (cwd a r : Str) (ha : Place a) :
    parts cwd (a ++ '/' :: r) = collapse (parts cwd a) (Text.splitOn '/' r) := by
  unfold parts
  rw [join_cwd cwd a r ha, Locate.splitOn_sep, Locate.collapse_append]

theorem common_append (p x y : List Str) : common (p ++ x) (p ++ y) = p.length + common x y := by
  induction p with
  | nil => simp
  | cons a p ih => simp [common, ih]; omega

/-- From one place below a directory to another. -/
theorem relpath_below (cwd a x y : Str) (xs ys : List Str) (ha : Place a) (hx : Text.splitOn '/' x = xs) (hy : Text.splitOn '/' y = ys)
    (nx : ∀ n ∈ xs, Locate.Name n) (ny : ∀ n ∈ ys, Locate.Name n) (hne : ys ≠ []) (hc : common xs ys = 0) :
    relpath cwd (a ++ '/' :: y) (a ++ '/' :: x) = some (Text.joinWith '/' (List.replicate xs.length ['.', '.'] ++ ys)) := by
  unfold relpath
  rw [if_neg (by simp), parts_below cwd a x ha, parts_below cwd a y ha, hx, hy, Locate.collapse_down _ _ nx, Locate.collapse_down _ _ ny]
  dsimp only
  rw [common_append, hc, if_neg]
  · simp [Locate.slashed]
  · simp [hne]

theorem relpath_self (cwd a y : Str) (ys : List Str) (ha : Place a) (hy : Text.splitOn '/' y = ys)
    (ny : ∀ n ∈ ys, Locate.Name n) (hne : ys ≠ []) : relpath cwd (a ++ '/' :: y) a = some (Text.joinWith '/' ys) := by
  unfold relpath
  rw [if_neg (by simp), parts_below cwd a y ha, hy, Locate.collapse_down _ _ ny]
  dsimp only
  rw [Locate.common_prefix, if_neg]
  · simp [Locate.slashed]
  · simp [hne]

theorem src_eq {a : Str} (ha : Place a) : srcDir a = a ++ '/' :: "src".toList := join_place ha (by decide)

theorem build_eq {a : Str} (ha : Place a) : buildDir a = a ++ '/' :: "build/bin".toList := by
  unfold buildDir
  rw [join_place ha (by decide), join_place ⟨by simp, by simp⟩ (by decide)]
  simp

theorem file_eq {a n : Str} (ha : Place a) (hn : n.head? ≠ some '/') : join (srcDir a) n = a ++ '/' :: ("src".toList ++ '/' :: n) := by
  rw [src_eq ha, join_place ⟨by simp, by simp⟩ hn]
  simp

/-- **C117, the place**: from `build/bin` the sources are always `../../src`, and from the provider `src`. -/
theorem C117_where (cwd location : Str) (h : Place location) :
    relpath cwd (srcDir location) (buildDir location) = some "../../src".toList ∧
    relpath cwd (join (srcDir location) "Makefile".toList) (buildDir location) = some "../../src/Makefile".toList ∧
    relpath cwd (srcDir location) location = some "src".toList := by
  rw [file_eq h (by decide), src_eq h, build_eq h]
  have n1 : ∀ n ∈ ["build".toList, "bin".toList], Locate.Name n := by unfold Locate.Name; decide
  have n2 : ∀ n ∈ ["src".toList], Locate.Name n := by unfold Locate.Name; decide
  have n3 : ∀ n ∈ ["src".toList, "Makefile".toList], Locate.Name n := by unfold Locate.Name; decide
  refine ⟨?_, ?_, ?_⟩
  · exact relpath_below cwd location _ _ ["build".toList, "bin".toList] ["src".toList] h (by decide) (by decide) n1 n2
      (by decide) (by decide)
  · exact relpath_below cwd location _ _ ["build".toList, "bin".toList] ["src".toList, "Makefile".toList] h (by decide) (by decide)
      n1 n3 (by decide) (by decide)
  · exact relpath_self cwd location _ ["src".toList] h (by decide) n2 (by decide)

theorem command_eq (cwd location : Str) (h : Place location) (s : System) : s.command cwd (srcDir location) (buildDir location) =
    some (match s with
      | .make => "VPATH=../../src make -f ../../src/Makefile".toList
      | .autotools => "../../src/configure && make".toList
      | .go => "go build ../../src/*.go".toList) := by
  obtain ⟨h1, h2, -⟩ := C117_where cwd location h
  cases s <;> simp only [System.command, h1, h2, Option.bind_some, Option.map_some] <;> decide +kernel

/-! ## Sources of go -/

theorem mem_ends (e : Str) : ∀ s : Str, e ∈ ends s ↔ ∃ stem, s = stem ++ e
  | [] => by
    constructor
    · intro h
      have : e = [] := by simpa [ends] using h
      exact ⟨[], by simp [this]⟩
    · rintro ⟨stem, h⟩
      have : e = [] := by
        have := congrArg List.length h
        cases e with
        | nil => rfl
        | cons a e => simp at this
      simp [ends, this]
  | c :: s => by
    rw [ends, List.mem_cons, mem_ends e s]
    constructor
    · rintro (rfl | ⟨stem, rfl⟩)
      · exact ⟨[], rfl⟩
      · exact ⟨c :: stem, rfl⟩
    · rintro ⟨stem, h⟩
      cases stem with
      | nil => exact Or.inl h.symm
      | cons x stem =>
        injection h with h1 h2
        exact Or.inr ⟨stem, h2⟩

theorem matches_lits : ∀ (t s : Str), matches' (t.map .lit) s = true ↔ s = t
  | [], s => by simp [matches']
  | c :: t, [] => by simp [matches']
  | c :: t, x :: s => by simp [matches', matches_lits t s]

theorem go_match (n : Str) : fnmatch n "*.go".toList = true ↔ ∃ stem, n = stem ++ ".go".toList := by
  have e : tokens "*.go".toList.length "*.go".toList = .star :: (".go".toList).map .lit := by decide +kernel
  unfold fnmatch
  rw [e]
  simp only [matches', List.any_eq_true]
  constructor
  · rintro ⟨x, hx, hm⟩
    rw [matches_lits] at hm
    subst hm
    exact (mem_ends _ n).1 hx
  · intro h
    exact ⟨".go".toList, (mem_ends _ n).2 h, (matches_lits _ _).2 rfl⟩

theorem not_magic {p : Str} (h : Plain p) : magic p = false := by
  unfold magic
  rw [List.any_eq_false]
  intro c hc
  have := h c hc
  simp [this.1, this.2.1, this.2.2]

theorem go_probe (w : Disk) (location : Str) (h : Place location) (hp : Plain location) :
    System.go.probe w (srcDir location) = if (w.names (location ++ "/src".toList)).any
      (fun n => n.head? != some '.' && fnmatch n "*.go".toList) then 50 else 0 := by
  have es : srcDir location = location ++ "/src".toList := src_eq h
  have e : srcDir location ++ "/*.go".toList = srcDir location ++ '/' :: "*.go".toList := rfl
  have hs : Plain (srcDir location) := by
    rw [src_eq h]
    intro c hc
    rcases List.mem_append.1 hc with hc | hc
    · exact hp c hc
    · have : ∀ c ∈ ('/' :: "src".toList), c ≠ '*' ∧ c ≠ '?' ∧ c ≠ '[' := by decide
      exact this c hc
  have hne : srcDir location ≠ [] := by rw [src_eq h]; simp
  have hl : (srcDir location).getLast? ≠ some '/' := by rw [src_eq h]; simp
  have hm : magic (srcDir location ++ '/' :: "*.go".toList) = true := by
    unfold magic
    rw [List.any_append]
    simp
  have hlen : (srcDir location ++ '/' :: "*.go".toList).length = (srcDir location).length + 4 + 1 := by simp
  have this : magic "*.go".toList = true := by decide
  have hg : glob w (srcDir location ++ "/*.go".toList).length (srcDir location ++ "/*.go".toList) =
      (glob1 w (srcDir location) "*.go".toList).map (join (srcDir location)) := by
    rw [e, hlen, glob, hm, Path.dirname_slash (by decide) hne hl, Path.basename_slash (by decide), if_neg (by decide), if_neg hne,
      if_neg (by rw [not_magic hs]; exact fun x => absurd x.2 (by decide)), this]
    simp only [List.flatMap_cons, List.flatMap_nil, List.append_nil, if_true]
  show (if glob w (srcDir location ++ "/*.go".toList).length (srcDir location ++ "/*.go".toList) ≠ [] then (50 : Int) else 0) = _
  rw [hg, es]
  simp only [ne_eq, List.map_eq_nil_iff]
  have h0 : glob1 w (location ++ "/src".toList) "*.go".toList =
      ((w.names (location ++ "/src".toList)).filter fun n => n.head? != some '.').filter (fnmatch · "*.go".toList) := rfl
  rw [h0, List.filter_filter]
  generalize w.names (location ++ "/src".toList) = l
  have key : (¬ List.filter (fun a => fnmatch a "*.go".toList && a.head? != some '.') l = []) ↔
      (l.any fun n => n.head? != some '.' && fnmatch n "*.go".toList) = true := by
    rw [List.filter_eq_nil_iff, List.any_eq_true]
    constructor
    · intro hh
      rcases Classical.not_forall.1 hh with ⟨x, hx⟩
      rcases Classical.not_imp.1 hx with ⟨h1, h2⟩
      refine ⟨x, h1, ?_⟩
      rw [Bool.and_comm]
      exact Classical.not_not.1 h2
    · rintro ⟨x, h1, h2⟩ hh
      refine hh x h1 ?_
      rw [Bool.and_comm]
      exact h2
  by_cases hh : (l.any fun n => n.head? != some '.' && fnmatch n "*.go".toList) = true
  · rw [if_pos (key.2 hh), if_pos hh]
  · rw [if_neg (fun x => hh (key.1 x)), if_neg hh]

theorem go_source (w : Disk) (dir : Str) :
    (w.names dir).any (fun n => n.head? != some '.' && fnmatch n "*.go".toList) = true ↔ GoSource w dir := by
  rw [List.any_eq_true]
  constructor
  · rintro ⟨n, hn, h⟩
    rw [Bool.and_eq_true] at h
    obtain ⟨stem, rfl⟩ := (go_match n).1 h.2
    cases stem with
    | nil => exact absurd h.1 (by decide)
    | cons c stem => exact ⟨c :: stem, by simpa using h.1, hn, by simp⟩
  · rintro ⟨stem, h1, h2, h3⟩
    refine ⟨_, h2, ?_⟩
    rw [Bool.and_eq_true]
    refine ⟨?_, (go_match _).2 ⟨stem, rfl⟩⟩
    cases stem with
    | nil => exact absurd rfl h3
    | cons c stem => simpa using h1

/-! ## The choice -/

/-- **C117, the choice**: with the three build systems, in any order and perhaps with others of them twice, the right command is chosen.
(partial: if there are no other sources than those of go, the place has no character that means something to `glob`) -/
theorem C117_choice_partial (w : Disk) (cwd location : Str) (systems : List System) (h : Place location)
    (hp : PlainForGo w location) (hs : ∀ s, s ∈ systems) (c : Option Str) (hc : Wants w location c) : guess w cwd location systems = .ok c := by
  have econf : join (srcDir location) "configure".toList = location ++ "/src/configure".toList := by
    rw [file_eq h (by decide)]; rfl
  have emake : join (srcDir location) "Makefile".toList = location ++ "/src/Makefile".toList := by
    rw [file_eq h (by decide)]; rfl
  have anygo : System.go.probe w (srcDir location) = 50 ∨ System.go.probe w (srcDir location) = 0 := by
    show (if _ then (50 : Int) else 0) = 50 ∨ (if _ then (50 : Int) else 0) = 0
    split
    · exact Or.inl rfl
    · exact Or.inr rfl
  have pgo : Plain location → System.go.probe w (srcDir location) = 50 ∧ GoSource w (location ++ "/src".toList) ∨
      System.go.probe w (srcDir location) = 0 ∧ ¬ GoSource w (location ++ "/src".toList) := by
    intro hp
    rw [go_probe w location h hp, ← go_source w (location ++ "/src".toList)]
    by_cases hh : ((w.names (location ++ "/src".toList)).any fun n => n.head? != some '.' && fnmatch n "*.go".toList) = true
    · exact Or.inl ⟨if_pos hh, hh⟩
    · exact Or.inr ⟨if_neg hh, hh⟩
  have pmake : System.make.probe w (srcDir location) = if w.isfile (location ++ "/src/configure".toList) then 0
      else if w.isfile (location ++ "/src/Makefile".toList) then 90 else 0 := by
    show (if w.isfile (join (srcDir location) "configure".toList) then (0 : Int)
      else if w.isfile (join (srcDir location) "Makefile".toList) then 90 else 0) = _
    rw [econf, emake]
  have pauto : System.autotools.probe w (srcDir location) = if w.isfile (location ++ "/src/configure".toList) then 90 else 0 := by
    show (if w.isfile (join (srcDir location) "configure".toList) then (90 : Int) else 0) = _
    rw [econf]
  rcases C117_best (systems.map fun s => (s, s.probe w (srcDir location))) with ⟨e, -⟩ | ⟨⟨s, score⟩, hb, pre, post, e, h1, h2⟩
  · have := hs .make
    rw [List.map_eq_nil_iff] at e
    rw [e] at this
    cases this
  · have hmax : ∀ x : System, x.probe w (srcDir location) ≤ score := by
      intro x
      have : (x, x.probe w (srcDir location)) ∈ systems.map fun s => (s, s.probe w (srcDir location)) := List.mem_map.2 ⟨x, hs x, rfl⟩
      rw [e] at this
      rcases List.mem_append.1 this with hm | hm
      · exact h1 _ hm
      · rcases List.mem_cons.1 hm with hm | hm
        · have := congrArg Prod.snd hm
          exact Int.le_of_eq this
        · exact Int.le_of_lt (h2 _ hm)
    have hsc : s.probe w (srcDir location) = score := by
      have : (s, score) ∈ systems.map fun s => (s, s.probe w (srcDir location)) := by rw [e]; simp
      obtain ⟨x, -, hx⟩ := List.mem_map.1 this
      injection hx with hx1 hx2
      subst hx1
      exact hx2
    unfold guess
    rw [hb]
    dsimp only
    rw [command_eq cwd location h s]
    have m1 := hmax .make
    have m2 := hmax .autotools
    have m3 := hmax .go
    subst hsc
    cases hc with
    | autotools c1 =>
      rw [c1] at pmake pauto
      rw [pauto] at m2
      cases s with
      | autotools => rw [pauto]; rfl
      | make => rw [pmake] at m2; simp at m2
      | go => rcases anygo with e | e <;> rw [e] at m2 <;> simp at m2
    | make c1 c2 =>
      rw [c1, c2] at pmake
      rw [c1] at pauto
      rw [pmake] at m1
      cases s with
      | autotools => rw [pauto] at m1; simp at m1
      | make => rw [pmake]; rfl
      | go => rcases anygo with e | e <;> rw [e] at m1 <;> simp at m1
    | go c1 c2 c3 =>
      rw [c1, c2] at pmake
      rw [c1] at pauto
      have eg := ((pgo (hp c1 c2)).resolve_right fun x => x.2 c3).1
      rw [eg] at m3
      cases s with
      | autotools => rw [pauto] at m3; simp at m3
      | make => rw [pmake] at m3; simp at m3
      | go => rw [eg]; rfl
    | nothing c1 c2 c3 =>
      rw [c1, c2] at pmake
      rw [c1] at pauto
      have eg := ((pgo (hp c1 c2)).resolve_left fun x => c3 x.2).1
      cases s with
      | autotools => rw [pauto]; rfl
      | make => rw [pmake]; rfl
      | go => rw [eg]; rfl

/-- Every place has exactly one right command. -/
theorem wants_total (w : Disk) (location : Str) : ∃ c, Wants w location c := by
  cases h1 : w.isfile (location ++ "/src/configure".toList) with
  | true => exact ⟨_, .autotools h1⟩
  | false =>
    cases h2 : w.isfile (location ++ "/src/Makefile".toList) with
    | true => exact ⟨_, .make h1 h2⟩
    | false =>
      by_cases h3 : GoSource w (location ++ "/src".toList)
      · exact ⟨_, .go h1 h2 h3⟩
      · exact ⟨_, .nothing h1 h2 h3⟩

/-! ## What is done -/

theorem lookup_setEnv (k v : Str) (env : List (Str × Str)) (x : Str) :
    (setEnv k v env).lookup x = if x = k then some v else env.lookup x := by
  unfold setEnv
  rw [List.lookup_cons]
  by_cases hx : x = k
  · subst hx
    simp
  · have : (x == k) = false := by simpa using hx
    rw [this, if_neg hx]
    show (env.filter fun y => y.1 != k).lookup x = env.lookup x
    induction env with
    | nil => rfl
    | cons a env ih =>
      obtain ⟨a1, a2⟩ := a
      rw [List.filter_cons]
      by_cases ha : a1 = k
      · have hne : (x == a1) = false := by rw [ha]; exact this
        rw [if_neg (by simpa using ha), List.lookup_cons, hne]
        exact ih
      · rw [if_pos (by simpa using ha), List.lookup_cons, List.lookup_cons, ih]

/-- What has to be done with a command: it is run in a directory, with the path of the sources and the rest of the environment. -/
def Runs (e : Event) (command dir src : Str) (env : List (Str × Str)) : Prop :=
  ∃ env', e = .call command dir env' ∧ ∀ k, env'.lookup k = if k = "PLAINBOX_SRC_DIR".toList then some src else env.lookup k

/-- **C117**: without a command nothing is done and the status is 0; otherwise the directory is made unless it is there, the command runs in
it and its status is the status. (partial: as before; the directory that is made changes nothing about the sources) -/
theorem C117_build_partial (w w' : Disk) (cwd location : Str) (systems : List System) (keyword : Option Str) (env : List (Str × Str))
    (exit : Str → Int) (h : Place location) (hs : ∀ s, s ∈ systems) (c : Option Str)
    (hc : ∀ k, keyword = some k → c = some k) (hw : keyword = none → Wants w location c ∧ PlainForGo w location)
    (hw' : keyword = none → Wants w' location c ∧ PlainForGo w' location) :
    (c = none → build w w' cwd location systems keyword env exit = ([], .ok 0)) ∧
    ∀ k, c = some k → ∃ made e, build w w' cwd location systems keyword env exit = (made ++ [e], .ok (exit k)) ∧
      made = (if w.isdir (location ++ "/build/bin".toList) then [] else [.makedirs (location ++ "/build/bin".toList)]) ∧
      Runs e k (location ++ "/build/bin".toList) "../../src".toList env := by
  have hb : ∀ v, (keyword = none → Wants v location c ∧ PlainForGo v location) → buildCmd v cwd location systems keyword = .ok c := by
    intro v hv
    unfold buildCmd
    cases hk : keyword with
    | none => exact C117_choice_partial v cwd location systems h (hv hk).2 hs c (hv hk).1
    | some k =>
      dsimp only
      rw [hc k hk]
  have h1 := hb w hw
  have h2 := hb w' hw'
  unfold build
  rw [h1, h2, (C117_where cwd location h).1]
  constructor
  · rintro rfl
    rfl
  · rintro k rfl
    dsimp only
    rw [build_eq h]
    exact ⟨_, _, rfl, rfl, _, rfl, lookup_setEnv _ _ _⟩

/-- **C117, cleaning**: the command, by default one that removes `build/bin`, runs in the provider's directory. -/
theorem C117_clean (cwd location : Str) (keyword : Option Str) (env : List (Str × Str)) (exit : Str → Int) (h : Place location)
    (k : Str) (hk : keyword = some k ∨ keyword = none ∧ k = "rm -rf build/bin".toList) :
    ∃ e, clean cwd location (keyword.map some) env exit = ([e], .ok (exit k)) ∧ Runs e k location "src".toList env := by
  unfold clean
  rw [(C117_where cwd location h).2.2]
  have : cleanCmd (keyword.map some) = some k := by
    unfold cleanCmd
    rcases hk with rfl | ⟨rfl, rfl⟩ <;> rfl
  rw [this]
  exact ⟨_, rfl, _, rfl, lookup_setEnv _ _ _⟩

/-! ## Examples and violations -/

/-- A disk with these files and directories. -/
def disk (files : List Str) (dirs : List (Str × List Str)) : Disk :=
  ⟨files.contains, fun d => (dirs.lookup d).getD [], fun p => files.contains p || (dirs.lookup p).isSome, fun p => (dirs.lookup p).isSome⟩

/-- A provider with sources of go and hidden files. -/
def goDisk : Disk := disk ["/my prov/src/a.go".toList] [("/my prov/src".toList, [".x.go".toList, "a.go".toList])]

example : Place "/my prov".toList ∧ Plain "/my prov".toList := by unfold Place Plain; decide +kernel

example : Wants goDisk "/my prov".toList (some "go build ../../src/*.go".toList) :=
  .go (by decide +kernel) (by decide +kernel) ⟨['a'], by decide, by decide +kernel, by decide⟩

example : build goDisk goDisk "/".toList "/my prov".toList [.make, .go, .autotools] none [("A".toList, "b".toList)] (fun _ => 2) =
    ([.makedirs "/my prov/build/bin".toList, .call "go build ../../src/*.go".toList "/my prov/build/bin".toList
      [("PLAINBOX_SRC_DIR".toList, "../../src".toList), ("A".toList, "b".toList)]], .ok 2) := by decide +kernel

example : Best [("a", (0 : Int)), ("b", 90), ("c", 90), ("d", 50)] ("c", 90) := ⟨[("a", 0), ("b", 90)], [("d", 50)], rfl, by decide, by decide⟩

/-- A provider in a directory with brackets. -/
def bracketDisk : Disk :=
  disk ["/p[x]/src/a.go".toList] [("/".toList, ["p[x]".toList]), ("/p[x]".toList, ["src".toList]), ("/p[x]/src".toList, ["a.go".toList])]

/-- **C117 violated**: sources of go are not seen in a directory with brackets in its name. -/
theorem C117_bracket_violated : Wants bracketDisk "/p[x]".toList (some "go build ../../src/*.go".toList) ∧
    guess bracketDisk "/".toList "/p[x]".toList [.make, .go, .autotools] = .ok none :=
  ⟨.go (by decide +kernel) (by decide +kernel) ⟨['a'], by decide, by decide +kernel, by decide⟩, by decide +kernel⟩

/-- A provider without sources in a directory with a star, and another with sources. -/
def starDisk : Disk :=
  disk ["/pq/src/a.go".toList] [("/".toList, ["p*".toList, "pq".toList]), ("/p*".toList, ["src".toList]), ("/p*/src".toList, []),
    ("/pq".toList, ["src".toList]), ("/pq/src".toList, ["a.go".toList])]

/-- **C117 violated**: sources of another provider are taken for those of a provider with a star in its name. -/
theorem C117_star_violated : Wants starDisk "/p*".toList none ∧
    guess starDisk "/".toList "/p*".toList [.make, .go, .autotools] = .ok (some "go build ../../src/*.go".toList) := by
  refine ⟨.nothing (by decide +kernel) (by decide +kernel) ?_, by decide +kernel⟩
  rintro ⟨stem, -, h, -⟩
  have e : starDisk.names ("/p*".toList ++ "/src".toList) = [] := by decide +kernel
  rw [e] at h
  cases h

end Verif.Build
