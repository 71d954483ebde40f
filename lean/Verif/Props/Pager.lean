import Verif.Model.Pager
import Verif.Lemmas.Text

/-!
# C120: which pager shows the output
-/

namespace Verif.Pager

open Verif.Path (Str)

/-! ## Specification -/

/-- The first of a list that has a property. -/
def First {α : Type} (l : List α) (P : α → Prop) (x : α) : Prop :=
  ∃ pre post, l = pre ++ x :: post ∧ P x ∧ ∀ y ∈ pre, ¬ P y

/-- The path name of a file in a directory: absolute names stay. -/
def at' (d n : Str) : Str :=
  if n.head? = some '/' then n
  else if d = [] ∨ d.getLast? = some '/' then d ++ n
  else d ++ '/' :: n

/-- The directories of `PATH`: what is between the colons. -/
def IsPath (w : World) (ds : List Str) : Prop :=
  ds ≠ [] ∧ (∀ d ∈ ds, ':' ∉ d) ∧ w.path.getD w.defpath = [':'].intercalate ds

/-- The names to try: the one of the user first. -/
def names (w : World) : List Str :=
  w.pager.toList ++ ["sensible-pager".toList, "less".toList, "more".toList]

/-- There is something by that name in one of the directories. -/
def There (w : World) (ds : List Str) (n : Str) : Prop := ∃ d ∈ ds, w.access (at' d n) ≠ none

/-- There is a program by that name in one of the directories. -/
def Runs (w : World) (ds : List Str) (n : Str) : Prop := ∃ d ∈ ds, w.access (at' d n) = some .program

/-- No directory is where a pager is looked for. -/
def NoDirectories (w : World) (ds : List Str) : Prop :=
  ∀ n ∈ names w, ∀ d ∈ ds, w.access (at' d n) ≠ some .directory

/-! ## Lemmas -/

theorem join_at (d n : Str) : Path.join d n = at' d n := by
  unfold Path.join at'
  split
  · rfl
  · split
    · rfl
    · rfl

theorem join_eq (s : Char) (l : List Str) : [s].intercalate l = Text.joinWith s l := by
  induction l with
  | nil => rfl
  | cons a l ih =>
    cases l with
    | nil => simp [Text.joinWith, List.intercalate]
    | cons b l =>
      rw [Text.joinWith, ← ih]
      · simp [List.intercalate, List.intersperse]
      · simp

theorem dirs_eq {w : World} {ds : List Str} (h : IsPath w ds) : w.dirs = ds := by
  obtain ⟨h1, h2, h3⟩ := h
  unfold World.dirs
  rw [h3, join_eq]
  exact Text.split_join h1 h2

theorem first_cons {α : Type} {P : α → Prop} {y x : α} {l : List α} (h : ¬ P y) (hf : First l P x) :
    First (y :: l) P x := by
  obtain ⟨pre, post, rfl, hx, hp⟩ := hf
  refine ⟨y :: pre, post, rfl, hx, ?_⟩
  intro z hz
  rcases List.mem_cons.mp hz with rfl | hz
  · exact h
  · exact hp z hz

theorem first_unique {α : Type} {P : α → Prop} {x y : α} {l : List α} (h : First l P x)
    (h' : First l P y) : x = y := by
  induction l with
  | nil => obtain ⟨pre, post, he, _⟩ := h; simp at he
  | cons a l ih =>
    obtain ⟨pre, post, he, hx, hp⟩ := h
    obtain ⟨pre', post', he', hy, hp'⟩ := h'
    cases pre with
    | nil =>
      simp only [List.nil_append, List.cons.injEq] at he
      cases pre' with
      | nil =>
        simp only [List.nil_append, List.cons.injEq] at he'
        rw [← he.1, ← he'.1]
      | cons b pre' =>
        simp only [List.cons_append, List.cons.injEq] at he'
        exact absurd (he'.1 ▸ he.1 ▸ hx) (hp' b (by simp))
    | cons b pre =>
      simp only [List.cons_append, List.cons.injEq] at he
      cases pre' with
      | nil =>
        simp only [List.nil_append, List.cons.injEq] at he'
        exact absurd (he.1 ▸ he'.1 ▸ hy) (hp b (by simp))
      | cons b' pre' =>
        simp only [List.cons_append, List.cons.injEq] at he'
        exact ih ⟨pre, post, he.2, hx, fun z hz => hp z (by simp [hz])⟩
          ⟨pre', post', he'.2, hy, fun z hz => hp' z (by simp [hz])⟩

theorem inDirs_spec (w : World) (n : Str) : ∀ ds,
    match inDirs w n ds with
    | none => ¬ There w ds n
    | some p => ∃ d, First ds (fun d => w.access (at' d n) ≠ none) d ∧ p = at' d n := by
  intro ds
  induction ds with
  | nil => rintro ⟨d, hd, _⟩; simp at hd
  | cons d ds ih =>
    simp only [inDirs, join_at]
    by_cases h : (w.access (at' d n)).isSome = true
    · rw [if_pos h]
      exact ⟨d, ⟨[], ds, rfl, by simpa [Option.isSome_iff_ne_none] using h, by simp⟩, rfl⟩
    · rw [if_neg h]
      have hn : w.access (at' d n) = none := by simpa using h
      split
      · rename_i e
        rw [e] at ih
        rintro ⟨d', hd', ha⟩
        rcases List.mem_cons.mp hd' with rfl | hd'
        · exact ha hn
        · exact ih ⟨d', hd', ha⟩
      · rename_i e
        rw [e] at ih
        obtain ⟨d', hf, hp⟩ := ih
        exact ⟨d', first_cons (by simp [hn]) hf, hp⟩

theorem findExec_spec {w : World} {ds : List Str} (hd : w.dirs = ds) : ∀ ns,
    match findExec w ns with
    | none => ∀ n ∈ ns, ¬ There w ds n
    | some (n, p) => First ns (There w ds) n ∧
        ∃ d, First ds (fun d => w.access (at' d n) ≠ none) d ∧ p = at' d n := by
  intro ns
  induction ns with
  | nil => simp [findExec]
  | cons n ns ih =>
    have hi := inDirs_spec w n ds
    simp only [findExec, hd]
    cases e : inDirs w n ds with
    | some p =>
      rw [e] at hi
      obtain ⟨d, hf, hp⟩ := hi
      have ht : There w ds n := by
        obtain ⟨pre, post, rfl, hx, _⟩ := hf
        exact ⟨d, by simp, hx⟩
      exact ⟨⟨[], ns, rfl, ht, by simp⟩, d, hf, hp⟩
    | none =>
      rw [e] at hi
      simp only
      cases e' : findExec w ns with
      | none =>
        rw [e'] at ih
        intro m hm
        rcases List.mem_cons.mp hm with rfl | hm
        · exact hi
        · exact ih m hm
      | some q =>
        rw [e'] at ih
        exact ⟨first_cons hi ih.1, ih.2⟩

theorem candidates_eq (w : World) : candidates w = names w := by
  unfold candidates names
  cases w.pager <;> rfl

/-! ## C120 -/

/-- **C120**, exactly: without a terminal, and on Windows, the output is not paged.  Otherwise the name
is the first of those to try for which something is found in one of the directories, and the path is
that in the first such directory; the output is not paged if there is none.  Errors go to the pager if
they would go to a terminal. -/
theorem C120_exact (w : World) (ds : List Str) (hp : IsPath w ds) :
    (w.stdoutTty = false ∨ w.windows = true → autopager w = .direct) ∧
    (w.stdoutTty = true → w.windows = false →
      (autopager w = .direct ↔ ∀ n ∈ names w, ¬ There w ds n) ∧
      ∀ p n e, autopager w = .piped p n e ↔ First (names w) (There w ds) n ∧
        (∃ d, First ds (fun d => w.access (at' d n) ≠ none) d ∧ p = at' d n) ∧ e = w.stderrTty) := by
  refine ⟨fun h => by rw [autopager, if_pos h], fun h1 h2 => ?_⟩
  have hs := findExec_spec (dirs_eq hp) (names w)
  have hn : ¬ (w.stdoutTty = false ∨ w.windows = true) := by simp [h1, h2]
  rw [autopager, if_neg hn, candidates_eq]
  cases e : findExec w (names w) with
  | none =>
    rw [e] at hs
    refine ⟨⟨fun _ => hs, fun _ => rfl⟩, fun p n b => ⟨by simp, ?_⟩⟩
    rintro ⟨⟨pre, post, hl, ht, _⟩, _⟩
    exact absurd ht (hs n (by rw [hl]; simp))
  | some q =>
    obtain ⟨m, p⟩ := q
    rw [e] at hs
    obtain ⟨hf, d, hfd, rfl⟩ := hs
    refine ⟨⟨by simp, fun h => ?_⟩, fun p' n' b => ⟨?_, ?_⟩⟩
    · obtain ⟨pre, post, hl, ht, _⟩ := hf
      exact absurd ht (h m (by rw [hl]; simp))
    · intro h
      simp only [Way.piped.injEq] at h
      obtain ⟨rfl, rfl, rfl⟩ := h
      exact ⟨hf, ⟨d, hfd, rfl⟩, rfl⟩
    · rintro ⟨hf', ⟨d', hfd', rfl⟩, rfl⟩
      have := first_unique hf hf'
      subst this
      have := first_unique hfd hfd'
      subst this
      rfl

/-- **C120** if no directory is where a pager is looked for: the output is seen; it is paged exactly if
the output is a terminal and one of the names is that of a program in one of the directories, by the
first such name.  Missing: directories found instead of programs (`C120_empty_violated`) and values of
`PAGER` that are commands (`C120_options_violated`). -/
theorem C120_partial (w : World) (ds : List Str) (hp : IsPath w ds) (hd : NoDirectories w ds) :
    seen w (autopager w) = true ∧
    (w.stdoutTty = true → w.windows = false →
      (autopager w = .direct ↔ ∀ n ∈ names w, ¬ Runs w ds n) ∧
      ∀ p n e, autopager w = .piped p n e → First (names w) (Runs w ds) n ∧
        w.access p = some .program ∧ ∃ d ∈ ds, p = at' d n) := by
  have hr : ∀ n ∈ names w, (There w ds n ↔ Runs w ds n) := by
    intro n hn
    constructor
    · rintro ⟨d, hdm, ha⟩
      refine ⟨d, hdm, ?_⟩
      have := hd n hn d hdm
      cases e : w.access (at' d n) with
      | none => exact absurd e ha
      | some k =>
        cases k with
        | program => rfl
        | directory => exact absurd e this
    · rintro ⟨d, hdm, ha⟩; exact ⟨d, hdm, by rw [ha]; simp⟩
  have key : w.stdoutTty = true → w.windows = false →
      (autopager w = .direct ↔ ∀ n ∈ names w, ¬ Runs w ds n) ∧
      ∀ p n e, autopager w = .piped p n e → First (names w) (Runs w ds) n ∧
        w.access p = some .program ∧ ∃ d ∈ ds, p = at' d n := by
    intro h1 h2
    obtain ⟨k1, k2⟩ := (C120_exact w ds hp).2 h1 h2
    refine ⟨k1.trans ⟨fun h n hn hx => h n hn ((hr n hn).mpr hx), fun h n hn hx => h n hn ((hr n hn).mp hx)⟩, ?_⟩
    intro p n e he
    obtain ⟨⟨pre, post, hl, ht, hpre⟩, ⟨d, ⟨a, b, hab, hx, _⟩, rfl⟩, _⟩ := (k2 p n e).mp he
    have hn : n ∈ names w := by rw [hl]; simp
    have hdm : d ∈ ds := by rw [hab]; simp
    refine ⟨⟨pre, post, hl, (hr n hn).mp ht, fun y hy hx => hpre y hy ((hr y (by rw [hl]; simp [hy])).mpr hx)⟩,
      ?_, d, hdm, rfl⟩
    have := hd n hn d hdm
    cases e : w.access (at' d n) with
    | none => exact absurd e hx
    | some k =>
      cases k with
      | program => rfl
      | directory => exact absurd e this
  refine ⟨?_, key⟩
  by_cases h : w.stdoutTty = false ∨ w.windows = true
  · rw [(C120_exact w ds hp).1 h]; rfl
  · have h1 : w.stdoutTty = true := by
      cases e : w.stdoutTty with
      | true => rfl
      | false => exact absurd (.inl e) h
    have h2 : w.windows = false := by
      cases e : w.windows with
      | false => rfl
      | true => exact absurd (.inr e) h
    cases e : autopager w with
    | direct => rfl
    | piped p n b =>
      have := ((key h1 h2).2 p n b e).2.1
      simp [seen, this]

/-- **C120**, the choice of the user: if `PAGER` is the name of something in one of the directories, or
the absolute path name of something, then that is the pager. -/
theorem C120_user (w : World) (ds : List Str) (hp : IsPath w ds) (h1 : w.stdoutTty = true)
    (h2 : w.windows = false) (n : Str) (hn : w.pager = some n) :
    (There w ds n → ∃ p, autopager w = .piped p n w.stderrTty) ∧
    (n.head? = some '/' → w.access n ≠ none → autopager w = .piped n n w.stderrTty) := by
  have hex := ((C120_exact w ds hp).2 h1 h2).2
  have hf : There w ds n → First (names w) (There w ds) n := fun ht =>
    ⟨[], ["sensible-pager".toList, "less".toList, "more".toList], by simp [names, hn], ht, by simp⟩
  have hfd : There w ds n → ∃ d, First ds (fun d => w.access (at' d n) ≠ none) d := by
    intro ht
    have := inDirs_spec w n ds
    cases e : inDirs w n ds with
    | none => rw [e] at this; exact absurd ht this
    | some p => rw [e] at this; obtain ⟨d, hd, _⟩ := this; exact ⟨d, hd⟩
  constructor
  · intro ht
    obtain ⟨d, hd⟩ := hfd ht
    exact ⟨at' d n, (hex _ n _).mpr ⟨hf ht, ⟨d, hd, rfl⟩, rfl⟩⟩
  · intro ha hx
    have hat : ∀ d, at' d n = n := fun d => by rw [at', if_pos ha]
    have ht : There w ds n := by
      cases ds with
      | nil => exact absurd rfl hp.1
      | cons d ds => exact ⟨d, by simp, by rw [hat]; exact hx⟩
    obtain ⟨d, hd⟩ := hfd ht
    exact (hex n n _).mpr ⟨hf ht, ⟨d, hd, (hat d).symm⟩, rfl⟩

/-! ## Examples and violations -/

/-- A system with `less` and `more`. -/
def someWorld (pager : Option Str) : World where
  stdoutTty := true
  stderrTty := false
  windows := false
  pager := pager
  path := some "/usr/local/bin:/usr/bin".toList
  defpath := "/bin:/usr/bin".toList
  access p :=
    if p = "/usr/bin/less".toList ∨ p = "/usr/bin/more".toList ∨ p = "/opt/most".toList then some .program
    else if p = "/usr/bin/".toList ∨ p = "/usr/local/bin/".toList then some .directory
    else none

theorem someWorld_path (pager : Option Str) :
    IsPath (someWorld pager) ["/usr/local/bin".toList, "/usr/bin".toList] :=
  ⟨by simp, by decide, by rfl⟩

/-- `C120_partial`: `more` is chosen by the user. -/
example : NoDirectories (someWorld (some "more".toList)) ["/usr/local/bin".toList, "/usr/bin".toList] ∧
    autopager (someWorld (some "more".toList)) = .piped "/usr/bin/more".toList "more".toList false ∧
    autopager (someWorld none) = .piped "/usr/bin/less".toList "less".toList false ∧
    autopager (someWorld (some "/opt/most".toList)) =
      .piped "/opt/most".toList "/opt/most".toList false := by
  refine ⟨by unfold NoDirectories; decide +kernel, by decide +kernel, by decide +kernel, by decide +kernel⟩

/-- **C120 is violated** when `PAGER` is set to nothing, which is how others are told not to page: if
anything is found the output goes to a process that is to become a directory, and is not seen. -/
theorem C120_empty_violated :
    (∀ (w : World) (ds : List Str), IsPath w ds → w.stdoutTty = true → w.windows = false →
      w.pager = some [] → There w ds [] → (∀ d ∈ ds, w.access (at' d []) ≠ some .program) →
      seen w (autopager w) = false) ∧
    There (someWorld (some [])) ["/usr/local/bin".toList, "/usr/bin".toList] [] ∧
    autopager (someWorld (some [])) = .piped "/usr/local/bin/".toList [] false ∧
    seen (someWorld (some [])) (autopager (someWorld (some []))) = false := by
  refine ⟨?_, ⟨"/usr/bin".toList, by simp, by decide +kernel⟩, by decide +kernel, by decide +kernel⟩
  intro w ds hp h1 h2 hn ht hd
  obtain ⟨p, he⟩ := (C120_user w ds hp h1 h2 [] hn).1 ht
  obtain ⟨_, ⟨d, ⟨a, b, hab, _, _⟩, hpd⟩, _⟩ := (((C120_exact w ds hp).2 h1 h2).2 p [] _).mp he
  rw [he]
  have := hd d (by rw [hab]; simp)
  rw [← hpd] at this
  simp only [seen]
  cases e : w.access p == some .program with
  | false => rfl
  | true => exact absurd (by simpa using e) this

/-- **C120 is violated** when `PAGER` is a program with options: another pager is used. -/
theorem C120_options_violated :
    Runs (someWorld none) ["/usr/local/bin".toList, "/usr/bin".toList] "more".toList ∧
    autopager (someWorld (some "more -d".toList)) = .piped "/usr/bin/less".toList "less".toList false :=
  ⟨⟨"/usr/bin".toList, by simp, by decide +kernel⟩, by decide +kernel⟩

end Verif.Pager
