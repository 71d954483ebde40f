import Verif.Model.Cookie
import Verif.Props.Packaging
import Verif.Props.Checksum

/-!
# C112: The device is found and its cookie tells what it is
-/

namespace Verif.Cookie

open Verif.Packaging (Str OsFile Plain)

/-! ## Specification -/

/-- The value of a variable in an os-release file with the assignments `a`: the last one counts; `d` if there is none. -/
def Value (a : List (Str × Str)) (k d v : Str) : Prop :=
  (∃ b c, a = b ++ (k, v) :: c ∧ ∀ p ∈ c, p.1 ≠ k) ∨ ((∀ p ∈ a, p.1 ≠ k) ∧ v = d)

/-- The architecture as the first of the two programs that works tells it, without the spaces around it. -/
def Arch (m : Machine) (a : Str) : Prop :=
  ∃ out before behind, (m.dpkg = some out ∨ m.dpkg = none ∧ m.rpm = some out) ∧ out = before ++ a ++ behind ∧
    (∀ c ∈ before ++ behind, Text.isSpace c = true) ∧ (∀ c, a.head? = some c ∨ a.getLast? = some c → Text.isSpace c = false)

/-- A machine with Linux. -/
def Linux (m : Machine) : Prop := m.platform = "linux".toList ∨ m.platform = "linux2".toList

/-! ## Theorems -/

theorem get_value {text : Str} {a : List (Str × Str)} (h : OsFile text a) (k d : Str) :
    Value a k d ((Packaging.osGet a k).getD d) := by
  have spec := (Packaging.C70_os_release h).2 k
  cases hg : Packaging.osGet a k with
  | some v => exact .inl ((spec v).1 hg)
  | none =>
    refine .inr ⟨?_, rfl⟩
    intro p hp e
    unfold Packaging.osGet at hg
    rw [List.lookup_eq_none_iff] at hg
    have := hg p (List.mem_reverse.2 hp)
    rw [e] at this
    simp at this

theorem value_unique {a : List (Str × Str)} {k d v w : Str} (hv : Value a k d v) (hw : Value a k d w) : v = w := by
  rcases hv with ⟨b, c, e, hc⟩ | ⟨hn, rfl⟩
  · rcases hw with ⟨b', c', e', hc'⟩ | ⟨hn', -⟩
    · rw [e] at e'
      rcases List.append_eq_append_iff.1 e' with ⟨x, h1, h2⟩ | ⟨x, h1, h2⟩
      · cases x with
        | nil =>
          injection h2 with h2 _
          injection h2
        | cons y x =>
          injection h2 with _ h2
          exact absurd rfl (hc (k, w) (by rw [h2]; simp))
      · cases x with
        | nil =>
          injection h2 with h2 _
          injection h2 with _ h2
          exact h2.symm
        | cons y x =>
          injection h2 with _ h2
          exact absurd rfl (hc' (k, v) (by rw [h2]; simp))
    · exact absurd rfl (hn' (k, v) (by rw [e]; simp))
  · rcases hw with ⟨b', c', e', hc'⟩ | ⟨-, rfl⟩
    · exact absurd rfl (hn (k, w) (by rw [e']; simp))
    · rfl

theorem strip_eq {before a behind : Str} (h : ∀ c ∈ before ++ behind, Text.isSpace c = true)
    (ha : ∀ c, a.head? = some c ∨ a.getLast? = some c → Text.isSpace c = false) :
    Text.strip (before ++ a ++ behind) = a := by
  rw [Packaging.strip_around (fun c hc => h c (by simp [hc])) (fun c hc => h c (by simp [hc])),
    Text.strip_eq_self]
  exact ⟨fun c hc => ha c (.inl hc), fun c hc => ha c (.inr hc)⟩

/-- **C112, part 1.** On Linux with an os-release file and one of the two programs for packages, one device is found, and its cookie
has the id and the version of the system and the architecture. -/
theorem C112_linux_partial (m : Machine) (text : Str) (os : List (Str × Str)) (i v a : Str) (hl : Linux m) (hf : m.osFile = some text)
    (ho : OsFile text os) (hi : Value os "ID".toList "Linux".toList i) (hv : Value os "VERSION_ID".toList [] v) (ha : Arch m a) :
    discover m = .value ["local://localhost/?os=linux&id=".toList ++ i ++ "&version_id=".toList ++ v ++ "&arch=".toList ++ a] ∧
    run m = .value ("local://localhost/?os=linux&id=".toList ++ i ++ "&version_id=".toList ++ v ++ "&arch=".toList ++ a) := by
  have harch : arch m = .value a := by
    obtain ⟨out, x, y, ho, rfl, hs, hn⟩ := ha
    unfold arch
    rcases ho with ho | ⟨h1, ho⟩
    · rw [ho]
      dsimp only
      rw [strip_eq hs hn]
    · rw [h1, ho]
      dsimp only
      rw [strip_eq hs hn]
  have hd : discover m = .value ["local://localhost/?os=linux&id=".toList ++ i ++ "&version_id=".toList ++ v ++
      "&arch=".toList ++ a] := by
    unfold discover discoverLinux
    rw [if_pos (show m.platform = _ ∨ _ from hl), hf, Option.bind_some, (Packaging.C70_os_release ho).1]
    dsimp only
    rw [harch]
    dsimp only
    unfold cookie
    rw [← value_unique hi (get_value ho _ _), ← value_unique hv (get_value ho _ _)]
    simp only [List.append_assoc]
    rfl
  refine ⟨hd, ?_⟩
  unfold run
  rw [hd]

/-- **C112, part 2.** So the cookie tells the id, the version and the architecture. Partial: if there is no `&` in them. -/
theorem C112_unique_partial (i v a i' v' a' : Str) (h : '&' ∉ i ∧ '&' ∉ v) (h' : '&' ∉ i' ∧ '&' ∉ v')
    (he : "local://localhost/?os=linux&id=".toList ++ i ++ "&version_id=".toList ++ v ++ "&arch=".toList ++ a =
      "local://localhost/?os=linux&id=".toList ++ i' ++ "&version_id=".toList ++ v' ++ "&arch=".toList ++ a') :
    i = i' ∧ v = v' ∧ a = a' := by
  have cut : ∀ {a b x y : Str}, '&' ∉ a → '&' ∉ b → a ++ '&' :: x = b ++ '&' :: y → a = b ∧ x = y := by
    intro a b x y ha hb h
    have no : ∀ {a : Str}, '&' ∉ a → ∀ c ∈ a, decide (c ≠ '&') = true := by
      intro a h c hc
      rw [decide_eq_true_eq]
      rintro rfl
      exact h hc
    obtain ⟨h1, h2⟩ := Checksum.prefix_split (p := fun c => decide (c ≠ '&')) (no ha) (no hb)
      (fun c t h => by injection h with h _; simp [← h])
      (fun c t h => by injection h with h _; simp [← h]) h
    injection h2 with _ h2
    exact ⟨h1, h2⟩
  simp only [List.append_assoc] at he
  have he := List.append_cancel_left he
  obtain ⟨h1, h2⟩ := cut h.1 h'.1 he
  have h2 := List.append_cancel_left (as := "version_id=".toList) h2
  obtain ⟨h3, h4⟩ := cut h.2 h'.2 h2
  exact ⟨h1, h3, List.append_cancel_left (as := "arch=".toList) h4⟩

/-- **C112, part 3.** Without an os-release file, and on systems that are not known, no device is found, and that is said. -/
theorem C112_none (m : Machine) : (Linux m ∧ m.osFile = none ∨ ¬ Linux m ∧ m.platform ≠ "win32".toList) →
    discover m = .value [] ∧ run m = .value "No supported devices detected?".toList := by
  intro h
  have hd : discover m = .value [] := by
    unfold discover
    rcases h with ⟨hl, hf⟩ | ⟨hl, hw⟩
    · rw [if_pos (show m.platform = _ ∨ _ from hl)]
      unfold discoverLinux
      rw [hf]
      rfl
    · rw [if_neg (show ¬ (m.platform = _ ∨ _) from hl), if_neg hw]
  refine ⟨hd, ?_⟩
  unfold run
  rw [hd]

/-- **C112, part 4.** There is never more than one device. -/
theorem C112_one (m : Machine) (l : List Str) (h : discover m = .value l) : l.length ≤ 1 := by
  unfold discover at h
  split at h
  · unfold discoverLinux at h
    split at h
    · injection h with h
      subst h
      simp
    · split at h
      · injection h with h
        subst h
        simp
      · cases h
  · split at h
    · injection h with h
      subst h
      simp
    · injection h with h
      subst h
      simp

/-- **C112, part 5.** On Windows there is one device, whose cookie tells that. -/
theorem C112_windows (m : Machine) (h : m.platform = "win32".toList) : discover m = .value ["local://localhost/?os=win32".toList] ∧
    run m = .value "local://localhost/?os=win32".toList := by
  have hd : discover m = .value ["local://localhost/?os=win32".toList] := by
    unfold discover
    rw [h, if_neg (by decide), if_pos rfl]
  refine ⟨hd, ?_⟩
  unfold run
  rw [hd]

/-- **C112** is violated on systems that have neither of the two programs: there is no device and no message, but an exception, as the
method that asks the kernel is misspelt. -/
theorem C112_uname_violated (m : Machine) (text : Str) (os : List (Str × Str)) (hl : Linux m) (hf : m.osFile = some text)
    (ho : OsFile text os) (h1 : m.dpkg = none) (h2 : m.rpm = none) : discover m = .attributeError ∧ run m = .attributeError := by
  have hd : discover m = .attributeError := by
    unfold discover discoverLinux arch
    rw [if_pos (show m.platform = _ ∨ _ from hl), hf, Option.bind_some, (Packaging.C70_os_release ho).1, h1, h2]
  refine ⟨hd, ?_⟩
  unfold run
  rw [hd]

/-- **C112** is violated by values with `&` in them. -/
theorem C112_separator_violated : cookie [("ID".toList, "a&version_id=1".toList), ("VERSION_ID".toList, "2".toList)] "x".toList =
    cookie [("ID".toList, "a".toList), ("VERSION_ID".toList, "1&version_id=2".toList)] "x".toList := by decide +kernel

/-! ## Examples -/

/-- A machine with Debian. -/
def debian : Machine := ⟨"linux".toList, some "ID=debian\nVERSION_ID=\"7\"\n".toList, some "amd64\n".toList, none, "x86_64".toList⟩

theorem debian_file : OsFile "ID=debian\nVERSION_ID=\"7\"\n".toList [("ID".toList, "debian".toList), ("VERSION_ID".toList, "7".toList)] :=
  .line (l := "ID=debian".toList) (.bare "ID".toList "debian".toList (by unfold Plain; decide +kernel)
      (by unfold Plain; decide +kernel))
    (.line (l := "VERSION_ID=\"7\"".toList) (.double "VERSION_ID".toList "7".toList (by unfold Plain; decide +kernel)) .nil)

example : run debian = .value "local://localhost/?os=linux&id=debian&version_id=7&arch=amd64".toList :=
  (C112_linux_partial debian _ _ "debian".toList "7".toList "amd64".toList (.inl rfl) rfl debian_file
    (.inl ⟨[], _, rfl, by decide +kernel⟩) (.inl ⟨[_], [], rfl, by simp⟩)
    ⟨_, [], "\n".toList, .inl rfl, by decide +kernel, by decide +kernel, by
      rintro c (h | h)
      · have : c = 'a' := by injection h with h; exact h.symm
        subst this
        decide
      · have : c = '4' := by injection h with h; exact h.symm
        subst this
        decide⟩).2

example : run { debian with platform := "win32".toList } = .value "local://localhost/?os=win32".toList :=
  (C112_windows { debian with platform := "win32".toList } rfl).2

/-- The hypotheses of `C112_uname_violated` are met. -/
example : run { debian with dpkg := none } = .attributeError :=
  (C112_uname_violated { debian with dpkg := none } _ _ (.inl rfl) rfl debian_file rfl rfl).2

example : run { debian with osFile := none } = .value "No supported devices detected?".toList :=
  (C112_none { debian with osFile := none } (.inl ⟨.inl rfl, rfl⟩)).2

end Verif.Cookie
