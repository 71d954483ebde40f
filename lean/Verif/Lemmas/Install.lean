import Verif.Model.Install
import Verif.Lemmas.Path

/-! # Installing a provider: the file system -/

namespace Verif.Install

/-- `q` is somewhere below `t`. -/
def Under (t q : Str) : Prop := ∃ r, q = t ++ '/' :: r

/-- Neither path leads through the other. -/
def Apart (a b : Str) : Prop := a ≠ b ∧ ¬ Under a b ∧ ¬ Under b a

theorem Apart.symm {a b : Str} (h : Apart a b) : Apart b a := ⟨fun e => h.1 e.symm, h.2.2, h.2.1⟩

theorem Under.trans {a b c : Str} (h : Under a b) (h' : Under b c) : Under a c := by
  obtain ⟨r, rfl⟩ := h
  obtain ⟨s, rfl⟩ := h'
  exact ⟨r ++ '/' :: s, by simp⟩

/-- Two places above the same place. -/
theorem under_both {a b q : Str} (h : Under a q) (h' : Under b q) : a = b ∨ Under a b ∨ Under b a := by
  obtain ⟨r, rfl⟩ := h
  obtain ⟨s, e⟩ := h'
  rcases List.append_eq_append_iff.mp e with ⟨x, h1, h2⟩ | ⟨x, h1, h2⟩
  · cases x with
    | nil => exact .inl (by rw [h1]; simp)
    | cons c x =>
      rw [List.cons_append] at h2
      injection h2 with hc _
      exact .inr (.inl ⟨x, by rw [h1, hc]⟩)
  · cases x with
    | nil => exact .inl (by rw [h1]; simp)
    | cons c x =>
      rw [List.cons_append] at h2
      injection h2 with hc _
      exact .inr (.inr ⟨x, by rw [h1, hc]⟩)

theorem Apart.below {a t q : Str} (h : Apart a t) (hq : q = a ∨ Under a q) : Apart q t := by
  rcases hq with rfl | hq
  · exact h
  · refine ⟨?_, ?_, ?_⟩
    · rintro rfl; exact h.2.1 hq
    · exact fun hu => h.2.1 (hq.trans hu)
    · intro hu
      rcases under_both hq hu with e | e | e
      · exact h.1 e
      · exact h.2.1 e
      · exact h.2.2 e

theorem isAbove_iff {q p : Str} : isAbove q p = true ↔ q ≠ [] ∧ Under q p := by
  unfold isAbove
  rw [Bool.and_eq_true, List.isPrefixOf_iff_prefix]
  constructor
  · rintro ⟨h1, r, rfl⟩
    have : q ≠ [] := by rintro rfl; cases h1
    exact ⟨this, r, by simp⟩
  · rintro ⟨h1, r, rfl⟩
    refine ⟨?_, r, by simp⟩
    cases q with
    | nil => exact absurd rfl h1
    | cons => rfl

theorem isDir_iff {fs : FS} {p : Str} : isDir fs p = true ↔ fs p = some .dir := by
  unfold isDir
  split
  · rename_i h; simp [h]
  · rename_i h
    constructor
    · intro e; cases e
    · intro e; exact absurd e h

theorem present_iff {fs : FS} {p : Str} : present fs p = true ↔ fs p ≠ none := by
  unfold present
  rw [Option.isSome_iff_ne_none]

theorem not_present {fs : FS} {p : Str} : present fs p = false ↔ fs p = none := by
  unfold present
  rw [Option.isSome_eq_false_iff, Option.isNone_iff_eq_none]

theorem isFile_iff {fs : FS} {p : Str} : isFile fs p = true ↔ ∃ n, fs p = some n ∧ n ≠ .dir := by
  unfold isFile present isDir
  cases h : fs p with
  | none => simp
  | some n => cases n <;> simp

theorem blocked_iff {fs : FS} {p : Str} :
    blocked fs p = true ↔ ∃ q, q ≠ [] ∧ Under q p ∧ isFile fs q = true := by
  unfold blocked
  rw [List.any_eq_true]
  constructor
  · rintro ⟨i, _, h⟩
    rw [Bool.and_eq_true, isAbove_iff] at h
    exact ⟨_, h.1.1, h.1.2, h.2⟩
  · rintro ⟨q, h1, ⟨r, rfl⟩, h3⟩
    refine ⟨q.length, ?_, ?_⟩
    · rw [List.mem_range]; simp
    · rw [List.take_left, Bool.and_eq_true, isAbove_iff]
      exact ⟨⟨h1, r, rfl⟩, h3⟩

theorem not_blocked {fs : FS} {p : Str} :
    blocked fs p = false ↔ ∀ q, q ≠ [] → Under q p → isFile fs q = false := by
  rw [← Bool.not_eq_true, blocked_iff]
  constructor
  · intro h q h1 h2
    cases h3 : isFile fs q with
    | false => rfl
    | true => exact absurd ⟨q, h1, h2, h3⟩ h
  · rintro h ⟨q, h1, h2, h3⟩
    rw [h q h1 h2] at h3
    cases h3

/-- The command changed nothing outside the place `t`, except that it made directories above it. -/
structure Frame (t : Str) (fs fs' : FS) : Prop where
  same : ∀ q, Apart q t → fs' q = fs q
  free : ∀ p, Apart p t → blocked fs p = false → blocked fs' p = false
  dirs : ∀ q, isDir fs q = true → isDir fs' q = true

theorem Frame.refl (t : Str) (fs : FS) : Frame t fs fs := ⟨fun _ _ => rfl, fun _ _ h => h, fun _ h => h⟩

theorem Frame.trans {t : Str} {a b c : FS} (h : Frame t a b) (h' : Frame t b c) : Frame t a c :=
  ⟨fun q hq => (h'.same q hq).trans (h.same q hq), fun p hp hb => h'.free p hp (h.free p hp hb),
   fun q hq => h'.dirs q (h.dirs q hq)⟩

/-- New files are only at the place or below it. -/
theorem free_of {t : Str} {fs fs' : FS}
    (h : ∀ q, isFile fs' q = true → isFile fs q = true ∨ q = t ∨ Under t q) (p : Str) (hp : Apart p t)
    (hb : blocked fs p = false) : blocked fs' p = false := by
  rw [not_blocked] at *
  intro q h1 h2
  cases h3 : isFile fs' q with
  | false => rfl
  | true =>
    rcases h q h3 with h | rfl | h
    · rw [hb q h1 h2] at h; cases h
    · exact absurd h2 hp.2.2
    · exact absurd (h.trans h2) hp.2.2

open Classical in
theorem makedirs_at {fs : FS} {p : Str} (hb : blocked fs p = false) (q : Str) :
    makedirs p fs q = if fs q = none ∧ (q = p ∨ (q ≠ [] ∧ Under q p)) then some .dir else fs q := by
  unfold makedirs
  rw [hb, if_neg (by decide)]
  have : (!present fs q && (q == p || isAbove q p)) = true ↔
      fs q = none ∧ (q = p ∨ (q ≠ [] ∧ Under q p)) := by
    rw [Bool.and_eq_true, Bool.or_eq_true, isAbove_iff, beq_iff_eq, Bool.not_eq_true', not_present]
  by_cases h : fs q = none ∧ (q = p ∨ (q ≠ [] ∧ Under q p))
  · rw [if_pos h, if_pos (this.mpr h)]
  · rw [if_neg h, if_neg (fun e => h (this.mp e))]

theorem makedirs_file {fs : FS} {p : Str} (hb : blocked fs p = false) (q : Str)
    (h : isFile (makedirs p fs) q = true) : isFile fs q = true := by
  rw [isFile_iff] at *
  obtain ⟨n, h1, h2⟩ := h
  rw [makedirs_at hb] at h1
  split at h1
  · cases h1; exact absurd rfl h2
  · exact ⟨n, h1, h2⟩

theorem makedirs_dirs {fs : FS} {p : Str} (hb : blocked fs p = false) (q : Str) (h : isDir fs q = true) :
    isDir (makedirs p fs) q = true := by
  rw [isDir_iff] at *
  rw [makedirs_at hb, if_neg (by rw [h]; simp), h]

theorem makedirs_frame {fs : FS} {p : Str} (hb : blocked fs p = false) : Frame p fs (makedirs p fs) := by
  refine ⟨?_, free_of fun q h => .inl (makedirs_file hb q h), makedirs_dirs hb⟩
  intro q hq
  rw [makedirs_at hb, if_neg]
  rintro ⟨_, e | ⟨_, e⟩⟩
  · exact hq.1 e
  · exact hq.2.1 e

theorem makedirs_self {fs : FS} {p : Str} (hb : blocked fs p = false) (hf : isFile fs p = false) :
    isDir (makedirs p fs) p = true := by
  rw [isDir_iff, makedirs_at hb]
  cases h : fs p with
  | none => rw [if_pos ⟨rfl, .inl rfl⟩]
  | some n =>
    rw [if_neg (by simp)]
    cases n with
    | dir => rfl
    | bytes b => rw [← Bool.not_eq_true, isFile_iff] at hf; exact absurd ⟨_, h, by simp⟩ hf
    | defn b => rw [← Bool.not_eq_true, isFile_iff] at hf; exact absurd ⟨_, h, by simp⟩ hf

/-- A path that has a parent directory. -/
def Form (x a : Str) : Prop := ∃ t, x = a ++ '/' :: t ∧ '/' ∉ t ∧ a ≠ [] ∧ a.getLast? ≠ some '/'

theorem Form.dirname {x a : Str} (h : Form x a) : Path.dirname x = a := by
  obtain ⟨t, rfl, h1, h2, h3⟩ := h
  exact Path.dirname_slash h1 h2 h3

theorem Form.under {x a : Str} (h : Form x a) : Under a x := by
  obtain ⟨t, rfl, _⟩ := h
  exact ⟨t, rfl⟩

theorem under_self {a : Str} : ¬ Under a a := by
  rintro ⟨r, h⟩
  have := congrArg List.length h
  simp at this

theorem parent_free {fs : FS} {x a : Str} (h : Under a x) (hb : blocked fs x = false) : blocked fs a = false := by
  rw [not_blocked] at *
  exact fun q h1 h2 => hb q h1 (h2.trans h)

/-- Making the parent directory, seen from the place itself. -/
theorem parent_frame {fs : FS} {x a : Str} (h : Under a x) (hb : blocked fs x = false) :
    Frame x fs (makedirs a fs) := by
  have ha := parent_free h hb
  refine ⟨?_, free_of fun q h => .inl (makedirs_file ha q h), makedirs_dirs ha⟩
  intro q hq
  rw [makedirs_at ha, if_neg]
  rintro ⟨_, rfl | ⟨_, e⟩⟩
  · exact hq.2.1 h
  · exact hq.2.1 (e.trans h)

/-- Nothing changes at the place or below it when the parent directory is made. -/
theorem parent_below {fs : FS} {x a : Str} (h : Under a x) (hb : blocked fs x = false) (q : Str)
    (hq : q = x ∨ Under x q) : makedirs a fs q = fs q := by
  rw [makedirs_at (parent_free h hb), if_neg]
  have hu : Under a q := by
    rcases hq with rfl | hq
    · exact h
    · exact h.trans hq
  rintro ⟨_, rfl | ⟨_, e⟩⟩
  · exact under_self hu
  · exact under_self (hu.trans e)

theorem parent_blocked {fs : FS} {x a : Str} (h : Under a x) (hb : blocked fs x = false) :
    blocked (makedirs a fs) x = false := by
  rw [not_blocked] at *
  intro q h1 h2
  cases h3 : isFile (makedirs a fs) q with
  | false => rfl
  | true =>
    have := makedirs_file (parent_free h (not_blocked.mpr hb)) q h3
    rw [hb q h1 h2] at this
    cases this

/-! ## Files -/

theorem put_frame {fs : FS} {p t : Str} {n : Node} (hd : isDir fs p = false) (ht : p = t ∨ Under t p) :
    Frame t fs (put p n fs) := by
  refine ⟨?_, free_of ?_, ?_⟩
  · intro q hq
    unfold put
    rw [if_neg]
    rintro rfl
    rcases ht with rfl | ht
    · exact hq.1 rfl
    · exact hq.2.2 ht
  · intro q h
    by_cases e : q = p
    · rw [e]; exact .inr ht
    · refine .inl ?_
      rw [isFile_iff] at *
      unfold put at h
      rw [if_neg e] at h
      exact h
  · intro q h
    rw [isDir_iff] at *
    unfold put
    rw [if_neg]
    · exact h
    · rintro rfl
      rw [← isDir_iff, hd] at h
      cases h

/-! ## Trees -/

/-- A tree is copied. -/
theorem copytree_ok {fs : FS} {src x a : Str} (ha : Under a x) (hs : isDir fs src = true)
    (hx : fs x = none) (hb : blocked fs x = false) (hn : ∀ r, fs (x ++ '/' :: r) = none)
    (hsx : Apart src x) :
    ∃ fs', copytree src x (makedirs a fs) = (fs', none) ∧ Frame x fs fs' ∧
      fs' x = some .dir ∧ (∀ r, fs' (x ++ '/' :: r) = fs (src ++ '/' :: r)) ∧
      (∀ q, q ≠ [] → Under q x → isDir fs' q = true) := by
  have pf := parent_frame ha hb
  have hx0 : makedirs a fs x = none := by rw [parent_below ha hb x (.inl rfl), hx]
  have hb0 := parent_blocked ha hb
  have hs0 : isDir (makedirs a fs) src = true := pf.dirs src hs
  have hn0 : ∀ r, makedirs a fs (x ++ '/' :: r) = none := fun r => by
    rw [parent_below ha hb _ (.inr ⟨r, rfl⟩), hn]
  have hsr : ∀ r, makedirs a fs (src ++ '/' :: r) = fs (src ++ '/' :: r) := fun r =>
    pf.same _ (hsx.below (.inr ⟨r, rfl⟩))
  generalize makedirs a fs = g at *
  unfold copytree
  have hc : ¬ (isDir g src = false ∨ present g x = true ∨ blocked g x = true) := by
    rw [hs0, hb0]
    rintro (h | h | h)
    · cases h
    · exact absurd hx0 (present_iff.mp h)
    · cases h
  rw [if_neg hc]
  refine ⟨_, rfl, ⟨?_, ?_, ?_⟩, ?_, ?_, ?_⟩
  · intro q hq
    split
    · exact pf.same q hq
    · rename_i h
      rw [Bool.not_eq_true, not_present, pf.same q hq] at h
      rw [if_neg, if_neg, h]
      · intro e; exact hq.2.2 (isAbove_iff.mp e).2
      · rw [Bool.or_eq_true, beq_iff_eq, isAbove_iff]
        rintro (e | e)
        · exact hq.1 e
        · exact hq.2.1 e.2
  · intro p hp h
    refine free_of (t := x) (fs := g) ?_ p hp (pf.free p hp h)
    intro q h
    rw [isFile_iff] at h
    obtain ⟨n, h1, h2⟩ := h
    split at h1
    · exact .inl (isFile_iff.mpr ⟨n, h1, h2⟩)
    · split at h1
      · cases h1; exact absurd rfl h2
      · split at h1
        · rename_i h; exact .inr (.inr (isAbove_iff.mp h).2)
        · cases h1
  · intro q h
    have := pf.dirs q h
    rw [isDir_iff] at *
    rw [if_pos (present_iff.mpr (by rw [this]; simp)), this]
  · rw [if_neg (by rw [present_iff]; exact fun h => h hx0), if_pos (by simp)]
  · intro r
    have hne : x ≠ [] := by
      obtain ⟨t, rfl⟩ := ha
      simp
    rw [if_neg (by rw [present_iff]; exact fun h => h (hn0 r)), if_neg, if_pos]
    · rw [List.drop_left, hsr]
    · exact isAbove_iff.mpr ⟨hne, r, rfl⟩
    · rw [Bool.or_eq_true, beq_iff_eq, isAbove_iff]
      have hu : Under x (x ++ '/' :: r) := ⟨r, rfl⟩
      rintro (e | e)
      · rw [e] at hu; exact under_self hu
      · exact under_self (hu.trans e.2)
  · intro q h1 h2
    rw [isDir_iff]
    have hq := (not_blocked.mp hb0) q h1 h2
    by_cases h : present g q = true
    · rw [if_pos h]
      cases hg : g q with
      | none => exact absurd hg (present_iff.mp h)
      | some n =>
        cases n with
        | dir => rfl
        | bytes b => rw [← Bool.not_eq_true, isFile_iff] at hq; exact absurd ⟨_, hg, by simp⟩ hq
        | defn b => rw [← Bool.not_eq_true, isFile_iff] at hq; exact absurd ⟨_, hg, by simp⟩ hq
    · rw [if_neg h, if_pos]
      rw [Bool.or_eq_true, isAbove_iff]
      exact .inr ⟨h1, h2⟩

/-! ## Executables -/

theorem join_bin {b t : Str} (hb : b ≠ []) (hl : b.getLast? ≠ some '/') (ht : '/' ∉ t) :
    Path.join b t = b ++ '/' :: t := by
  unfold Path.join
  rw [if_neg, if_neg]
  · rintro (h | h)
    · exact hb h
    · exact hl h
  · intro h
    cases t with
    | nil => cases h
    | cons c t => injection h with h; exact ht (h ▸ List.mem_cons_self)

/-- Files are copied into a directory that holds no directories. -/
theorem copyFiles_ok {b : Str} (hb : b ≠ []) (hl : b.getLast? ≠ some '/') :
    ∀ (es : List Str) (fs : FS), isDir fs b = true → (∀ r, isDir fs (b ++ '/' :: r) = false) →
      (∀ e ∈ es, isFile fs e = true ∧ Apart e b) →
      ∃ fs', copyFiles b es fs = (fs', none) ∧ Frame b fs fs' ∧
        (∀ r, isDir fs' (b ++ '/' :: r) = false) ∧
        (∀ r, (∀ e ∈ es, Path.basename e ≠ r) → fs' (b ++ '/' :: r) = fs (b ++ '/' :: r)) ∧
        ((es.map Path.basename).Nodup → ∀ e ∈ es, fs' (b ++ '/' :: Path.basename e) = fs e) := by
  intro es
  induction es with
  | nil =>
    intro fs _ h2 _
    exact ⟨fs, rfl, Frame.refl b fs, h2, fun _ _ => rfl, fun _ e h => by cases h⟩
  | cons e es ih =>
    intro fs h1 h2 h3
    obtain ⟨hf, ha⟩ := h3 e List.mem_cons_self
    obtain ⟨n, hn, hd⟩ := isFile_iff.mp hf
    have hj := join_bin hb hl (Path.after_noSlash e)
    change Path.join b (Path.basename e) = b ++ '/' :: Path.basename e at hj
    have h2e := h2 (Path.basename e)
    have pf : Frame b fs (put (b ++ '/' :: Path.basename e) n fs) := put_frame h2e (.inr ⟨_, rfl⟩)
    have hc : copyFile e b fs = (put (b ++ '/' :: Path.basename e) n fs, none) := by
      unfold copyFile
      rw [hn]
      cases n with
      | dir => exact absurd rfl hd
      | bytes x => dsimp only; rw [if_pos h1, hj, if_neg (by rw [h2e]; decide)]
      | defn x => dsimp only; rw [if_pos h1, hj, if_neg (by rw [h2e]; decide)]
    obtain ⟨fs', e1, e2, e3, e4, e5⟩ := ih (put (b ++ '/' :: Path.basename e) n fs) (pf.dirs b h1)
      (by
        intro r
        unfold isDir put
        by_cases hr : b ++ '/' :: r = b ++ '/' :: Path.basename e
        · rw [if_pos hr]
          cases n with
          | dir => exact absurd rfl hd
          | bytes => rfl
          | defn => rfl
        · rw [if_neg hr]; exact h2 r)
      (by
        intro e' he'
        obtain ⟨hf', ha'⟩ := h3 e' (List.mem_cons_of_mem _ he')
        refine ⟨?_, ha'⟩
        rw [isFile_iff] at *
        rw [pf.same e' ha']
        exact hf')
    refine ⟨fs', ?_, pf.trans e2, e3, ?_, ?_⟩
    · unfold copyFiles
      rw [hc]
      exact e1
    · intro r hr
      rw [e4 r fun e' he' => hr e' (List.mem_cons_of_mem _ he')]
      unfold put
      rw [if_neg]
      intro h
      have := List.append_cancel_left h
      injection this with _ h
      exact hr e List.mem_cons_self h.symm
    · intro hnd e' he'
      rw [List.map_cons, List.nodup_cons] at hnd
      rcases List.mem_cons.mp he' with rfl | he'
      · rw [e4 _ fun e2 h2 heq => hnd.1 (List.mem_map.mpr ⟨e2, h2, heq⟩)]
        unfold put
        rw [if_pos rfl, hn]
      · rw [e5 hnd.2 e' he', pf.same e' (h3 e' (List.mem_cons_of_mem _ he')).2]

/-- All executables are copied. -/
theorem copyExecs_ok {b : Str} (hb : b ≠ []) (hl : b.getLast? ≠ some '/') (es : List Str) (fs : FS)
    (h0 : fs b = none) (hbl : blocked fs b = false) (hn : ∀ r, fs (b ++ '/' :: r) = none)
    (he : ∀ e ∈ es, isFile fs e = true ∧ Apart e b) :
    ∃ fs', copyExecs es b fs = (fs', none) ∧ Frame b fs fs' ∧
      (es = [] → fs' = fs) ∧
      (es ≠ [] → isDir fs' b = true ∧ ∀ q, q ≠ [] → Under q b → isDir fs' q = true) ∧
      ((es.map Path.basename).Nodup → ∀ e ∈ es, fs' (b ++ '/' :: Path.basename e) = fs e) := by
  unfold copyExecs
  by_cases hes : es = []
  · rw [if_pos hes]
    subst hes
    exact ⟨fs, rfl, Frame.refl b fs, fun _ => rfl, fun h => absurd rfl h, fun _ e h => by cases h⟩
  · rw [if_neg hes]
    have mf := makedirs_frame hbl
    have hm : isDir (makedirs b fs) b = true := by
      refine makedirs_self hbl ?_
      rw [← Bool.not_eq_true, isFile_iff]
      rintro ⟨n, h, _⟩
      rw [h0] at h
      cases h
    have hmn : ∀ r, makedirs b fs (b ++ '/' :: r) = none := by
      intro r
      rw [makedirs_at hbl, if_neg, hn]
      have hu : Under b (b ++ '/' :: r) := ⟨r, rfl⟩
      rintro ⟨_, e | ⟨_, e⟩⟩
      · rw [e] at hu; exact under_self hu
      · exact under_self (hu.trans e)
    obtain ⟨fs', e1, e2, _, _, e5⟩ := copyFiles_ok hb hl es (makedirs b fs) hm
      (fun r => by unfold isDir; rw [hmn r])
      (fun e h => ⟨by rw [isFile_iff]; rw [mf.same e (he e h).2]; exact isFile_iff.mp (he e h).1, (he e h).2⟩)
    refine ⟨fs', e1, mf.trans e2, fun h => absurd h hes, fun _ => ⟨e2.dirs b hm, ?_⟩, ?_⟩
    · intro q h1 h2
      refine e2.dirs q ?_
      have hq := not_blocked.mp hbl q h1 h2
      rw [isDir_iff, makedirs_at hbl]
      cases hg : fs q with
      | none => rw [if_pos ⟨rfl, .inr ⟨h1, h2⟩⟩]
      | some n =>
        rw [if_neg (by simp)]
        cases n with
        | dir => rfl
        | bytes b => rw [← Bool.not_eq_true, isFile_iff] at hq; exact absurd ⟨_, hg, by simp⟩ hq
        | defn b => rw [← Bool.not_eq_true, isFile_iff] at hq; exact absurd ⟨_, hg, by simp⟩ hq
    · intro hnd e h
      rw [e5 hnd e h, mf.same e (he e h).2]

/-! ## Directories -/

/-- Entries of the map can be copied: the source is absent, or it is a directory and there is nothing at
the destination. -/
structure Ready (location root : Str) (l : List (Str × Str)) (fs : FS) : Prop where
  entry : ∀ e ∈ l, e.1 ≠ "bin".toList ∧ e.2.head? = some '/'
  source : ∀ e ∈ l, fs (Path.join location e.1) ≠ none → isDir fs (Path.join location e.1) = true ∧
    (∃ a, Form (root ++ e.2) a) ∧ fs (root ++ e.2) = none ∧ blocked fs (root ++ e.2) = false ∧
    (∀ r, fs (root ++ (e.2 ++ '/' :: r)) = none)
  apart : ∀ e ∈ l, ∀ f ∈ l, Apart (Path.join location e.1) (root ++ f.2)
  disjoint : l.Pairwise fun e f => fs (Path.join location e.1) ≠ none →
    fs (Path.join location f.1) ≠ none → Apart (root ++ e.2) (root ++ f.2)

/-- The directories are copied. -/
theorem copyData_ok (location root : Str) : ∀ (l : List (Str × Str)) (fs : FS), Ready location root l fs →
    ∃ fs', copyData location root l fs = (fs', none) ∧
      (∀ q, (∀ e ∈ l, fs (Path.join location e.1) ≠ none → Apart q (root ++ e.2)) → fs' q = fs q) ∧
      (∀ q, isDir fs q = true → isDir fs' q = true) ∧
      (∀ e ∈ l, fs (Path.join location e.1) ≠ none → isDir fs' (root ++ e.2) = true ∧
        (∀ r, fs' (root ++ (e.2 ++ '/' :: r)) = fs (Path.join location e.1 ++ '/' :: r)) ∧
        ∀ q, q ≠ [] → Under q (root ++ e.2) → isDir fs' q = true) := by
  intro l
  induction l with
  | nil => intro fs _; exact ⟨fs, rfl, fun _ _ => rfl, fun _ h => h, fun e h => by cases h⟩
  | cons e l ih =>
    intro fs h
    obtain ⟨s, dst⟩ := e
    obtain ⟨hb, hd⟩ := h.entry _ List.mem_cons_self
    dsimp only at hb hd
    obtain ⟨hp1, hp2⟩ := List.pairwise_cons.mp h.disjoint
    have tail : Ready location root l fs :=
      ⟨fun e he => h.entry e (List.mem_cons_of_mem _ he), fun e he => h.source e (List.mem_cons_of_mem _ he),
       fun e he f hf => h.apart e (List.mem_cons_of_mem _ he) f (List.mem_cons_of_mem _ hf), hp2⟩
    have step : copyData location root ((s, dst) :: l) fs =
        if present fs (Path.join location s) then
          (copytree (Path.join location s) (root ++ dst) (makedirs (Path.dirname (root ++ dst)) fs)).andThen
            (copyData location root l)
        else copyData location root l fs := by
      rw [copyData, if_neg hb, if_neg (fun e => e hd)]
    rw [step]
    by_cases hs : fs (Path.join location s) = none
    · rw [if_neg (by rw [present_iff]; exact fun e => e hs)]
      obtain ⟨fs', e1, e2, e3, e4⟩ := ih fs tail
      refine ⟨fs', e1, ?_, e3, ?_⟩
      · exact fun q hq => e2 q fun e he => hq e (List.mem_cons_of_mem _ he)
      · intro e he hne
        rcases List.mem_cons.mp he with rfl | he
        · exact absurd hs hne
        · exact e4 e he hne
    · rw [if_pos (present_iff.mpr hs)]
      obtain ⟨g1, ⟨a, g2⟩, g3, g4, g5⟩ := h.source _ List.mem_cons_self hs
      dsimp only at g1 g2 g3 g4 g5
      obtain ⟨f1, c1, c2, c3, c4, c5⟩ := copytree_ok g2.under g1 g3 g4
        (fun r => by rw [List.append_assoc]; exact g5 r) (h.apart _ List.mem_cons_self _ List.mem_cons_self)
      rw [g2.dirname, c1]
      -- the rest does not notice
      have hsrc : ∀ e ∈ l, ∀ q, q = Path.join location e.1 ∨ Under (Path.join location e.1) q → f1 q = fs q :=
        fun e he q hq => c2.same q
          ((h.apart e (List.mem_cons_of_mem _ he) _ List.mem_cons_self).below hq)
      have hdst : ∀ e ∈ l, fs (Path.join location e.1) ≠ none → Apart (root ++ e.2) (root ++ dst) :=
        fun e he hne => (hp1 e he hs hne).symm
      have next : Ready location root l f1 := by
        refine ⟨tail.entry, ?_, tail.apart, ?_⟩
        · intro e he hne
          rw [hsrc e he _ (.inl rfl)] at hne
          obtain ⟨k1, k2, k3, k4, k5⟩ := tail.source e he hne
          have ap := hdst e he hne
          refine ⟨c2.dirs _ k1, k2, ?_, c2.free _ ap k4, ?_⟩
          · rw [c2.same _ ap, k3]
          · intro r
            rw [c2.same _ (ap.below (.inr ⟨r, by rw [List.append_assoc]⟩)), k5]
        · refine hp2.imp_of_mem ?_
          intro e f he hf hh h1 h2
          rw [hsrc e he _ (.inl rfl)] at h1
          rw [hsrc f hf _ (.inl rfl)] at h2
          exact hh h1 h2
      obtain ⟨fs', e1, e2, e3, e4⟩ := ih f1 next
      have keep : ∀ q, q = root ++ dst ∨ Under (root ++ dst) q → fs' q = f1 q := by
        intro q hq
        refine e2 q fun e he hne => ?_
        rw [hsrc e he _ (.inl rfl)] at hne
        exact (hdst e he hne).symm.below hq
      refine ⟨fs', e1, ?_, fun q hq => e3 q (c2.dirs q hq), ?_⟩
      · intro q hq
        rw [e2 q, c2.same q (hq _ List.mem_cons_self hs)]
        intro e he hne
        rw [hsrc e he _ (.inl rfl)] at hne
        exact hq e (List.mem_cons_of_mem _ he) hne
      · intro e he hne
        rcases List.mem_cons.mp he with rfl | he
        · refine ⟨?_, ?_, ?_⟩
          · rw [isDir_iff, keep _ (.inl rfl)]; exact c3
          · intro r
            dsimp only
            rw [keep _ (.inr ⟨r, by rw [List.append_assoc]⟩), ← List.append_assoc, c4]
          · exact fun q h1 h2 => e3 q (c5 q h1 h2)
        · have hne1 : f1 (Path.join location e.1) ≠ none := by rw [hsrc e he _ (.inl rfl)]; exact hne
          obtain ⟨k1, k2, k3⟩ := e4 e he hne1
          refine ⟨k1, ?_, k3⟩
          intro r
          rw [k2 r, hsrc e he _ (.inr ⟨r, rfl⟩)]

end Verif.Install
