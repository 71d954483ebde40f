import Verif.Model.Leftover

/-!
# What commands leave behind (C98)
-/

namespace Verif.Leftover

open Verif.Path

/-! ## Specification -/

/-- Kinds of entries. -/
inductive Kind
  | file | link | dir (readable : Bool)
deriving DecidableEq

/-- The entry that is found by going down from a directory along names. -/
inductive At : Tree → List Str → Kind → Prop
  | file (n r) : At (.file n r) [n] .file
  | link (n r) : At (.link n r) [n] .link
  | dir (n b i r) : At (.dir n b i r) [n] (.dir b)
  | inner (n b i r) {p k} : At i p k → At (.dir n b i r) (n :: p) k
  | restF (n r) {p k} : At r p k → At (.file n r) p k
  | restL (n r) {p k} : At r p k → At (.link n r) p k
  | restD (n b i r) {p k} : At r p k → At (.dir n b i r) p k

/-- All directories can be read. -/
def Open (t : Tree) : Prop := ∀ p b, At t p (.dir b) → b = true

/-- Names of entries are neither empty nor do they have slashes. -/
def Proper (t : Tree) : Prop := ∀ p k, At t p k → ∀ n ∈ p, n ≠ [] ∧ '/' ∉ n

/-- A path as it is written. -/
def spell : List Str → Str
  | [] => []
  | [n] => n
  | n :: p => n ++ '/' :: spell p

/-! ## Lemmas -/

/-- A directory as `mkdtemp` returns it. -/
def Good (d : Str) : Prop := d ≠ [] ∧ d.getLast? ≠ some '/'

theorem join_good {d n : Str} (hd : Good d) (hn : '/' ∉ n) : join d n = d ++ '/' :: n := by
  unfold join
  rw [if_neg, if_neg]
  · rintro (h | h)
    · exact hd.1 h
    · exact hd.2 h
  · intro h
    cases n with
    | nil => cases h
    | cons c n => simp only [List.head?_cons, Option.some.injEq] at h; subst h; simp at hn

theorem good_join {d n : Str} (hn : n ≠ []) (h : '/' ∉ n) : Good (d ++ '/' :: n) := by
  refine ⟨by simp, ?_⟩
  rw [List.getLast?_append, List.getLast?_cons]
  intro hh
  cases n with
  | nil => exact hn rfl
  | cons c n =>
    have hm : (c :: n).getLast (by simp) ∈ c :: n := List.getLast_mem _
    have : (c :: n).getLast (by simp) = '/' := by simpa [List.getLast?_eq_some_getLast, Option.getD] using hh
    rw [this] at hm
    exact h hm

theorem spell_cons (n : Str) {p : List Str} (h : p ≠ []) : spell (n :: p) = n ++ '/' :: spell p := by
  cases p with
  | nil => exact absurd rfl h
  | cons m p => rfl

theorem at_ne {t : Tree} {p : List Str} {k : Kind} (h : At t p k) : p ≠ [] := by
  induction h <;> simp_all

theorem mem_filenames (t : Tree) (n : Str) : n ∈ filenames t ↔ At t [n] .file := by
  induction t with
  | nil => exact ⟨nofun, nofun⟩
  | file m r ih =>
    rw [filenames, List.mem_cons, ih]
    constructor
    · rintro (rfl | h)
      · exact .file _ _
      · exact .restF _ _ h
    · intro h
      cases h with
      | file => exact .inl rfl
      | restF _ _ h => exact .inr h
  | link m r ih =>
    rw [filenames, ih]
    constructor
    · intro h; exact .restL _ _ h
    · intro h
      cases h with
      | restL _ _ h => exact h
  | dir m b i r _ ih =>
    rw [filenames, ih]
    constructor
    · intro h; exact .restD _ _ _ _ h
    · intro h
      cases h with
      | inner _ _ _ _ h => exact absurd rfl (at_ne h)
      | restD _ _ _ _ h => exact h

/-- The members of what is walked: readable directories below readable directories. -/
inductive Seen : Tree → List Str → Kind → Prop
  | file (n r) : Seen (.file n r) [n] .file
  | dir (n i r) : Seen (.dir n true i r) [n] (.dir true)
  | inner (n i r) {p k} : Seen i p k → Seen (.dir n true i r) (n :: p) k
  | restF (n r) {p k} : Seen r p k → Seen (.file n r) p k
  | restL (n r) {p k} : Seen r p k → Seen (.link n r) p k
  | restD (n b i r) {p k} : Seen r p k → Seen (.dir n b i r) p k

theorem seen_at {t : Tree} {p : List Str} {k : Kind} (h : Seen t p k) : At t p k ∧ k ≠ .link := by
  induction h with
  | file => exact ⟨.file _ _, nofun⟩
  | dir => exact ⟨.dir _ _ _ _, nofun⟩
  | inner _ _ _ _ ih => exact ⟨.inner _ _ _ _ ih.1, ih.2⟩
  | restF _ _ _ ih => exact ⟨.restF _ _ ih.1, ih.2⟩
  | restL _ _ _ ih => exact ⟨.restL _ _ ih.1, ih.2⟩
  | restD _ _ _ _ _ ih => exact ⟨.restD _ _ _ _ ih.1, ih.2⟩

theorem at_seen {t : Tree} {p : List Str} {k : Kind} (h : At t p k) (ho : Open t) (hk : k ≠ .link) : Seen t p k := by
  induction h with
  | file => exact .file _ _
  | link => exact absurd rfl hk
  | dir n b i r =>
    have : b = true := ho _ _ (.dir _ _ _ _)
    subst this
    exact .dir _ _ _
  | inner n b i r _ ih =>
    have : b = true := ho _ _ (.dir _ _ _ _)
    subst this
    exact .inner _ _ _ (ih (fun p b h => ho _ b (.inner _ _ _ _ h)) hk)
  | restF n r _ ih => exact .restF _ _ (ih (fun p b h => ho _ b (.restF _ _ h)) hk)
  | restL n r _ ih => exact .restL _ _ (ih (fun p b h => ho _ b (.restL _ _ h)) hk)
  | restD n b i r _ ih => exact .restD _ _ _ _ (ih (fun p b h => ho _ b (.restD _ _ _ _ h)) hk)

/-- The paths of the directories that are walked and of what is in them. -/
def below : Tree → List (List Str)
  | .nil => []
  | .file _ r => below r
  | .link _ r => below r
  | .dir n b i r => (if b then [n] :: (((filenames i).map fun m => [m]) ++ below i).map (n :: ·) else []) ++ below r

theorem mem_below (t : Tree) (p : List Str) :
    p ∈ ((filenames t).map fun m => [m]) ++ below t ↔ ∃ k, Seen t p k := by
  induction t generalizing p with
  | nil => exact ⟨nofun, nofun⟩
  | file m r ih =>
    rw [filenames, below, List.map_cons, List.cons_append, List.mem_cons, ih]
    constructor
    · rintro (rfl | ⟨k, h⟩)
      · exact ⟨_, .file _ _⟩
      · exact ⟨k, .restF _ _ h⟩
    · rintro ⟨k, h⟩
      cases h with
      | file => exact .inl rfl
      | restF _ _ h => exact .inr ⟨k, h⟩
  | link m r ih =>
    rw [filenames, below, ih]
    constructor
    · rintro ⟨k, h⟩; exact ⟨k, .restL _ _ h⟩
    · rintro ⟨k, h⟩
      cases h with
      | restL _ _ h => exact ⟨k, h⟩
  | dir m b i r ihi ihr =>
    have : p ∈ ((filenames (.dir m b i r)).map fun m => [m]) ++ below (.dir m b i r) ↔
        (b = true ∧ (p = [m] ∨ ∃ q, q ∈ ((filenames i).map fun m => [m]) ++ below i ∧ p = m :: q)) ∨
          p ∈ ((filenames r).map fun m => [m]) ++ below r := by
      rw [filenames, below]
      cases b
      · simp
      · simp only [if_true, List.mem_append, List.mem_cons, true_and, List.mem_map (f := (m :: ·))]
        constructor
        · rintro (h | (h | ⟨q, hq, rfl⟩) | h)
          · exact .inr (.inl h)
          · exact .inl (.inl h)
          · exact .inl (.inr ⟨q, hq, rfl⟩)
          · exact .inr (.inr h)
        · rintro ((h | ⟨q, hq, rfl⟩) | h | h)
          · exact .inr (.inl (.inl h))
          · exact .inr (.inl (.inr ⟨q, hq, rfl⟩))
          · exact .inl h
          · exact .inr (.inr h)
    rw [this, ihr]
    constructor
    · rintro (⟨rfl, rfl | ⟨q, hq, rfl⟩⟩ | ⟨k, h⟩)
      · exact ⟨_, .dir _ _ _⟩
      · obtain ⟨k, h⟩ := (ihi q).1 hq
        exact ⟨k, .inner _ _ _ h⟩
      · exact ⟨k, .restD _ _ _ _ h⟩
    · rintro ⟨k, h⟩
      cases h with
      | dir => exact .inl ⟨rfl, .inl rfl⟩
      | inner _ _ _ h => exact .inl ⟨rfl, .inr ⟨_, (ihi _).2 ⟨k, h⟩, rfl⟩⟩
      | restD _ _ _ _ h => exact .inr ⟨k, h⟩

theorem below_ne (t : Tree) : [] ∉ ((filenames t).map fun m => [m]) ++ below t := by
  rw [mem_below]
  rintro ⟨k, h⟩
  exact at_ne (seen_at h).1 rfl

/-- What a walk yields, put together as in the loop, but with all directories. -/
def flat (l : List (Str × List Str)) : List Str := l.flatMap fun x => x.1 :: x.2.map (join x.1)

theorem files_spelled {top : Str} (hg : Good top) {t : Tree} (hp : Proper t) :
    (filenames t).map (join top) = ((filenames t).map fun m => [m]).map fun p => top ++ '/' :: spell p := by
  rw [List.map_map]
  apply List.map_congr_left
  intro n hn
  exact join_good hg (hp _ _ ((mem_filenames t n).1 hn) n (by simp)).2

theorem flat_walk {top : Str} (hg : Good top) {t : Tree} (hp : Proper t) :
    flat (walk top t) = (below t).map fun p => top ++ '/' :: spell p := by
  induction t generalizing top with
  | nil => rfl
  | file n r ih => exact ih hg fun p k h => hp p k (.restF _ _ h)
  | link n r ih => exact ih hg fun p k h => hp p k (.restL _ _ h)
  | dir n b i r ihi ihr =>
    have hr := ihr hg fun p k h => hp p k (.restD _ _ _ _ h)
    have hn := hp _ _ (.dir n b i r) n (by simp)
    have hpi : Proper i := fun p k h m hm => hp _ _ (.inner n b i r h) m (List.mem_cons_of_mem _ hm)
    have hj := join_good hg hn.2
    have hg' : Good (join top n) := hj ▸ good_join hn.1 hn.2
    have hi := ihi hg' hpi
    rw [walk, below]
    unfold flat at *
    rw [List.flatMap_append, List.map_append, hr]
    congr 1
    cases b with
    | false => rfl
    | true =>
      simp only [if_true]
      rw [List.flatMap_cons, List.map_cons, List.cons_append, hi, files_spelled hg' hpi, ← List.map_append, hj, List.map_map]
      congr 1
      apply List.map_congr_left
      intro p hpm
      have : p ≠ [] := by rintro rfl; exact below_ne i hpm
      simp [Function.comp, spell_cons _ this]

theorem walk_longer {top : Str} (hg : Good top) {t : Tree} (hp : Proper t) : ∀ x ∈ walk top t, top.length < x.1.length := by
  induction t generalizing top with
  | nil => exact nofun
  | file n r ih => exact ih hg fun p k h => hp p k (.restF _ _ h)
  | link n r ih => exact ih hg fun p k h => hp p k (.restL _ _ h)
  | dir n b i r ihi ihr =>
    have hn := hp _ _ (.dir n b i r) n (by simp)
    have hpi : Proper i := fun p k h m hm => hp _ _ (.inner n b i r h) m (List.mem_cons_of_mem _ hm)
    have hj := join_good hg hn.2
    have hg' : Good (join top n) := hj ▸ good_join hn.1 hn.2
    have hlen : top.length < (join top n).length := by rw [hj]; simp
    intro x hx
    rw [walk, List.mem_append] at hx
    rcases hx with hx | hx
    · cases b with
      | false => cases hx
      | true =>
        simp only [if_true] at hx
        rcases List.mem_cons.1 hx with rfl | hx
        · exact hlen
        · have := ihi hg' hpi x hx
          omega
    · exact ihr hg (fun p k h => hp p k (.restD _ _ _ _ h)) x hx

theorem collect_other (cwd : Str) (l : List (Str × List Str)) (h : ∀ x ∈ l, x.1 ≠ cwd) : collect cwd l = flat l := by
  induction l with
  | nil => rfl
  | cons x l ih =>
    rw [collect, if_pos (h x List.mem_cons_self), ih fun y hy => h y (List.mem_cons_of_mem _ hy)]
    simp [flat]

/-- What is reported, as paths. -/
theorem leftovers_spelled {cwd : Str} (hg : Good cwd) {t : Tree} (hp : Proper t) :
    leftovers cwd t = (((filenames t).map fun m => [m]) ++ below t).map fun p => cwd ++ '/' :: spell p := by
  unfold leftovers
  rw [collect, if_neg (by simp), List.nil_append, files_spelled hg hp, collect_other, flat_walk hg hp, List.map_append]
  intro x hx h
  have := walk_longer hg hp x hx
  rw [h] at this
  omega

theorem relpath_of (cwd s : Str) : relpath cwd (cwd ++ '/' :: s) = s := by
  unfold relpath
  rw [List.drop_append, List.drop_of_length_le (by omega), show cwd.length + 1 - cwd.length = 1 by omega]
  rfl

theorem spell_inj {p q : List Str} (hp : ∀ n ∈ p, n ≠ [] ∧ '/' ∉ n) (hq : ∀ n ∈ q, n ≠ [] ∧ '/' ∉ n)
    (h : spell p = spell q) : p = q := by
  have first : ∀ (n : Str), '/' ∉ n → ∀ r : Str, (n ++ '/' :: r).takeWhile (· ≠ '/') = n := by
    intro n hn r
    induction n with
    | nil => simp
    | cons c n ih =>
      simp only [List.mem_cons, not_or] at hn
      rw [List.cons_append, List.takeWhile_cons_of_pos (by simpa using fun h => hn.1 h.symm), ih hn.2]
  have noslash : ∀ (n r : Str), '/' ∉ n → n ≠ n ++ '/' :: r ∧ ∀ m : Str, n ≠ m ++ '/' :: r := by
    intro n r hn
    exact ⟨fun h => hn (h ▸ by simp), fun m h => hn (h ▸ by simp)⟩
  induction p generalizing q with
  | nil =>
    cases q with
    | nil => rfl
    | cons m q =>
      exfalso
      have hm := (hq m (by simp)).1
      cases q with
      | nil => exact hm h.symm
      | cons m' q => rw [spell_cons m (by simp)] at h; exact absurd h (by simp [spell])
  | cons n p ih =>
    have hn := hp n (by simp)
    cases q with
    | nil =>
      exfalso
      cases p with
      | nil => exact hn.1 h
      | cons m' q => rw [spell_cons n (by simp)] at h; exact absurd h (by simp [spell])
    | cons m q =>
      have hm := hq m (by simp)
      cases p with
      | nil =>
        cases q with
        | nil => exact congrArg (fun x => [x]) h
        | cons m' q =>
          exfalso
          rw [spell_cons m (by simp)] at h
          exact (noslash n _ hn.2).2 m h
      | cons n' p =>
        cases q with
        | nil =>
          exfalso
          rw [spell_cons n (by simp)] at h
          exact (noslash m _ hm.2).2 n h.symm
        | cons m' q =>
          rw [spell_cons n (by simp), spell_cons m (by simp)] at h
          have h1 : n = m := by rw [← first n hn.2 (spell (n' :: p)), h, first m hm.2]
          subst h1
          have h2 : spell (n' :: p) = spell (m' :: q) := by
            have := List.append_cancel_left h
            exact List.cons.inj this |>.2
          rw [ih (fun x hx => hp x (List.mem_cons_of_mem _ hx)) (fun x hx => hq x (List.mem_cons_of_mem _ hx)) h2]

/-- The names in a directory. -/
def names : Tree → List Str
  | .nil => []
  | .file n r => n :: names r
  | .link n r => n :: names r
  | .dir n _ _ r => n :: names r

/-- No directory has two entries of one name. -/
def Distinct : Tree → Prop
  | .nil => True
  | .file n r => n ∉ names r ∧ Distinct r
  | .link n r => n ∉ names r ∧ Distinct r
  | .dir n _ i r => n ∉ names r ∧ Distinct i ∧ Distinct r

theorem at_names {t : Tree} {n : Str} {p : List Str} {k : Kind} (h : At t (n :: p) k) : n ∈ names t := by
  generalize hq : n :: p = q at h
  induction h with
  | file => cases hq; exact List.mem_cons_self
  | link => cases hq; exact List.mem_cons_self
  | dir => cases hq; exact List.mem_cons_self
  | inner => cases hq; exact List.mem_cons_self
  | restF _ _ _ ih => exact List.mem_cons_of_mem _ (ih hq)
  | restL _ _ _ ih => exact List.mem_cons_of_mem _ (ih hq)
  | restD _ _ _ _ _ ih => exact List.mem_cons_of_mem _ (ih hq)

theorem nodup_below {t : Tree} (h : Distinct t) : (((filenames t).map fun m => [m]) ++ below t).Nodup := by
  have inr : ∀ (r : Tree) (m : Str) (q : List Str), m ∉ names r →
      m :: q ∉ ((filenames r).map fun m => [m]) ++ below r := by
    intro r m q hm h
    obtain ⟨k, hk⟩ := (mem_below r _).1 h
    exact hm (at_names (seen_at hk).1)
  induction t with
  | nil => exact List.nodup_nil
  | file n r ih =>
    rw [filenames, below, List.map_cons, List.cons_append, List.nodup_cons]
    exact ⟨inr r n [] h.1, ih h.2⟩
  | link n r ih => exact ih h.2
  | dir n b i r ihi ihr =>
    have hi := ihi h.2.1
    have hr := ihr h.2.2
    rw [filenames, below]
    cases b with
    | false => exact hr
    | true =>
      simp only [if_true]
      have hp : (((filenames r).map fun m => [m]) ++
          ([n] :: (((filenames i).map fun m => [m]) ++ below i).map (n :: ·) ++ below r)).Perm
          (([n] :: (((filenames i).map fun m => [m]) ++ below i).map (n :: ·)) ++
            (((filenames r).map fun m => [m]) ++ below r)) := by
        rw [← List.append_assoc, ← List.append_assoc]
        exact List.Perm.append_right _ List.perm_append_comm
      rw [hp.nodup_iff, List.nodup_append]
      refine ⟨?_, hr, ?_⟩
      · rw [List.nodup_cons]
        refine ⟨?_, ?_⟩
        · intro hm
          obtain ⟨q, hq, e⟩ := List.mem_map.1 hm
          cases e
          exact below_ne i hq
        · exact List.Pairwise.map _ (fun a b hab e => hab (List.cons.inj e).2) hi
      · rintro x hx y hy rfl
        rcases List.mem_cons.1 hx with rfl | hx
        · exact inr r n [] h.1 hy
        · obtain ⟨q, -, rfl⟩ := List.mem_map.1 hx
          exact inr r n q h.1 hy

theorem nodup_map {α β : Type} {f : α → β} {l : List α} (hf : ∀ a ∈ l, ∀ b ∈ l, f a = f b → a = b) (h : l.Nodup) :
    (l.map f).Nodup := by
  rw [List.Nodup, List.pairwise_map]
  exact h.imp_of_mem fun ha hb hab e => hab (hf _ ha _ hb e)

/-! ## C98 -/

/-- **C98, part 1.** Nothing is reported that is not there, and nothing outside of the directory. -/
theorem C98_sound {cwd : Str} (hg : Good cwd) {t : Tree} (hp : Proper t) (x : Str) (h : x ∈ leftovers cwd t) :
    ∃ p k, At t p k ∧ x = cwd ++ '/' :: spell p := by
  rw [leftovers_spelled hg hp, List.mem_map] at h
  obtain ⟨p, hm, rfl⟩ := h
  obtain ⟨k, hk⟩ := (mem_below t p).1 hm
  exact ⟨p, k, (seen_at hk).1, rfl⟩

/-- **C98, part 2.** Everything that is there is reported. Partial: not links to directories, and only if all directories can be
read. -/
theorem C98_complete_partial {cwd : Str} (hg : Good cwd) {t : Tree} (hp : Proper t) (ho : Open t) (p : List Str) (k : Kind)
    (h : At t p k) (hk : k ≠ .link) : cwd ++ '/' :: spell p ∈ leftovers cwd t := by
  rw [leftovers_spelled hg hp, List.mem_map]
  exact ⟨p, (mem_below t p).2 ⟨k, at_seen h ho hk⟩, rfl⟩

/-- **C98, part 3.** Nothing is reported twice. -/
theorem C98_once {cwd : Str} (hg : Good cwd) {t : Tree} (hp : Proper t) (hd : Distinct t) : (leftovers cwd t).Nodup := by
  rw [leftovers_spelled hg hp]
  refine nodup_map ?_ (nodup_below hd)
  intro p hpm q hqm h
  obtain ⟨k, hk⟩ := (mem_below t p).1 hpm
  obtain ⟨k', hk'⟩ := (mem_below t q).1 hqm
  have h2 : spell p = spell q := (List.cons.inj (List.append_cancel_left h)).2
  exact spell_inj (hp p k (seen_at hk).1) (hp q k' (seen_at hk').1) h2

/-- **C98, part 4.** What is logged: unless it was switched off or the job says that it leaves files behind, everything that was
found, as it is called in the directory. -/
theorem C98_logged {cwd : Str} (hg : Good cwd) {t : Tree} (hp : Proper t) (logging : Bool) (flags : List Str) :
    ((logging = false ∨ "has-leftovers".toList ∈ flags) → warnings logging flags cwd t = []) ∧
    (logging = true → "has-leftovers".toList ∉ flags →
      (∀ s ∈ warnings logging flags cwd t, ∃ p k, At t p k ∧ s = spell p) ∧
      (Open t → ∀ p k, At t p k → k ≠ .link → spell p ∈ warnings logging flags cwd t) ∧
      (Distinct t → (warnings logging flags cwd t).Nodup)) := by
  constructor
  · intro h
    unfold warnings
    split
    · rfl
    · rw [if_neg]
      rcases h with rfl | h
      · simp
      · simp only [Bool.and_eq_true, Bool.not_eq_true', not_and, Bool.not_eq_false]
        intro _
        exact List.contains_iff_mem.2 h
  · intro hl hf
    have hw : warnings logging flags cwd t = ((((filenames t).map fun m => [m]) ++ below t).map spell) := by
      have he : (leftovers cwd t).map (relpath cwd) = ((((filenames t).map fun m => [m]) ++ below t).map spell) := by
        rw [leftovers_spelled hg hp, List.map_map]
        exact List.map_congr_left fun p _ => relpath_of cwd (spell p)
      unfold warnings
      by_cases h0 : (leftovers cwd t).isEmpty = true
      · rw [if_pos h0, ← he, List.isEmpty_iff.1 h0]
        rfl
      · rw [if_neg h0, if_pos, he]
        rw [hl, Bool.true_and, Bool.not_eq_true', ← Bool.not_eq_true, List.contains_iff_mem]
        exact hf
    rw [hw]
    refine ⟨fun s hs => ?_, fun ho p k h hk => ?_, fun hd => ?_⟩
    · obtain ⟨p, hm, rfl⟩ := List.mem_map.1 hs
      obtain ⟨k, hk⟩ := (mem_below t p).1 hm
      exact ⟨p, k, (seen_at hk).1, rfl⟩
    · exact List.mem_map.2 ⟨p, (mem_below t p).2 ⟨k, at_seen h ho hk⟩, rfl⟩
    · refine nodup_map ?_ (nodup_below hd)
      intro p hpm q hqm h
      obtain ⟨k, hk⟩ := (mem_below t p).1 hpm
      obtain ⟨k', hk'⟩ := (mem_below t q).1 hqm
      exact spell_inj (hp p k (seen_at hk).1) (hp q k' (seen_at hk').1) h

/-! ## Examples -/

/-- A file, a directory with a file and an empty directory. -/
def exTree : Tree := .file "core".toList (.dir "out".toList true
  (.file "a.log".toList (.dir "tmp".toList true .nil .nil)) (.file "b".toList .nil))

def exCwd : Str := "/tmp/cwd-1".toList

theorem exTree_paths {p : List Str} {k : Kind} (h : At exTree p k) :
    (p = ["core".toList] ∨ p = ["b".toList] ∨ p = ["out".toList, "a.log".toList]) ∧ k = .file ∨
    (p = ["out".toList] ∨ p = ["out".toList, "tmp".toList]) ∧ k = .dir true := by
  cases h with
  | file => simp
  | restF _ _ h =>
    cases h with
    | dir => simp
    | inner _ _ _ _ h =>
      cases h with
      | file => simp
      | restF _ _ h =>
        cases h with
        | dir => simp
        | inner _ _ _ _ h => cases h
        | restD _ _ _ _ h => cases h
    | restD _ _ _ _ h =>
      cases h with
      | file => simp
      | restF _ _ h => cases h

example : leftovers exCwd exTree = ["/tmp/cwd-1/core".toList, "/tmp/cwd-1/b".toList, "/tmp/cwd-1/out".toList,
    "/tmp/cwd-1/out/a.log".toList, "/tmp/cwd-1/out/tmp".toList] := by decide +kernel
example : warnings true [] exCwd exTree =
    ["core".toList, "b".toList, "out".toList, "out/a.log".toList, "out/tmp".toList] ∧
    warnings true ["has-leftovers".toList] exCwd exTree = [] ∧ warnings true [] exCwd .nil = [] := by decide +kernel
example : Good exCwd ∧ Open exTree ∧ Distinct exTree := by
  refine ⟨⟨by decide, by decide⟩, fun p b h => ?_, ?_⟩
  · rcases exTree_paths h with ⟨-, h⟩ | ⟨-, h⟩
    · cases h
    · cases h; rfl
  · simp only [Distinct, exTree, names]; decide
example : Proper exTree := by
  intro p k h
  rcases exTree_paths h with ⟨rfl | rfl | rfl, -⟩ | ⟨rfl | rfl, -⟩ <;> decide

/-! ## Where it fails -/

/-- What the property says: what is left behind is reported. -/
def Reported (t : Tree) : Prop := ∀ p k, At t p k → exCwd ++ '/' :: spell p ∈ leftovers exCwd t

/-- A link to a directory is not. -/
theorem C98_link_violated (n : Str) : leftovers exCwd (.link n .nil) = [] ∧ ¬ Reported (.link n .nil) := by
  refine ⟨rfl, fun h => ?_⟩
  have := h _ _ (.link n .nil)
  cases this

/-- Nor is a directory that cannot be read, with all that is in it. -/
theorem C98_unreadable_violated (n : Str) (i : Tree) :
    leftovers exCwd (.dir n false i .nil) = [] ∧ ¬ Reported (.dir n false i .nil) := by
  refine ⟨rfl, fun h => ?_⟩
  have := h _ _ (.dir n false i .nil)
  cases this

end Verif.Leftover
