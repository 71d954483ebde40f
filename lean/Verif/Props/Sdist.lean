import Verif.Model.Sdist
import Verif.Props.Locate
import Verif.Props.Restart
import Verif.Props.Definition
import Mathlib.Data.List.Nodup

/-!
# C123: A source tarball has the provider's files in a directory of its own
-/

namespace Verif.Sdist

open Verif.Path (Str join)
open Verif.Locate (Name)
open Verif.Definition (IsIQN Simple Label NameChar Lower Digit)

/-! ## Specification -/

/-- What is found in a tree when a path is followed. -/
def find : List Str → Node → Option (Option Str)
  | [], .file c => some (some c)
  | [], .dir _ => some none
  | _ :: _, .file _ => none
  | n :: ps, .dir es => (es.lookup n).bind (find ps)

/-- Directories have different entries, with names that a file can have. -/
inductive Wf : Node → Prop
  | file (c : Str) : Wf (.file c)
  | dir (es : List (Str × Node)) : (es.map Prod.fst).Nodup → (∀ e ∈ es, Name e.1) → (∀ e ∈ es, Wf e.2) → Wf (.dir es)

/-- A path, written with slashes. -/
def path (top : Str) (ps : List Str) : Str := top ++ ps.flatMap ('/' :: ·)

/-! ## Lemmas -/

theorem addAll_eq (arc : Str) (es : List (Str × Node)) : addAll arc es = es.flatMap fun e => add (join arc e.1) e.2 := by
  induction es with
  | nil => simp [addAll]
  | cons e es ih =>
    obtain ⟨n, t⟩ := e
    rw [addAll, ih, List.flatMap_cons]

/-- Something that can stand before a slash and more. -/
def Place (a : Str) : Prop := a ≠ [] ∧ a.getLast? ≠ some '/'

theorem name_head {n : Str} (h : Name n) : n.head? ≠ some '/' := by
  intro h1
  cases n with
  | nil => cases h1
  | cons x t =>
    injection h1 with h1
    exact h.2.1 (by simp [h1])

theorem join_place {a n : Str} (ha : Place a) (hn : Name n) : join a n = a ++ '/' :: n := by
  unfold join
  rw [if_neg (name_head hn), if_neg (by rintro (h | h); exact ha.1 h; exact ha.2 h)]

theorem place_below {a n : Str} (hn : Name n) : Place (a ++ '/' :: n) := by
  refine ⟨by simp, ?_⟩
  intro h
  rw [List.getLast?_append, List.getLast?_cons] at h
  simp only [Option.some_or, Option.some.injEq] at h
  cases hl : n.getLast? with
  | none => exact hn.1 (List.getLast?_eq_none_iff.1 hl)
  | some x =>
    rw [hl] at h
    exact hn.2.1 (List.mem_of_getLast? (by rw [hl]; exact congrArg some h))

theorem lookup_mem {es : List (Str × Node)} {n : Str} {t : Node} (h : es.lookup n = some t) : (n, t) ∈ es := by
  induction es with
  | nil => cases h
  | cons e es ih =>
    obtain ⟨m, s⟩ := e
    rw [List.lookup_cons] at h
    split at h
    · rename_i hb
      injection h with h
      rw [eq_of_beq hb, h]
      exact List.mem_cons_self
    · exact List.mem_cons_of_mem _ (ih h)

theorem mem_lookup {es : List (Str × Node)} {n : Str} {t : Node} (hn : (es.map Prod.fst).Nodup) (h : (n, t) ∈ es) : es.lookup n = some t := by
  induction es with
  | nil => cases h
  | cons e es ih =>
    obtain ⟨m, s⟩ := e
    rw [List.map_cons, List.nodup_cons] at hn
    rw [List.lookup_cons]
    rcases List.mem_cons.1 h with h' | h'
    · injection h' with h1 h2
      rw [h1, h2, beq_self_eq_true]
    · have : (n == m) = false := by
        rw [beq_eq_false_iff_ne]
        rintro rfl
        exact hn.1 (List.mem_map.2 ⟨_, h', rfl⟩)
      rw [this]
      exact ih hn.2 h'

theorem mem_add {t : Node} (hw : Wf t) {arc : Str} (ha : Place arc) (p : Str) (k : Option Str) :
    (p, k) ∈ add arc t ↔ ∃ ps, p = path arc ps ∧ find ps t = some k := by
  induction hw generalizing arc with
  | file c =>
    rw [add, List.mem_singleton, Prod.mk.injEq]
    constructor
    · rintro ⟨rfl, rfl⟩
      exact ⟨[], by simp [path], rfl⟩
    · rintro ⟨ps, rfl, h⟩
      cases ps with
      | nil =>
        rw [find] at h
        injection h with h
        exact ⟨by simp [path], h.symm⟩
      | cons => cases h
  | dir es hn hm _ ih =>
    rw [add, addAll_eq, List.mem_cons, List.mem_flatMap, Prod.mk.injEq]
    constructor
    · rintro (⟨rfl, rfl⟩ | ⟨e, he, h⟩)
      · exact ⟨[], by simp [path], rfl⟩
      · rw [join_place ha (hm e he), ih e he (place_below (hm e he))] at h
        obtain ⟨ps, rfl, h⟩ := h
        refine ⟨e.1 :: ps, by simp [path], ?_⟩
        rw [find, mem_lookup hn (show (e.1, e.2) ∈ es from he)]
        exact h
    · rintro ⟨ps, rfl, h⟩
      cases ps with
      | nil =>
        rw [find] at h
        injection h with h
        exact Or.inl ⟨by simp [path], h.symm⟩
      | cons n ps =>
        rw [find] at h
        cases hl : es.lookup n with
        | none => rw [hl] at h; cases h
        | some t =>
          rw [hl] at h
          have he := lookup_mem hl
          refine Or.inr ⟨(n, t), he, ?_⟩
          rw [join_place ha (hm _ he), ih _ he (place_below (hm _ he))]
          exact ⟨ps, by simp [path], h⟩

/-- The first name after a place is determined by the path. -/
theorem path_first {arc n m r s : Str} (hn : '/' ∉ n) (hm : '/' ∉ m) (hr : r = [] ∨ r.head? = some '/') (hs : s = [] ∨ s.head? = some '/')
    (h : arc ++ '/' :: n ++ r = arc ++ '/' :: m ++ s) : n = m ∧ r = s := by
  rw [List.append_assoc, List.append_assoc] at h
  replace h := List.append_cancel_left h
  rw [List.cons_append, List.cons_append, List.cons.injEq] at h
  replace h := h.2
  clear arc
  induction n generalizing m with
  | nil =>
    cases m with
    | nil => exact ⟨rfl, h⟩
    | cons y m =>
      exfalso
      rw [List.nil_append] at h
      rcases hr with hr | hr
      · rw [hr] at h; cases h
      · rw [h] at hr
        injection hr with hr
        exact hm (by simp [hr])
  | cons x n ih =>
    cases m with
    | nil =>
      exfalso
      rw [List.nil_append] at h
      rcases hs with hs | hs
      · rw [hs] at h; cases h
      · rw [← h] at hs
        injection hs with hs
        exact hn (by simp [hs])
    | cons y m =>
      injection h with h1 h2
      obtain ⟨h3, h4⟩ := ih (fun hx => hn (List.mem_cons_of_mem _ hx)) (fun hx => hm (List.mem_cons_of_mem _ hx)) h2
      exact ⟨by rw [h1, h3], h4⟩

theorem path_head (ps : List Str) : ps.flatMap ('/' :: ·) = [] ∨ (ps.flatMap ('/' :: ·)).head? = some '/' := by
  cases ps with
  | nil => exact Or.inl rfl
  | cons => exact Or.inr rfl

theorem path_cons (arc n : Str) (ps : List Str) : path arc (n :: ps) = arc ++ '/' :: n ++ ps.flatMap ('/' :: ·) := by
  simp [path]

theorem nodup_add {t : Node} (hw : Wf t) {arc : Str} (ha : Place arc) : ((add arc t).map Prod.fst).Nodup := by
  induction hw generalizing arc with
  | file c => simp [add]
  | dir es hn hm hws ih =>
    rw [add, addAll_eq, List.map_cons, List.nodup_cons, List.map_flatMap]
    constructor
    · intro h
      obtain ⟨e, he, h⟩ := List.mem_flatMap.1 h
      obtain ⟨⟨p, k⟩, h1, rfl⟩ := List.mem_map.1 h
      rw [join_place ha (hm e he), mem_add (hws e he) (place_below (hm e he))] at h1
      obtain ⟨ps, h1, -⟩ := h1
      have := congrArg List.length h1
      simp [path] at this
    · rw [List.nodup_flatMap]
      constructor
      · intro e he
        rw [join_place ha (hm e he)]
        exact ih e he (place_below (hm e he))
      · rw [List.nodup_iff_pairwise_ne, List.pairwise_map] at hn
        refine hn.imp_of_mem ?_
        intro e f he hf hne x hx hy
        obtain ⟨⟨p, k⟩, h1, rfl⟩ := List.mem_map.1 hx
        obtain ⟨⟨q, k'⟩, h2, hpq⟩ := List.mem_map.1 hy
        dsimp only at hpq
        subst hpq
        rw [join_place ha (hm e he), mem_add (hws e he) (place_below (hm e he))] at h1
        rw [join_place ha (hm f hf), mem_add (hws f hf) (place_below (hm f hf))] at h2
        obtain ⟨ps, h1, -⟩ := h1
        obtain ⟨qs, h2, -⟩ := h2
        rw [h1] at h2
        exact hne (path_first (hm e he).2.1 (hm f hf).2.1 (path_head ps) (path_head qs) h2).1

theorem name_included {n : Str} (h : n ∈ included) : Name n := by
  revert n
  unfold Name included
  decide +kernel

/-- After the last dash, dot and so on. -/
theorem last_sep {x : Char} {a b v w : Str} (hv : x ∉ v) (hw : x ∉ w) (h : a ++ x :: v = b ++ x :: w) : a = b ∧ v = w := by
  induction a generalizing b with
  | nil =>
    cases b with
    | nil =>
      injection h with _ h
      exact ⟨rfl, h⟩
    | cons y b =>
      injection h with _ h
      exact absurd (by rw [h]; simp) hv
  | cons z a ih =>
    cases b with
    | nil =>
      injection h with _ h
      exact absurd (by rw [← h]; simp) hw
    | cons y b =>
      injection h with h1 h2
      obtain ⟨h3, h4⟩ := ih h2
      exact ⟨by rw [h1, h3], h4⟩

theorem label_chars {s : Str} (h : Label s) : ∀ c ∈ s, NameChar c := by
  obtain ⟨c, r, rfl, hc, hr⟩ := h
  intro d hd
  rcases List.mem_cons.1 hd with rfl | hd
  · exact Or.inl hc
  · exact hr d hd

theorem nameChar_ne {c : Char} (h : NameChar c) : c ≠ ':' ∧ c ≠ '.' ∧ c ≠ '/' := by
  refine ⟨?_, ?_, ?_⟩ <;> rintro rfl <;> revert h <;> unfold NameChar Lower Digit <;> decide

theorem iqn_parts {s : Str} (h : IsIQN s) : ∃ a i, s = a ++ ':' :: i ∧ (∀ c ∈ a, NameChar c ∨ c = '.') ∧ (∀ c ∈ i, NameChar c) := by
  obtain ⟨year, first, others, ident, hy, hf, -, ho, hi, rfl⟩ := h
  refine ⟨year ++ (first ++ (others.map ('.' :: ·)).flatten), ident, by simp, ?_, label_chars hi⟩
  intro c hc
  rcases List.mem_append.1 hc with hc | hc
  · rcases hy with rfl | ⟨p, q, r, t, rfl, hp, hq, hr, ht⟩
    · cases hc
    · simp only [List.mem_cons, List.not_mem_nil, or_false] at hc
      rcases hc with rfl | rfl | rfl | rfl | rfl
      · exact Or.inl (Or.inr (Or.inl hp))
      · exact Or.inl (Or.inr (Or.inl hq))
      · exact Or.inl (Or.inr (Or.inl hr))
      · exact Or.inl (Or.inr (Or.inl ht))
      · exact Or.inr rfl
  · rcases List.mem_append.1 hc with hc | hc
    · exact Or.inl (label_chars hf c hc)
    · obtain ⟨l, hl, hc⟩ := List.mem_flatten.1 hc
      obtain ⟨m, hm, rfl⟩ := List.mem_map.1 hl
      rcases List.mem_cons.1 hc with rfl | hc
      · exact Or.inr rfl
      · exact Or.inl (label_chars (ho m hm) c hc)

theorem dots_self {s : Str} (h : ':' ∉ s) : dots s = s := by
  unfold dots
  conv => rhs; rw [← List.map_id s]
  apply List.map_congr_left
  intro c hc
  rw [if_neg (by rintro rfl; exact h hc)]
  rfl

theorem dots_iqn {a i : Str} (ha : ∀ c ∈ a, Definition.NameChar c ∨ c = '.') (hi : ∀ c ∈ i, Definition.NameChar c) :
    dots (a ++ ':' :: i) = a ++ '.' :: i := by
  have h1 : dots a = a := dots_self fun h => (ha _ h).elim (fun h => (nameChar_ne h).1 rfl) (by decide)
  have h2 : dots i = i := dots_self fun h => (nameChar_ne (hi _ h)).1 rfl
  have : dots (a ++ ':' :: i) = dots a ++ '.' :: dots i := by simp [dots]
  rw [this, h1, h2]

theorem dots_simple {s : Str} (h : Simple s) : dots s = s := dots_self fun hm => (nameChar_ne (h.2 _ hm)).1 rfl

/-- Names of providers can be told from what is made of them. -/
theorem dots_inj {s t : Str} (hs : IsIQN s ∨ Simple s) (ht : IsIQN t ∨ Simple t) (h : dots s = dots t) : s = t := by
  rcases hs with hs | hs
  · obtain ⟨a, i, rfl, ha, hi⟩ := iqn_parts hs
    rw [dots_iqn ha hi] at h
    rcases ht with ht | ht
    · obtain ⟨b, j, rfl, hb, hj⟩ := iqn_parts ht
      rw [dots_iqn hb hj] at h
      obtain ⟨rfl, rfl⟩ := last_sep (fun hm => (nameChar_ne (hi _ hm)).2.1 rfl) (fun hm => (nameChar_ne (hj _ hm)).2.1 rfl) h
      rfl
    · rw [dots_simple ht] at h
      exact absurd rfl (nameChar_ne (ht.2 '.' (by rw [← h]; simp))).2.1
  · rw [dots_simple hs] at h
    rcases ht with ht | ht
    · obtain ⟨b, j, rfl, hb, hj⟩ := iqn_parts ht
      rw [dots_iqn hb hj] at h
      exact absurd rfl (nameChar_ne (hs.2 '.' (by rw [h]; simp))).2.1
    · rw [dots_simple ht] at h
      exact h

/-- The characters in `dots name`. -/
theorem dots_chars {s : Str} (h : IsIQN s ∨ Simple s) : ∀ c ∈ dots s, Definition.NameChar c ∨ c = '.' := by
  rcases h with h | h
  · obtain ⟨a, i, rfl, ha, hi⟩ := iqn_parts h
    rw [dots_iqn ha hi]
    intro c hc
    rcases List.mem_append.1 hc with hc | hc
    · exact ha c hc
    · rcases List.mem_cons.1 hc with rfl | hc
      · exact Or.inr rfl
      · exact Or.inl (hi c hc)
  · rw [dots_simple h]
    exact fun c hc => Or.inl (h.2 c hc)

/-! ## Properties -/

/-- Characters that are usual in versions. -/
def Usual (c : Char) : Prop := Definition.Lower c ∨ Definition.Digit c ∨ c = '.' ∨ c = '-' ∨ c = '_' ∨ c = '+'

/-- **C123, contents.** The tarball has, in a directory named after the provider and its version, everything that is found in the provider's
directory under one of nine names, with the same contents, nothing else and nothing twice. -/
theorem C123_content (d : Def) (root : List (Str × Node)) (hr : Wf (.dir root)) (hv : d.version ≠ []) (hv' : '/' ∉ d.version) :
    (∀ p k, (p, k) ∈ members d root ↔
      ∃ n ps, n ∈ ["manage.py".toList, "README.md".toList, "units".toList, "jobs".toList, "COPYING".toList, "bin".toList, "src".toList,
          "data".toList, "po".toList] ∧ p = path (toplevel d) (n :: ps) ∧ find (n :: ps) (.dir root) = some k) ∧
    ((members d root).map Prod.fst).Nodup := by
  have ht : Place (toplevel d) := by
    refine ⟨by simp [toplevel], ?_⟩
    intro h
    unfold toplevel at h
    rw [List.getLast?_append, List.getLast?_cons] at h
    cases hl : d.version.getLast? with
    | none => exact hv (List.getLast?_eq_none_iff.1 hl)
    | some x =>
      rw [hl] at h
      simp only [Option.getD_some, Option.some_or, Option.some.injEq] at h
      exact hv' (List.mem_of_getLast? (by rw [hl, h]))
  cases hr with
  | dir _ hn hm hws =>
    constructor
    · intro p k
      unfold members
      rw [List.mem_flatMap]
      constructor
      · rintro ⟨n, hni, h⟩
        cases hl : root.lookup n with
        | none => rw [hl] at h; cases h
        | some t =>
          rw [hl] at h
          dsimp only at h
          rw [join_place ht (name_included hni), mem_add (hws _ (lookup_mem hl)) (place_below (name_included hni))] at h
          obtain ⟨ps, rfl, h⟩ := h
          refine ⟨n, ps, hni, by simp [path], ?_⟩
          rw [find, hl]
          exact h
      · rintro ⟨n, ps, hni, rfl, h⟩
        rw [find] at h
        cases hl : root.lookup n with
        | none => rw [hl] at h; cases h
        | some t =>
          rw [hl] at h
          refine ⟨n, hni, ?_⟩
          rw [hl]
          dsimp only
          rw [join_place ht (name_included hni), mem_add (hws _ (lookup_mem hl)) (place_below (name_included hni))]
          exact ⟨ps, by simp [path], h⟩
    · unfold members
      rw [List.map_flatMap, List.nodup_flatMap]
      constructor
      · intro n hni
        cases hl : root.lookup n with
        | none => simp
        | some t =>
          dsimp only
          rw [join_place ht (name_included hni)]
          exact nodup_add (hws _ (lookup_mem hl)) (place_below (name_included hni))
      · have : included.Pairwise (· ≠ ·) := by unfold included; decide +kernel
        refine this.imp_of_mem ?_
        intro n m hn' hm' hne x hx hy
        obtain ⟨⟨p, k⟩, h1, rfl⟩ := List.mem_map.1 hx
        obtain ⟨⟨q, k'⟩, h2, hpq⟩ := List.mem_map.1 hy
        dsimp only at hpq
        subst hpq
        cases hl : root.lookup n with
        | none => rw [hl] at h1; cases h1
        | some t =>
          cases hl' : root.lookup m with
          | none => rw [hl'] at h2; cases h2
          | some t' =>
            rw [hl] at h1
            rw [hl'] at h2
            dsimp only at h1 h2
            rw [join_place ht (name_included hn'), mem_add (hws _ (lookup_mem hl)) (place_below (name_included hn'))] at h1
            rw [join_place ht (name_included hm'), mem_add (hws _ (lookup_mem hl')) (place_below (name_included hm'))] at h2
            obtain ⟨ps, h1, -⟩ := h1
            obtain ⟨qs, h2, -⟩ := h2
            rw [h1] at h2
            exact hne (path_first (name_included hn').2.1 (name_included hm').2.1 (path_head ps) (path_head qs) h2).1

/-- **C123, files.** The tarball is written to `dist` below the provider, which is made if it is missing, and the file that is signed is that
tarball, if there are only usual characters in the version. -/
theorem C123_signed_partial (d : Def) (root : List (Str × Node)) (exists' : Bool) (gpg : Nat) (hl : Place d.location)
    (hn : IsIQN d.name ∨ Simple d.name) (hv : ∀ c ∈ d.version, Usual c) :
    ∃ f cmd, (invoked d root exists' gpg).1 = (if exists' then [] else [.mkdir (d.location ++ "/dist".toList)]) ++
        [.write (d.location ++ "/dist".toList ++ '/' :: f) (members d root), .shell cmd (d.location ++ "/dist".toList)] ∧
      Restart.split cmd = some ["gpg".toList, "--armor".toList, "--sign".toList, "--detach-sig".toList, f] ∧
      (Simple d.name → f = d.name ++ '-' :: d.version ++ ".tar.gz".toList) ∧
      (IsIQN d.name → ∃ a i, d.name = a ++ ':' :: i ∧ ':' ∉ a ∧ ':' ∉ i ∧ f = a ++ '.' :: i ++ '-' :: d.version ++ ".tar.gz".toList) := by
  have hd : distDir d = d.location ++ "/dist".toList := by
    unfold distDir
    rw [join_place hl (by unfold Name; decide)]
    rfl
  have hsafe : ∀ c, (Definition.NameChar c ∨ c = '.') ∨ Usual c → Restart.isSafe c = true := by
    intro c h
    unfold Restart.isSafe
    have hx : Definition.Lower c ∨ Definition.Digit c ∨ c = '.' ∨ c = '-' ∨ c = '_' ∨ c = '+' := by
      rcases h with (h | h) | h
      · rcases h with h | h | h
        · exact Or.inl h
        · exact Or.inr (Or.inl h)
        · exact Or.inr (Or.inr (Or.inr (Or.inl h)))
      · exact Or.inr (Or.inr (Or.inl h))
      · exact h
    rcases hx with hx | hx | rfl | rfl | rfl | rfl
    · have : c.isAlphanum = true := by
        simp only [Char.isAlphanum, Char.isAlpha, Char.isLower, Bool.or_eq_true, Bool.and_eq_true, decide_eq_true_eq]
        exact Or.inl (Or.inr ⟨hx.1, hx.2⟩)
      simp [this]
    · have : c.isAlphanum = true := by
        simp only [Char.isAlphanum, Char.isDigit, Bool.or_eq_true, Bool.and_eq_true, decide_eq_true_eq]
        exact Or.inr ⟨hx.1, hx.2⟩
      simp [this]
    all_goals decide
  have hf : (toplevel d ++ ".tar.gz".toList).all Restart.isSafe = true := by
    rw [List.all_eq_true]
    intro c hc
    rcases List.mem_append.1 hc with hc | hc
    · rcases List.mem_append.1 hc with hc | hc
      · exact hsafe c (Or.inl (dots_chars hn c hc))
      · rcases List.mem_cons.1 hc with rfl | hc
        · decide
        · exact hsafe c (Or.inr (hv c hc))
    · have : ∀ c ∈ ".tar.gz".toList, Restart.isSafe c = true := by decide
      exact this c hc
  have hname : Name (toplevel d ++ ".tar.gz".toList) := by
    have hlen : 7 ≤ (toplevel d ++ ".tar.gz".toList).length := by simp
    refine ⟨?_, ?_, ?_, ?_⟩
    · intro h; rw [h] at hlen; simp at hlen
    · intro hm
      rcases List.mem_append.1 hm with hm | hm
      · rcases List.mem_append.1 hm with hm | hm
        · exact (dots_chars hn _ hm).elim (fun h => (nameChar_ne h).2.2 rfl) (by decide)
        · rcases List.mem_cons.1 hm with hm | hm
          · exact absurd hm (by decide)
          · have := hv _ hm
            revert this
            unfold Usual Lower Digit
            decide
      · exact absurd hm (by decide)
    · intro h; rw [h] at hlen; simp at hlen
    · intro h; rw [h] at hlen; simp at hlen
  refine ⟨toplevel d ++ ".tar.gz".toList, "gpg --armor --sign --detach-sig ".toList ++ toplevel d ++ ".tar.gz".toList, ?_, ?_, ?_, ?_⟩
  · unfold invoked tarball
    rw [hd, join_place (a := d.location ++ "/dist".toList) (place_below (n := "dist".toList) (by unfold Name; decide)) hname]
  · have := Restart.C52_quote ["gpg".toList, "--armor".toList, "--sign".toList, "--detach-sig".toList, toplevel d ++ ".tar.gz".toList]
    have hq : ∀ x : Str, x ≠ [] → x.all Restart.isSafe = true → Restart.quote x = x := by
      intro x h1 h2
      unfold Restart.quote
      rw [if_neg h1, if_pos h2]
    unfold Restart.restartCmd at this
    simp only [List.map_cons, List.map_nil] at this
    rw [hq _ (by decide) (by decide), hq _ (by decide) (by decide), hq _ (by decide) (by decide), hq _ (by decide) (by decide),
      hq _ hname.1 hf] at this
    rw [← this, List.append_assoc]
    generalize toplevel d ++ ".tar.gz".toList = f
    rfl
  · intro h
    rw [toplevel, dots_simple h]
  · intro h
    obtain ⟨a, i, hai, ha, hi⟩ := iqn_parts h
    refine ⟨a, i, hai, fun hm => (ha _ hm).elim (fun h => (nameChar_ne h).1 rfl) (by decide), fun hm => (nameChar_ne (hi _ hm)).1 rfl, ?_⟩
    rw [toplevel, hai, dots_iqn ha hi]

/-- **C123, names.** Tarballs of different providers, and of different versions, have different names if there is no dash in versions. -/
theorem C123_names_partial (d e : Def) (hd : IsIQN d.name ∨ Simple d.name) (he : IsIQN e.name ∨ Simple e.name) (hv : '-' ∉ d.version)
    (hw : '-' ∉ e.version) (h : toplevel d = toplevel e) : d.name = e.name ∧ d.version = e.version := by
  obtain ⟨h1, h2⟩ := last_sep hv hw h
  exact ⟨dots_inj hd he h1, h2⟩

/-- **C123 is violated**: two providers with valid names and versions that share the tarball's name and all names in it. -/
theorem C123_names_violated : ∃ d e : Def, Simple d.name ∧ Simple e.name ∧
    Rx.accepts Definition.versionRx d.version = true ∧ Rx.accepts Definition.versionRx e.version = true ∧
    d.name ≠ e.name ∧ toplevel d = toplevel e := by
  refine ⟨⟨"/a".toList, "net".toList, "1-2".toList⟩, ⟨"/b".toList, "net-1".toList, "2".toList⟩, ⟨by decide, ?_⟩, ⟨by decide, ?_⟩,
    by decide +kernel, by decide +kernel, by decide, by decide⟩ <;> unfold NameChar Lower Digit <;> decide

/-- **C123 is violated**: with a version that the definition accepts another file is signed. -/
theorem C123_signed_violated : ∃ d : Def, Simple d.name ∧ Rx.accepts Definition.versionRx d.version = true ∧
    Restart.split ("gpg --armor --sign --detach-sig ".toList ++ toplevel d ++ ".tar.gz".toList) =
      some ["gpg".toList, "--armor".toList, "--sign".toList, "--detach-sig".toList, "net-1".toList, "final.tar.gz".toList] ∧
    tarball d = "/a/dist/net-1 final.tar.gz".toList := by
  refine ⟨⟨"/a".toList, "net".toList, "1 final".toList⟩, ⟨by decide, ?_⟩, by decide +kernel, by decide +kernel, by decide +kernel⟩
  unfold NameChar Lower Digit
  decide

/-- **C123 is violated**: the command succeeds whatever `gpg` does. -/
theorem C123_status_violated (d : Def) (root : List (Str × Node)) (b : Bool) : ∃ gpg, gpg ≠ 0 ∧ (invoked d root b gpg).2 = 0 :=
  ⟨2, by decide, rfl⟩

/-- A provider with translations in `locale`, where the definition looks first, and a script. -/
def example' : List (Str × Node) :=
  [("bin".toList, .dir [("run".toList, .file "#!/bin/sh".toList)]), ("locale".toList, .dir [("pl".toList, .dir [])]),
   ("manage.py".toList, .file "setup()".toList)]

/-- Its tarball. -/
example : members ⟨"/p".toList, "com.canonical:net".toList, "1.0".toList⟩ example' =
    [("com.canonical.net-1.0/manage.py".toList, some "setup()".toList), ("com.canonical.net-1.0/bin".toList, none),
     ("com.canonical.net-1.0/bin/run".toList, some "#!/bin/sh".toList)] := by
  decide +kernel

/-- It meets the hypotheses of `C123_content`. -/
theorem example_wf : Wf (.dir example') := by
  unfold example'
  refine .dir _ (by decide) (by unfold Name; decide) ?_
  intro e he
  simp only [List.mem_cons, List.not_mem_nil, or_false] at he
  rcases he with rfl | rfl | rfl
  · refine .dir _ (by decide) (by unfold Name; decide) ?_
    intro e he
    rw [List.mem_singleton] at he
    subst he
    exact .file _
  · refine .dir _ (by decide) (by unfold Name; decide) ?_
    intro e he
    rw [List.mem_singleton] at he
    subst he
    exact .dir _ (by decide) (by intro e he; cases he) (by intro e he; cases he)
  · exact .file _

/-- The hypotheses of `C123_signed_partial` and `C123_names_partial` are met by usual values. -/
example : IsIQN "com.canonical:net".toList ∧ (∀ c ∈ "1.0".toList, Usual c) ∧ '-' ∉ "1.0".toList ∧ Place "/p".toList := by
  refine ⟨⟨[], "com".toList, ["canonical".toList], "net".toList, Or.inl rfl, ?_, by decide, ?_, ?_, by decide⟩, ?_, by decide, ?_⟩
  · exact ⟨'c', "om".toList, rfl, by unfold Lower; decide, by unfold NameChar Lower Digit; decide⟩
  · intro l hl
    rw [List.mem_singleton] at hl
    subst hl
    exact ⟨'c', "anonical".toList, rfl, by unfold Lower; decide, by unfold NameChar Lower Digit; decide⟩
  · exact ⟨'n', "et".toList, rfl, by unfold Lower; decide, by unfold NameChar Lower Digit; decide⟩
  · unfold Usual Lower Digit
    decide
  · unfold Place
    decide

/-- **C123 is violated**: translations in `locale`, where the provider looks for them first, are missing from the tarball. -/
theorem C123_locale_violated : ∃ root, Wf (.dir root) ∧ find ["locale".toList, "pl".toList] (.dir root) = some none ∧
    ∀ d p k, (p, k) ∈ members d root → d.version = "1".toList → p ≠ path (toplevel d) ["locale".toList, "pl".toList] := by
  refine ⟨example', example_wf, by decide +kernel, ?_⟩
  rintro d p k h hv rfl
  rw [(C123_content d example' example_wf (by rw [hv]; decide) (by rw [hv]; decide)).1] at h
  obtain ⟨n, ps, hn, h, -⟩ := h
  rw [path_cons, path_cons] at h
  have := (path_first (by decide) (name_included hn).2.1 (path_head _) (path_head _) h).1
  subst this
  exact absurd hn (by decide +kernel)

end Verif.Sdist
