import Verif.Model.Plugins
import Verif.Lemmas.Sort

/-!
# C64: collections of plug-ins

* `C64_files`: which files are found.
* `C64_complete_partial`, `C64_order`, `C64_again`: loading without unexpected exceptions.
* `C64_entry_points_partial`: the same for entry points.
* `C64_violated`: after an unexpected exception a second load claims success.
* `C64_lazy_partial`, `C64_lazy_load_partial`, `C64_lazy_violated`: the lazy collection.
* `C64_fake`: fake plug-ins.
-/

namespace Verif.Plugins

variable {T P Q : Type}

/-- Result of loading the plug-in `n`: what the reader and the wrapper make of it. -/
inductive Yields (get : Str → Got T Q) (wrap : Str → T → Got P Q) (n : Str) : Got P Q → Prop
  | unread {q} (h : get n = .problem q) : Yields get wrap n (.problem q)
  | readRaises (h : get n = .raises) : Yields get wrap n .raises
  | wrapped {t p} (h : get n = .value t) (hw : wrap n t = .value p) : Yields get wrap n (.value p)
  | refused {t q} (h : get n = .value t) (hw : wrap n t = .problem q) :
      Yields get wrap n (.problem q)
  | wrapRaises {t} (h : get n = .value t) (hw : wrap n t = .raises) : Yields get wrap n .raises

/-- The result as a function. -/
def result (get : Str → Got T Q) (wrap : Str → T → Got P Q) (n : Str) : Got P Q :=
  match get n with
  | .problem q => .problem q
  | .raises => .raises
  | .value t => wrap n t

/-- The problem recorded for a plug-in. -/
def problemOf (get : Str → Got T Q) (wrap : Str → T → Got P Q) (n : Str) : Option Q :=
  match result get wrap n with
  | .problem q => some q
  | _ => none

theorem yields_iff (get : Str → Got T Q) (wrap : Str → T → Got P Q) (n : Str) (r : Got P Q) :
    Yields get wrap n r ↔ result get wrap n = r := by
  unfold result
  constructor
  · intro h
    cases h <;> simp_all
  · intro h
    cases hg : get n with
    | problem q => rw [hg] at h; subst h; exact .unread hg
    | raises => rw [hg] at h; subst h; exact .readRaises hg
    | value t =>
      rw [hg] at h
      cases r with
      | value p => exact .wrapped hg h
      | problem q => exact .refused hg h
      | raises => exact .wrapRaises hg h

theorem loadOne_eq (get : Str → Got T Q) (wrap : Str → T → Got P Q) (c : Coll P Q) (n : Str) :
    loadOne get wrap c n = match result get wrap n with
      | .value p => ({ c with plugins := put n p c.plugins }, false)
      | .problem q => ({ c with problems := c.problems ++ [q] }, false)
      | .raises => (c, true) := by
  unfold loadOne result wrapAdd
  cases get n with
  | problem q => rfl
  | raises => rfl
  | value t => cases wrap n t <;> rfl

theorem problemOf_iff (get : Str → Got T Q) (wrap : Str → T → Got P Q) (n : Str) (q : Q) :
    problemOf get wrap n = some q ↔ Yields get wrap n (.problem q) := by
  rw [yields_iff, problemOf]
  cases result get wrap n <;> simp

/-! ### Dictionaries -/

theorem find_put (k : Str) (p : P) (l : List (Str × P)) (k' : Str) :
    find k' (put k p l) = if k' = k then some p else find k' l := by
  induction l with
  | nil =>
    by_cases h : k' = k
    · simp [put, find, h]
    · simp [put, find, h, Ne.symm h]
  | cons a l ih =>
    obtain ⟨x, y⟩ := a
    simp only [put]
    by_cases hx : x = k
    · rw [if_pos hx]
      subst hx
      by_cases h : k' = x
      · subst h; simp [find]
      · simp [find, h, Ne.symm h]
    · rw [if_neg hx]
      simp only [find, ih]
      by_cases h : x = k'
      · subst h; simp [hx]
      · simp [h]

theorem put_keys (k : Str) (p : P) (l : List (Str × P)) :
    (put k p l).map (·.1) = if k ∈ l.map (·.1) then l.map (·.1) else l.map (·.1) ++ [k] := by
  induction l with
  | nil => simp [put]
  | cons a l ih =>
    obtain ⟨x, y⟩ := a
    simp only [put]
    split
    · rename_i h; subst h; simp
    · rename_i h
      simp only [List.map_cons, ih, List.mem_cons, Ne.symm h, false_or]
      split <;> simp_all

theorem find_isSome_iff (k : Str) (l : List (Str × P)) :
    (find k l).isSome ↔ k ∈ l.map (·.1) := by
  induction l with
  | nil => simp [find]
  | cons a l ih =>
    obtain ⟨x, y⟩ := a
    simp only [find, List.map_cons, List.mem_cons]
    by_cases h : x = k
    · simp [h]
    · simp [h, ih, Ne.symm h]

/-! ### Loading -/

theorem loadAll_spec (get : Str → Got T Q) (wrap : Str → T → Got P Q) (ns : List Str)
    (c : Coll P Q) (h : ∀ n ∈ ns, result get wrap n ≠ .raises) :
    (loadAll get wrap ns c).2 = false ∧
    (loadAll get wrap ns c).1.loaded = c.loaded ∧
    (loadAll get wrap ns c).1.problems = c.problems ++ ns.filterMap (problemOf get wrap) ∧
    (∀ k, find k (loadAll get wrap ns c).1.plugins =
      match result get wrap k with
      | .value p => if k ∈ ns then some p else find k c.plugins
      | _ => find k c.plugins) ∧
    (∃ new, (loadAll get wrap ns c).1.plugins.map (·.1) = c.plugins.map (·.1) ++ new ∧
      new.Sublist ns ∧ ((c.plugins.map (·.1)).Nodup → (c.plugins.map (·.1) ++ new).Nodup)) := by
  induction ns generalizing c with
  | nil =>
    refine ⟨rfl, rfl, by simp [loadAll], ?_, ⟨[], by simp [loadAll]⟩⟩
    intro k
    simp only [loadAll, List.not_mem_nil, if_false]
    split <;> rfl
  | cons n ns ih =>
    have hn := h n (by simp)
    have h' : ∀ m ∈ ns, result get wrap m ≠ .raises := fun m hm => h m (by simp [hm])
    simp only [loadAll, loadOne_eq]
    cases hr : result get wrap n with
    | raises => exact absurd hr hn
    | problem q =>
      simp only
      obtain ⟨a, b, d, e, new, f1, f2, f3⟩ := ih { c with problems := c.problems ++ [q] } h'
      refine ⟨a, b, ?_, ?_, new, f1, f2.cons _, f3⟩
      · rw [d]; simp [problemOf, hr]
      · intro k
        rw [e k]
        cases hk : result get wrap k with
        | value p =>
          have : k ≠ n := by rintro rfl; rw [hr] at hk; cases hk
          simp [this]
        | problem q => rfl
        | raises => rfl
    | value p =>
      simp only
      obtain ⟨a, b, d, e, new, f1, f2, f3⟩ := ih { c with plugins := put n p c.plugins } h'
      refine ⟨a, b, ?_, ?_, ?_⟩
      · rw [d]; simp [problemOf, hr]
      · intro k
        rw [e k]
        simp only [find_put]
        by_cases hk : k = n
        · subst hk
          simp [hr]
        · simp only [List.mem_cons, hk, false_or, if_false]
      · simp only [put_keys] at f1 f3
        by_cases hm : n ∈ c.plugins.map (·.1)
        · rw [if_pos hm] at f1 f3
          exact ⟨new, f1, f2.cons _, f3⟩
        · rw [if_neg hm] at f1 f3
          refine ⟨n :: new, by rw [f1]; simp, f2.cons_cons _, ?_⟩
          intro hnd
          have := f3 (by
            rw [List.nodup_append]
            refine ⟨hnd, by simp, ?_⟩
            intro x hx y hy
            simp only [List.mem_singleton] at hy
            rintro rfl
            exact hm (hy ▸ hx))
          simpa using this

/-- **C64**: the files found are the files with a fitting ending in the directories that can be
listed. -/
theorem C64_files (join : Str → Str → Str) (isfile : Str → Bool) (ext : Ext)
    (dirs : List (Str × Option (List Str))) (f : Str) :
    f ∈ pluginFiles join isfile ext dirs ↔
      ∃ dir entries e, (dir, some entries) ∈ dirs ∧ e ∈ entries ∧ f = join dir e ∧ isfile f = true ∧
        match ext with
        | .all => True
        | .one x => ∃ stem, e = stem ++ x
        | .many xs => ∃ x ∈ xs, ∃ stem, e = stem ++ x := by
  have hfit : ∀ e : Str, ext.fits e = true ↔ (match ext with
        | .all => True
        | .one x => ∃ stem, e = stem ++ x
        | .many xs => ∃ x ∈ xs, ∃ stem, e = stem ++ x) := by
    intro e
    cases ext with
    | all => simp [Ext.fits]
    | one x =>
      simp only [Ext.fits, List.isSuffixOf_iff_suffix]
      exact ⟨fun ⟨s, hs⟩ => ⟨s, hs.symm⟩, fun ⟨s, hs⟩ => ⟨s, hs.symm⟩⟩
    | many xs =>
      simp only [Ext.fits, List.any_eq_true, List.isSuffixOf_iff_suffix]
      exact ⟨fun ⟨x, hx, s, hs⟩ => ⟨x, hx, s, hs.symm⟩, fun ⟨x, hx, s, hs⟩ => ⟨x, hx, s, hs.symm⟩⟩
  simp only [pluginFiles, List.mem_flatMap]
  constructor
  · rintro ⟨⟨dir, o⟩, hd, hf⟩
    cases o with
    | none => simp at hf
    | some entries =>
      simp only [List.mem_filter, List.mem_map] at hf
      obtain ⟨⟨e, ⟨he, hfe⟩, rfl⟩, hi⟩ := hf
      exact ⟨dir, entries, e, hd, he, rfl, hi, (hfit e).mp hfe⟩
  · rintro ⟨dir, entries, e, hd, he, rfl, hi, hx⟩
    refine ⟨(dir, some entries), hd, ?_⟩
    simp only [List.mem_filter, List.mem_map]
    exact ⟨⟨e, ⟨he, (hfit e).mpr hx⟩, rfl⟩, hi⟩

example : pluginFiles (fun d e => d ++ '/' :: e) (fun f => f ≠ "/b/d.provider".toList)
    (.one ".provider".toList)
    [("/a".toList, none), ("/b".toList, some ["c.provider".toList, "x.txt".toList,
      "d.provider".toList])] = ["/b/c.provider".toList] := by decide +kernel

/-- **C64 (partial)**: a collection that was loaded without unexpected exceptions holds exactly the
plug-ins that could be loaded, each once and sorted by name, and the problems of the others, one
for each time the file is listed, in the order of the names.  What is missing: unexpected
exceptions, see `C64_violated`. -/
theorem C64_complete_partial (get : Str → Got T Q) (wrap : Str → T → Got P Q) (files : List Str)
    (h : ∀ n ∈ files, ¬ Yields get wrap n .raises) :
    let r := fsLoad get wrap files empty
    r.2 = false ∧ r.1.loaded = true ∧
    (∀ n p, baseGet r.1 n = .plugin p ↔ n ∈ files ∧ Yields get wrap n (.value p)) ∧
    (r.1.plugins.map (·.1)).Nodup ∧
    (r.1.plugins.map (·.1)).Pairwise (fun a b => Sort.strLe a b = true) ∧
    (∃ sorted : List Str, sorted.Perm files ∧
      sorted.Pairwise (fun a b => Sort.strLe a b = true) ∧
      r.1.problems = sorted.filterMap (problemOf get wrap)) := by
  have hp := Sort.sortBy_perm (le := Sort.strLe) files
  have hs := Sort.sortBy_sorted (le := Sort.strLe) Sort.strLe_total Sort.strLe_trans files
  have h' : ∀ n ∈ Sort.sortBy Sort.strLe files, result get wrap n ≠ .raises := by
    intro n hn hr
    exact h n (hp.mem_iff.mp hn) ((yields_iff _ _ _ _).mpr hr)
  obtain ⟨a, b, d, e, new, f1, f2, f3⟩ :=
    loadAll_spec get wrap (Sort.sortBy Sort.strLe files) (⟨[], [], true⟩ : Coll P Q) h'
  have er : fsLoad get wrap files empty =
      loadAll get wrap (Sort.sortBy Sort.strLe files) (⟨[], [], true⟩ : Coll P Q) := by
    simp [fsLoad, empty]
  simp only [er]
  simp only [List.map_nil, List.nil_append, List.nodup_nil, forall_const, find] at f1 f3 e d
  refine ⟨a, b, ?_, ?_, ?_, _, hp, hs, d⟩
  · intro n p
    simp only [baseGet, e n, yields_iff]
    cases hr : result get wrap n with
    | value p' =>
      simp only
      by_cases hm : n ∈ Sort.sortBy Sort.strLe files
      · simp [hm, hp.mem_iff.mp hm]
      · simp [hm, mt hp.mem_iff.mpr hm]
    | problem q => simp
    | raises => simp
  · rw [f1]; exact f3
  · rw [f1]; exact hs.sublist f2

/-- **C64**: the loaded collection does not depend on the order in which files are listed. -/
theorem C64_order (get : Str → Got T Q) (wrap : Str → T → Got P Q) (files files' : List Str)
    (h : files.Perm files') (c : Coll P Q) : fsLoad get wrap files c = fsLoad get wrap files' c := by
  have e : Sort.sortBy Sort.strLe files = Sort.sortBy Sort.strLe files' := by
    apply List.Perm.eq_of_pairwise (le := fun a b => Sort.strLe a b = true)
    · intro a b _ _ h1 h2
      exact Sort.strLe_antisymm a b h1 h2
    · exact Sort.sortBy_sorted Sort.strLe_total Sort.strLe_trans _
    · exact Sort.sortBy_sorted Sort.strLe_total Sort.strLe_trans _
    · exact (Sort.sortBy_perm _).trans (h.trans (Sort.sortBy_perm _).symm)
  simp only [fsLoad, e]

/-- **C64**: loading again changes nothing, whatever the directories hold by then. -/
theorem C64_again (get get' : Str → Got T Q) (wrap wrap' : Str → T → Got P Q)
    (files files' : List Str) (c : Coll P Q) :
    fsLoad get' wrap' files' (fsLoad get wrap files c).1 = ((fsLoad get wrap files c).1, false) := by
  have hl : ∀ ns (c : Coll P Q), (loadAll get wrap ns c).1.loaded = c.loaded := by
    intro ns
    induction ns with
    | nil => intro c; rfl
    | cons n ns ih =>
      intro c
      simp only [loadAll, loadOne_eq]
      cases result get wrap n with
      | value p => simp only; rw [ih]
      | problem q => simp only; rw [ih]
      | raises => rfl
  have : (fsLoad get wrap files c).1.loaded = true := by
    unfold fsLoad
    by_cases hc : c.loaded = true
    · rw [if_pos hc]; exact hc
    · rw [if_neg hc, hl]
  generalize (fsLoad get wrap files c).1 = d at this
  simp [fsLoad, this]

/-- **C64 (partial)**: a collection of entry points is loaded like one of files if nothing raises
unexpectedly.  What is missing: two entry points of the same name. -/
theorem C64_entry_points_partial (get : Str → Got T Q) (wrap : Str → T → Got P Q)
    (names : List Str) (h : ∀ n ∈ names, ¬ Yields get wrap n .raises) :
    pkgLoad get wrap names empty = fsLoad get wrap names empty := by
  have h' : ∀ n ∈ Sort.sortBy Sort.strLe names, result get wrap n ≠ .raises := by
    intro n hn hr
    exact h n ((Sort.sortBy_perm _).mem_iff.mp hn) ((yields_iff _ _ _ _).mpr hr)
  have flag : ∀ ns (c : Coll P Q), (∀ n ∈ ns, result get wrap n ≠ .raises) →
      loadAll get wrap ns { c with loaded := true } =
        ({ (loadAll get wrap ns c).1 with loaded := true }, false) ∧
      (loadAll get wrap ns c).2 = false := by
    intro ns
    induction ns with
    | nil => intro c _; exact ⟨rfl, rfl⟩
    | cons n ns ih =>
      intro c hn
      have hn' : ∀ m ∈ ns, result get wrap m ≠ .raises := fun m hm => hn m (by simp [hm])
      simp only [loadAll, loadOne_eq]
      cases hr : result get wrap n with
      | raises => exact absurd hr (hn n (by simp))
      | problem q => exact ih { c with problems := c.problems ++ [q] } hn'
      | value p => exact ih { c with plugins := put n p c.plugins } hn'
  obtain ⟨f1, f2⟩ := flag (Sort.sortBy Sort.strLe names) (empty : Coll P Q) h'
  have e1 : fsLoad get wrap names empty =
      loadAll get wrap (Sort.sortBy Sort.strLe names) { (empty : Coll P Q) with loaded := true } := by
    simp [fsLoad, empty]
  rw [e1, f1]
  unfold pkgLoad
  rw [if_neg (by simp [empty])]
  cases hl : loadAll get wrap (Sort.sortBy Sort.strLe names) (empty : Coll P Q) with
  | mk c b =>
    rw [hl] at f2
    cases b with
    | true => cases f2
    | false => rfl

/-- **C64**: a collection of entry points counts as loaded exactly when nothing raised unexpectedly; so loading is
tried again after such a failure, and does nothing after a success. -/
theorem C64_entry_points_loaded (get : Str → Got T Q) (wrap : Str → T → Got P Q) (names : List Str) :
    ((pkgLoad get wrap names empty).2 = true ↔ ∃ n ∈ names, Yields get wrap n .raises) ∧
    ((pkgLoad get wrap names empty).1.loaded = true ↔ ∀ n ∈ names, ¬ Yields get wrap n .raises) ∧
    ((∀ n ∈ names, ¬ Yields get wrap n .raises) →
      ∀ (get' : Str → Got T Q) (wrap' : Str → T → Got P Q) (names' : List Str),
      pkgLoad get' wrap' names' (pkgLoad get wrap names empty).1 =
        ((pkgLoad get wrap names empty).1, false)) := by
  have key : ∀ ns (c : Coll P Q), ((loadAll get wrap ns c).2 = true ↔ ∃ n ∈ ns, result get wrap n = .raises) ∧
      (loadAll get wrap ns c).1.loaded = c.loaded := by
    intro ns
    induction ns with
    | nil => intro c; exact ⟨⟨(fun h => nomatch h), fun ⟨n, h, _⟩ => nomatch h⟩, rfl⟩
    | cons n ns ih =>
      intro c
      simp only [loadAll, loadOne_eq]
      cases hr : result get wrap n with
      | raises => exact ⟨⟨fun _ => ⟨n, by simp, hr⟩, fun _ => rfl⟩, rfl⟩
      | problem q =>
        obtain ⟨h1, h2⟩ := ih { c with problems := c.problems ++ [q] }
        refine ⟨h1.trans ⟨fun ⟨m, hm, h⟩ => ⟨m, by simp [hm], h⟩, fun ⟨m, hm, h⟩ => ?_⟩, h2⟩
        rcases List.mem_cons.mp hm with rfl | hm
        · rw [hr] at h; cases h
        · exact ⟨m, hm, h⟩
      | value p =>
        obtain ⟨h1, h2⟩ := ih { c with plugins := put n p c.plugins }
        refine ⟨h1.trans ⟨fun ⟨m, hm, h⟩ => ⟨m, by simp [hm], h⟩, fun ⟨m, hm, h⟩ => ?_⟩, h2⟩
        rcases List.mem_cons.mp hm with rfl | hm
        · rw [hr] at h; cases h
        · exact ⟨m, hm, h⟩
  have hmem : (∃ n ∈ Sort.sortBy Sort.strLe names, result get wrap n = .raises) ↔
      ∃ n ∈ names, Yields get wrap n .raises := by
    simp only [yields_iff, (Sort.sortBy_perm (le := Sort.strLe) names).mem_iff]
  obtain ⟨k1, k2⟩ := key (Sort.sortBy Sort.strLe names) (empty : Coll P Q)
  rw [hmem] at k1
  have hp : pkgLoad get wrap names (empty : Coll P Q) =
      (if (loadAll get wrap (Sort.sortBy Sort.strLe names) (empty : Coll P Q)).2 = true then
        ((loadAll get wrap (Sort.sortBy Sort.strLe names) (empty : Coll P Q)).1, true)
      else ({ (loadAll get wrap (Sort.sortBy Sort.strLe names) (empty : Coll P Q)).1 with loaded := true },
        false)) := by
    unfold pkgLoad
    rw [if_neg (by simp [empty])]
    cases hl : loadAll get wrap (Sort.sortBy Sort.strLe names) (empty : Coll P Q) with
    | mk c b => cases b <;> rfl
  by_cases hr : (loadAll get wrap (Sort.sortBy Sort.strLe names) (empty : Coll P Q)).2 = true
  · rw [if_pos hr] at hp
    have hex := k1.mp hr
    refine ⟨⟨fun _ => hex, fun _ => by rw [hp]⟩, ⟨fun h => ?_, fun h => ?_⟩, fun h => ?_⟩
    · rw [hp] at h; dsimp only at h; rw [k2] at h; cases h
    · obtain ⟨n, hn, hy⟩ := hex; exact absurd hy (h n hn)
    · obtain ⟨n, hn, hy⟩ := hex; exact absurd hy (h n hn)
  · rw [if_neg hr] at hp
    have hex : ∀ n ∈ names, ¬ Yields get wrap n .raises := fun n hn hy => hr (k1.mpr ⟨n, hn, hy⟩)
    refine ⟨⟨fun h => ?_, fun ⟨n, hn, hy⟩ => absurd hy (hex n hn)⟩, ⟨fun _ => hex, fun _ => by rw [hp]⟩, ?_⟩
    · rw [hp] at h; cases h
    · intro _ get' wrap' names'
      rw [hp]
      simp [pkgLoad]

example : (pkgLoad (P := Nat) (Q := Nat) (fun _ => Got.raises) (fun _ (t : Nat) => .value t) ["a".toList]
    empty) = (empty, true) := by decide +kernel

/-- Files `a` (good), `b` (refused by the wrapper), `c` (good). -/
def exGet : Str → Got Nat Nat := fun n => if n = "b".toList then .value 0 else .value 1
def exWrap : Str → Nat → Got Nat Nat := fun _ t => if t = 0 then .problem 7 else .value t

example : fsLoad exGet exWrap ["c".toList, "b".toList, "a".toList, "c".toList] empty =
    (⟨[("a".toList, 1), ("c".toList, 1)], [7], true⟩, false) := by decide +kernel

/-- **C64** is violated: a file that cannot be decoded makes `load` raise; called again it returns as
if all was well, but the good plug-in `c` is not in the collection. -/
theorem C64_violated :
    ∃ (get : Str → Got Nat Nat) (files : List Str),
      let first := fsLoad get exWrap files empty
      let second := fsLoad get exWrap files first.1
      first.2 = true ∧ second.2 = false ∧ "c".toList ∈ files ∧
      Yields get exWrap "c".toList (.value 1) ∧ baseGet second.1 "c".toList = .keyError ∧
      second.1.problems = [] := by
  refine ⟨fun n => if n = "b".toList then .raises else .value 1, ["a".toList, "b".toList, "c".toList],
    by decide +kernel, by decide +kernel, by decide +kernel, ?_, by decide +kernel,
    by decide +kernel⟩
  exact .wrapped (t := 1) (by decide +kernel) (by decide +kernel)

/-! ### Lazy collection -/

/-- What holds of a lazy collection after any calls: plug-ins in it are good ones of the mapping, and
problems are those of plug-ins of the mapping. -/
def Sound (get : Str → Got T Q) (wrap : Str → T → Got P Q) (names : List Str) (c : Coll P Q) : Prop :=
  (∀ n p, find n c.plugins = some p → n ∈ names ∧ Yields get wrap n (.value p)) ∧
  (∀ q ∈ c.problems, ∃ n ∈ names, Yields get wrap n (.problem q)) ∧
  (c.plugins.map (·.1)).Nodup

theorem put_nodup {k : Str} {p : P} {l : List (Str × P)} (h : (l.map (·.1)).Nodup) :
    ((put k p l).map (·.1)).Nodup := by
  rw [put_keys]
  split
  · exact h
  · rename_i hk
    rw [List.nodup_append]
    refine ⟨h, by simp, ?_⟩
    intro a ha b hb
    simp only [List.mem_singleton] at hb
    rintro rfl
    exact hk (hb ▸ ha)

theorem sound_loadOne {get : Str → Got T Q} {wrap : Str → T → Got P Q} {names : List Str}
    {c : Coll P Q} (h : Sound get wrap names c) {n : Str} (hn : n ∈ names) :
    Sound get wrap names (loadOne get wrap c n).1 := by
  rw [loadOne_eq]
  obtain ⟨h1, h2, h3⟩ := h
  cases hr : result get wrap n with
  | value p =>
    refine ⟨?_, h2, put_nodup h3⟩
    intro k p' hk
    simp only [find_put] at hk
    by_cases hkn : k = n
    · subst hkn
      simp only [if_true, Option.some.injEq] at hk
      subst hk
      exact ⟨hn, (yields_iff _ _ _ _).mpr hr⟩
    · rw [if_neg hkn] at hk
      exact h1 k p' hk
  | problem q =>
    refine ⟨h1, ?_, h3⟩
    intro q' hq'
    rcases List.mem_append.mp hq' with hq' | hq'
    · exact h2 q' hq'
    · rw [List.mem_singleton.mp hq']
      exact ⟨n, hn, (yields_iff _ _ _ _).mpr hr⟩
  | raises => exact ⟨h1, h2, h3⟩

theorem sound_lazyLoop {get : Str → Got T Q} {wrap : Str → T → Got P Q} {names : List Str}
    (ns : List Str) (hns : ∀ n ∈ ns, n ∈ names) {c : Coll P Q} (h : Sound get wrap names c) :
    Sound get wrap names (lazyLoop get wrap ns c).1 := by
  induction ns generalizing c with
  | nil => exact h
  | cons n ns ih =>
    have hns' : ∀ m ∈ ns, m ∈ names := fun m hm => hns m (by simp [hm])
    simp only [lazyLoop]
    split
    · exact ih hns' h
    · have := sound_loadOne h (hns n (by simp))
      cases hl : loadOne get wrap c n with
      | mk c' b =>
        rw [hl] at this
        cases b with
        | true => exact this
        | false => exact ih hns' this

theorem sound_call {get : Str → Got T Q} {wrap : Str → T → Got P Q} {names : List Str}
    {c : Coll P Q} (h : Sound get wrap names c) (k : Call) :
    Sound get wrap names (call get wrap names c k) := by
  cases k with
  | names => exact h
  | load =>
    simp only [call, lazyLoad]
    split
    · exact h
    · exact sound_lazyLoop names (fun n hn => hn) (c := { c with loaded := true }) h
  | get n =>
    simp only [call, lazyGet]
    split
    · exact h
    · cases hf : find n c.plugins with
      | some p => exact h
      | none =>
        simp only
        split
        · rename_i hn
          have := sound_loadOne h hn
          cases hl : loadOne get wrap c n with
          | mk c' b =>
            rw [hl] at this
            cases b <;> exact this
        · exact h

theorem sound_calls {get : Str → Got T Q} {wrap : Str → T → Got P Q} {names : List Str}
    (l : List Call) {c : Coll P Q} (h : Sound get wrap names c) :
    Sound get wrap names (calls get wrap names c l) := by
  induction l generalizing c with
  | nil => exact h
  | cons k l ih => exact ih (sound_call h k)

/-- Once the flag is set the collection is complete, unless something raised. -/
theorem complete_lazyLoop {get : Str → Got T Q} {wrap : Str → T → Got P Q}
    (ns : List Str) (hr : ∀ n ∈ ns, result get wrap n ≠ .raises) (c : Coll P Q) :
    (lazyLoop get wrap ns c).2 = false ∧ (lazyLoop get wrap ns c).1.loaded = c.loaded ∧
    (∀ k p, find k c.plugins = some p → (lazyLoop get wrap ns c).1.plugins.map (·.1) ≠ [] ∧
      find k (lazyLoop get wrap ns c).1.plugins = some p) ∧
    (∀ k ∈ ns, ∀ p, result get wrap k = .value p →
      (find k (lazyLoop get wrap ns c).1.plugins).isSome) := by
  induction ns generalizing c with
  | nil =>
    refine ⟨rfl, rfl, ?_, by simp⟩
    intro k p hk
    refine ⟨?_, hk⟩
    intro he
    have := (find_isSome_iff k c.plugins).mp (by rw [hk]; rfl)
    simp only [lazyLoop] at he
    rw [he] at this
    simp at this
  | cons n ns ih =>
    have hr' : ∀ m ∈ ns, result get wrap m ≠ .raises := fun m hm => hr m (by simp [hm])
    simp only [lazyLoop, loadOne_eq]
    by_cases hf : (find n c.plugins).isSome = true
    · rw [if_pos hf]
      obtain ⟨a, b, d, e⟩ := ih hr' c
      refine ⟨a, b, d, ?_⟩
      intro k hk p hp
      rcases List.mem_cons.mp hk with rfl | hk
      · obtain ⟨p', hp'⟩ := Option.isSome_iff_exists.mp hf
        rw [(d k p' hp').2]; rfl
      · exact e k hk p hp
    · rw [if_neg hf]
      cases hn : result get wrap n with
      | raises => exact absurd hn (hr n (by simp))
      | problem q =>
        simp only
        obtain ⟨a, b, d, e⟩ := ih hr' { c with problems := c.problems ++ [q] }
        refine ⟨a, b, d, ?_⟩
        intro k hk p hp
        rcases List.mem_cons.mp hk with rfl | hk
        · rw [hn] at hp; cases hp
        · exact e k hk p hp
      | value p =>
        simp only
        obtain ⟨a, b, d, e⟩ := ih hr' { c with plugins := put n p c.plugins }
        have hnone : find n c.plugins = none := by simpa using hf
        refine ⟨a, b, ?_, ?_⟩
        · intro k p' hk
          refine d k p' ?_
          simp only [find_put]
          rw [if_neg, hk]
          rintro rfl
          rw [hnone] at hk; cases hk
        · intro k hk p' hp
          rcases List.mem_cons.mp hk with rfl | hk
          · have := (d k p (by simp [find_put])).2
            rw [this]; rfl
          · exact e k hk p' hp

/-- Loaded collections are complete. -/
def Full (get : Str → Got T Q) (wrap : Str → T → Got P Q) (names : List Str) (c : Coll P Q) : Prop :=
  c.loaded = true → ∀ n ∈ names, ∀ p, Yields get wrap n (.value p) → find n c.plugins = some p

theorem full_calls {get : Str → Got T Q} {wrap : Str → T → Got P Q} {names : List Str}
    (hr : ∀ n ∈ names, ¬ Yields get wrap n .raises) (l : List Call) {c : Coll P Q}
    (hs : Sound get wrap names c) (h : Full get wrap names c) :
    Full get wrap names (calls get wrap names c l) := by
  have hr' : ∀ n ∈ names, result get wrap n ≠ .raises :=
    fun n hn he => hr n hn ((yields_iff _ _ _ _).mpr he)
  induction l generalizing c with
  | nil => exact h
  | cons k l ih =>
    refine ih (sound_call hs k) ?_
    cases k with
    | names => exact h
    | load =>
      simp only [call, lazyLoad]
      split
      · exact h
      · intro _ n hn p hp
        have hs' : Sound get wrap names (lazyLoop get wrap names { c with loaded := true }).1 :=
          sound_lazyLoop names (fun n hn => hn) (c := { c with loaded := true }) hs
        obtain ⟨_, _, _, e⟩ := complete_lazyLoop names hr' { c with loaded := true }
        obtain ⟨p', hp'⟩ := Option.isSome_iff_exists.mp (e n hn p ((yields_iff _ _ _ _).mp hp))
        rw [hp']
        have := (hs'.1 n p' hp').2
        rw [yields_iff] at this hp
        rw [hp] at this
        cases this; rfl
    | get n =>
      by_cases hl : c.loaded = true
      · simp only [call, lazyGet, if_pos hl]; exact h
      · intro hl'
        exfalso
        apply hl
        rw [← hl']
        simp only [call, lazyGet, if_neg hl]
        cases hf : find n c.plugins with
        | some p => rfl
        | none =>
          simp only
          split
          · rw [loadOne_eq]
            cases result get wrap n <;> rfl
          · rfl

/-- **C64 (partial)**: after any calls, `get_by_name` of the lazy collection answers like the loaded
eager collection of the same plug-ins: the plug-in if it can be loaded, `KeyError` otherwise.
What is missing: plug-ins that raise unexpected exceptions. -/
theorem C64_lazy_partial (get : Str → Got T Q) (wrap : Str → T → Got P Q) (names : List Str)
    (hr : ∀ n ∈ names, ¬ Yields get wrap n .raises) (l : List Call) (n : Str) :
    let c := calls get wrap names empty l
    (∀ p, (lazyGet get wrap names c n).2 = .plugin p ↔
      baseGet (fsLoad get wrap names empty).1 n = .plugin p) ∧
    (lazyGet get wrap names c n).2 ≠ .raised := by
  intro c
  have hs0 : Sound get wrap names (empty : Coll P Q) := by
    refine ⟨?_, ?_, ?_⟩ <;> simp [empty, find]
  have hs : Sound get wrap names c := sound_calls l hs0
  have hf : Full get wrap names c := full_calls hr l hs0 (by intro h; cases h)
  have key : ∀ a, (lazyGet get wrap names c n).2 = a →
      a = (match result get wrap n with
        | .value p => if n ∈ names then .plugin p else .keyError
        | _ => .keyError) := by
    rintro a rfl
    have hval : ∀ p, find n c.plugins = some p → n ∈ names ∧ result get wrap n = .value p :=
      fun p hp => ⟨(hs.1 n p hp).1, (yields_iff _ _ _ _).mp (hs.1 n p hp).2⟩
    unfold lazyGet
    by_cases hl : c.loaded = true
    · rw [if_pos hl]
      simp only [baseGet]
      cases hfd : find n c.plugins with
      | some p =>
        obtain ⟨hm, hv⟩ := hval p hfd
        simp [hv, hm]
      | none =>
        cases hv : result get wrap n with
        | value p =>
          by_cases hm : n ∈ names
          · have := hf hl n hm p ((yields_iff _ _ _ _).mpr hv)
            rw [hfd] at this; cases this
          · simp [hm]
        | problem q => rfl
        | raises => rfl
    · rw [if_neg hl]
      cases hfd : find n c.plugins with
      | some p =>
        obtain ⟨hm, hv⟩ := hval p hfd
        simp [hv, hm]
      | none =>
        simp only
        by_cases hm : n ∈ names
        · rw [if_pos hm, loadOne_eq]
          cases hv : result get wrap n with
          | value p => simp [baseGet, find_put, hm]
          | problem q => simp [baseGet, hfd]
          | raises => exact absurd ((yields_iff _ _ _ _).mpr hv) (hr n hm)
        · rw [if_neg hm]
          cases result get wrap n <;> simp [hm]
  constructor
  · intro p
    have he := (C64_complete_partial get wrap names hr).2.2.1 n p
    rw [he, yields_iff, key _ rfl]
    cases result get wrap n with
    | value p' => by_cases hm : n ∈ names <;> simp [hm]
    | problem q => simp
    | raises => simp
  · intro h
    have := key _ h
    cases hv : result get wrap n with
    | value p' => rw [hv] at this; by_cases hm : n ∈ names <;> simp [hm] at this
    | problem q => rw [hv] at this; simp at this
    | raises => rw [hv] at this; simp at this

theorem lazyLoop_loaded (get : Str → Got T Q) (wrap : Str → T → Got P Q) : ∀ (ns : List Str) (c : Coll P Q),
    (lazyLoop get wrap ns c).1.loaded = c.loaded
  | [], c => rfl
  | n :: ns, c => by
    have h1 : (loadOne get wrap c n).1.loaded = c.loaded := by
      unfold loadOne wrapAdd
      repeat' split
      all_goals rfl
    unfold lazyLoop
    split
    · exact lazyLoop_loaded get wrap ns c
    · split
      · rename_i c' he; rw [he] at h1; exact h1
      · rename_i c' he; rw [he] at h1; rw [lazyLoop_loaded get wrap ns c']; exact h1

/-- **C64**: once a lazy collection was loaded, after any further calls, loading it again does nothing and raises nothing. -/
theorem C64_lazy_again (get : Str → Got T Q) (wrap : Str → T → Got P Q) (names : List Str) (l l' : List Call) :
    let c := calls get wrap names empty (l ++ .load :: l')
    lazyLoad get wrap names c = (c, false) := by
  intro c
  have one : ∀ (c : Coll P Q) (x : Call), c.loaded = true → (call get wrap names c x).loaded = true := by
    intro c x hc
    cases x <;> simp [call, lazyLoad, lazyGet, hc]
  have many : ∀ (l : List Call) (c : Coll P Q), c.loaded = true → (calls get wrap names c l).loaded = true := by
    intro l
    induction l with
    | nil => intro c hc; exact hc
    | cons x l ih => intro c hc; exact ih _ (one c x hc)
  have hl : c.loaded = true := by
    show (calls get wrap names empty (l ++ .load :: l')).loaded = true
    have : calls get wrap names (empty : Coll P Q) (l ++ .load :: l') =
        calls get wrap names (call get wrap names (calls get wrap names empty l) .load) l' := by
      simp [calls, List.foldl_append]
    rw [this]
    refine many l' _ ?_
    show (lazyLoad get wrap names (calls get wrap names empty l)).1.loaded = true
    unfold lazyLoad
    by_cases hc : (calls get wrap names (empty : Coll P Q) l).loaded = true
    · rw [if_pos hc]; exact hc
    · rw [if_neg hc]
      exact lazyLoop_loaded get wrap names _
  unfold lazyLoad
  rw [if_pos hl]

/-- **C64 (partial)**: after any calls followed by `load`, the lazy collection holds the same
plug-ins as the eager one (in another order, perhaps), none twice, and every problem is the problem
of some plug-in.  What is missing: each problem once, see `C64_lazy_violated`. -/
theorem C64_lazy_load_partial (get : Str → Got T Q) (wrap : Str → T → Got P Q) (names : List Str)
    (hr : ∀ n ∈ names, ¬ Yields get wrap n .raises) (l : List Call) :
    let c := (lazyLoad get wrap names (calls get wrap names empty l)).1
    (∀ n p, baseGet c n = .plugin p ↔ baseGet (fsLoad get wrap names empty).1 n = .plugin p) ∧
    (lazyNames names c).Nodup ∧
    (∀ n, n ∈ lazyNames names c ↔ ∃ p, baseGet c n = .plugin p) ∧
    (∀ q ∈ c.problems, ∃ n ∈ names, Yields get wrap n (.problem q)) := by
  intro c
  have hs0 : Sound get wrap names (empty : Coll P Q) := by
    refine ⟨?_, ?_, ?_⟩ <;> simp [empty, find]
  have ec : c = calls get wrap names empty (l ++ [.load]) := by
    simp only [calls, List.foldl_append, List.foldl_cons, List.foldl_nil, call]
    rfl
  have hs : Sound get wrap names c := ec ▸ sound_calls _ hs0
  have hf : Full get wrap names c := ec ▸ full_calls hr _ hs0 (by intro h; cases h)
  have hl : c.loaded = true := by
    show (lazyLoad get wrap names (calls get wrap names empty l)).1.loaded = true
    unfold lazyLoad
    by_cases hc : (calls get wrap names empty l).loaded = true
    · rw [if_pos hc]; exact hc
    · rw [if_neg hc]
      exact (complete_lazyLoop names
        (fun n hn he => hr n hn ((yields_iff _ _ _ _).mpr he)) _).2.1
  refine ⟨?_, ?_, ?_, hs.2.1⟩
  · intro n p
    rw [(C64_complete_partial get wrap names hr).2.2.1 n p]
    simp only [baseGet]
    constructor
    · intro h
      cases hfd : find n c.plugins with
      | none => rw [hfd] at h; cases h
      | some p' =>
        rw [hfd] at h
        cases h
        exact hs.1 n p hfd
    · rintro ⟨hm, hy⟩
      rw [hf hl n hm p hy]
  · simp only [lazyNames, if_pos hl]; exact hs.2.2
  · intro n
    simp only [lazyNames, if_pos hl, ← find_isSome_iff, baseGet]
    cases find n c.plugins <;> simp

example : ∀ n ∈ ["c".toList, "b".toList, "a".toList], ¬ Yields exGet exWrap n .raises := by
  intro n _ h
  rw [yields_iff] at h
  by_cases hn : n = "b".toList
  · subst hn
    revert h
    decide +kernel
  · have e : exGet n = .value 1 := if_neg hn
    rw [result, e] at h
    exact absurd (show (Got.value 1 : Got Nat Nat) = .raises from h) (by decide)

/-- Asking for `c` first changes the order, not the content. -/
example : (lazyLoad exGet exWrap ["a".toList, "b".toList, "c".toList]
    (calls exGet exWrap ["a".toList, "b".toList, "c".toList] empty [.get "c".toList])).1 =
    ⟨[("c".toList, 1), ("a".toList, 1)], [7], true⟩ := by decide +kernel

/-- **C64** is violated for the lazy collection: asking twice for a broken plug-in records its
problem twice, and before loading the names include plug-ins that cannot be loaded. -/
theorem C64_lazy_violated :
    ∃ (l : List Call), (calls exGet exWrap ["a".toList, "b".toList] empty l).problems = [7, 7] ∧
      "b".toList ∈ lazyNames ["a".toList, "b".toList]
        (calls exGet exWrap ["a".toList, "b".toList] empty l) ∧
      (lazyGet exGet exWrap ["a".toList, "b".toList]
        (calls exGet exWrap ["a".toList, "b".toList] empty l) "b".toList).2 = .keyError := by
  refine ⟨[.get "b".toList, .get "b".toList], by decide +kernel, by decide +kernel,
    by decide +kernel⟩

/-- **C64**: inside a block with fake plug-ins only the fakes are found, whatever is called, and
afterwards the collection is as before. -/
theorem C64_fake (get : Str → Got T Q) (wrap : Str → T → Got P Q) (names : List Str)
    (old : Coll P Q) (fakes : List (Str × P)) (problems : List Q) (l : List Call) :
    withFake old fakes problems (fun c => calls get wrap names c l) = old ∧
    (calls get wrap names (enterFake fakes problems) l).problems = problems ∧
    ∀ n p, (lazyGet get wrap names (calls get wrap names (enterFake fakes problems) l) n).2 =
        .plugin p ↔
      ∃ pre post, fakes = pre ++ (n, p) :: post ∧ ∀ f ∈ post, f.1 ≠ n := by
  have h0 : ∀ (c : Coll P Q), c.loaded = true → calls get wrap names c l = c := by
    induction l with
    | nil => intro c _; rfl
    | cons k l ih =>
      intro c hc
      have : call get wrap names c k = c := by
        cases k with
        | load => simp [call, lazyLoad, hc]
        | names => rfl
        | get n => simp [call, lazyGet, hc]
      show calls get wrap names (call get wrap names c k) l = c
      rw [this, ih c hc]
  refine ⟨rfl, by rw [h0 _ rfl]; rfl, ?_⟩
  intro n p
  rw [h0 _ rfl]
  have hg : (lazyGet get wrap names (enterFake fakes problems) n).2 =
      baseGet (enterFake fakes problems) n := by
    simp [lazyGet, enterFake]
  rw [hg]
  have hfold : ∀ (fs : List (Str × P)) (a : List (Str × P)),
      find n (fs.foldl (fun l p => put p.1 p.2 l) a) = some p ↔
        (∃ pre post, fs = pre ++ (n, p) :: post ∧ ∀ f ∈ post, f.1 ≠ n) ∨
        ((∀ f ∈ fs, f.1 ≠ n) ∧ find n a = some p) := by
    intro fs
    induction fs with
    | nil => intro a; simp
    | cons f fs ih =>
      intro a
      simp only [List.foldl_cons, ih, find_put]
      constructor
      · rintro (⟨pre, post, e, h⟩ | ⟨h1, h2⟩)
        · exact .inl ⟨f :: pre, post, by simp [e], h⟩
        · by_cases hn : n = f.1
          · rw [if_pos hn] at h2
            refine .inl ⟨[], fs, ?_, h1⟩
            cases h2
            simp [hn]
          · rw [if_neg hn] at h2
            refine .inr ⟨?_, h2⟩
            intro g hg
            rcases List.mem_cons.mp hg with rfl | hg
            · exact Ne.symm hn
            · exact h1 g hg
      · rintro (⟨pre, post, e, h⟩ | ⟨h1, h2⟩)
        · cases pre with
          | nil =>
            simp only [List.nil_append, List.cons.injEq] at e
            obtain ⟨rfl, rfl⟩ := e
            exact .inr ⟨h, by simp⟩
          | cons g pre =>
            simp only [List.cons_append, List.cons.injEq] at e
            exact .inl ⟨pre, post, e.2, h⟩
        · refine .inr ⟨fun g hg => h1 g (by simp [hg]), ?_⟩
          rw [if_neg (Ne.symm (h1 f (by simp)))]
          exact h2
  have hb : baseGet (enterFake fakes problems : Coll P Q) n = .plugin p ↔
      find n (fakes.foldl (fun l p => put p.1 p.2 l) []) = some p := by
    simp only [baseGet, enterFake]
    cases find n (fakes.foldl (fun l p => put p.1 p.2 l) []) <;> simp
  rw [hb, hfold]
  simp [find]

example : (lazyGet exGet exWrap ["a".toList] (enterFake [("x".toList, 1), ("x".toList, 2)] [9])
    "x".toList).2 = .plugin 2 := by decide +kernel

end Verif.Plugins
