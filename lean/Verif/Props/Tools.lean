import Verif.Model.Tools
import Verif.Props.Ctrl
import Verif.Lemmas.Path
import Verif.Lemmas.Sort
import Verif.Lemmas.Text

/-!
# The programs that a command finds (C97)
-/

namespace Verif.Tools

open Verif.Path

/-! ## Specification -/

/-- `name` is the last component of the path `e`. -/
def Names (e name : Str) : Prop := '/' ∉ name ∧ (e = name ∨ ∃ dir, e = dir ++ '/' :: name)

/-- A provider has an executable of that name. -/
def Has (p : Provider) (e name : Str) : Prop :=
  (∃ u ∈ p.files, (u.role = .script ∨ u.role = .binary) ∧ u.path = e) ∧ Names e name

/-- The search without plainbox: the first directory with a program of that name. -/
def Plain (w : World) (name : Str) (ds : List Str) : Option Str :=
  (ds.map fun d => join (join w.cwd d) name).find? w.exe

/-! ## Lemmas -/

theorem basename_iff (e name : Str) : basename e = name ↔ Names e name := by
  constructor
  · rintro rfl
    refine ⟨after_noSlash e, ?_⟩
    have h := upto_append_after e
    rcases upto_end e with h0 | h0
    · rw [h0] at h; exact .inl h.symm
    · obtain ⟨d, hd⟩ : ∃ d, uptoSlash e = d ++ ['/'] := by
        rw [List.getLast?_eq_some_iff] at h0
        exact h0
      refine .inr ⟨d, ?_⟩
      rw [hd] at h
      show e = d ++ '/' :: afterSlash e
      rw [List.append_assoc] at h
      exact h.symm
  · rintro ⟨h1, rfl | ⟨dir, rfl⟩⟩
    · exact (after_upto (pre := []) h1 (.inl rfl)).1
    · exact basename_slash h1

theorem has_iff (p : Provider) (e name : Str) : Has p e name ↔ e ∈ p.executables ∧ basename e = name := by
  unfold Has Provider.executables
  rw [(Sort.sortBy_perm _).mem_iff, basename_iff]
  simp [and_assoc]

theorem lookup_append_single (l : Nest) (k v n : Str) :
    (l ++ [(k, v)]).lookup n = (l.lookup n).or (if n = k then some v else none) := by
  induction l with
  | nil =>
    by_cases h : n = k
    · simp [h]
    · have : (n == k) = false := by simpa using h
      simp [List.lookup_cons, this, h]
  | cons x l ih =>
    obtain ⟨a, b⟩ := x
    rw [List.cons_append, List.lookup_cons, List.lookup_cons]
    by_cases h : (n == a) = true
    · rw [h]; rfl
    · simp only [Bool.not_eq_true] at h; rw [h]; exact ih

theorem lookup_addExecutable (nest : Nest) (f n : Str) (hn : n ≠ []) :
    (addExecutable nest f).lookup n = (nest.lookup n).or (if basename f = n then some f else none) := by
  unfold addExecutable
  by_cases hb : basename f = n
  · subst hb
    rw [if_pos rfl]
    cases h : nest.lookup (basename f) with
    | none =>
      rw [if_neg (by simp [hn]), lookup_append_single, h, if_pos rfl]
    | some v => rw [if_pos (by simp), h]; rfl
  · rw [if_neg hb]
    split
    · simp
    · rw [lookup_append_single, if_neg (fun h => hb h.symm)]

theorem lookup_empty (nest : Nest) (f : Str) (h : nest.lookup [] = none) : (addExecutable nest f).lookup [] = none := by
  unfold addExecutable
  split
  · exact h
  · rename_i hc
    rw [not_or] at hc
    rw [lookup_append_single, h, if_neg (fun e => hc.1 e.symm)]
    rfl

theorem lookup_addAll (l : List Str) (nest : Nest) (n : Str) (hn : n ≠ []) :
    (l.foldl addExecutable nest).lookup n = (nest.lookup n).or (l.find? fun f => decide (basename f = n)) := by
  induction l generalizing nest with
  | nil => simp
  | cons f l ih =>
    rw [List.foldl_cons, ih, lookup_addExecutable nest f n hn, List.find?_cons]
    by_cases h : basename f = n
    · rw [if_pos h, decide_eq_true h]
      cases nest.lookup n <;> rfl
    · rw [if_neg h, decide_eq_false h]
      cases nest.lookup n <;> rfl

theorem lookup_configured (job : Provider) (ps : List Provider) (n : Str) (hn : n ≠ []) :
    (configured job ps).lookup n = ps.findSome? fun p =>
      if job.namespace = p.namespace then p.executables.find? fun f => decide (basename f = n) else none := by
  have key : ∀ (nest : Nest), (ps.foldl (fun nest p => if job.namespace = p.namespace then addProvider nest p else nest)
      nest).lookup n = (nest.lookup n).or (ps.findSome? fun p =>
      if job.namespace = p.namespace then p.executables.find? fun f => decide (basename f = n) else none) := by
    induction ps with
    | nil => intro nest; simp
    | cons p ps ih =>
      intro nest
      rw [List.foldl_cons, ih, List.findSome?_cons]
      by_cases h : job.namespace = p.namespace
      · rw [if_pos h, if_pos h, addProvider, lookup_addAll _ _ _ hn]
        cases nest.lookup n with
        | some v => rfl
        | none =>
          cases p.executables.find? fun f => decide (basename f = n) <;> rfl
      · rw [if_neg h, if_neg h]
  exact key []

theorem configured_empty (job : Provider) (ps : List Provider) : (configured job ps).lookup [] = none := by
  have h2 : ∀ (l : List Str) (nest : Nest), nest.lookup [] = none → (l.foldl addExecutable nest).lookup [] = none := by
    intro l
    induction l with
    | nil => intro nest h; exact h
    | cons f l ih => intro nest h; exact ih _ (lookup_empty nest f h)
  have key : ∀ (nest : Nest), nest.lookup [] = none →
      (ps.foldl (fun nest p => if job.namespace = p.namespace then addProvider nest p else nest) nest).lookup [] = none := by
    induction ps with
    | nil => intro nest h; exact h
    | cons p ps ih =>
      intro nest h
      rw [List.foldl_cons]
      apply ih
      split
      · exact h2 _ _ h
      · exact h
  exact key [] rfl

theorem find_sorted {l : List Str} (hs : l.Pairwise fun a b => Sort.strLe a b = true) (q : Str → Bool) (e : Str) :
    l.find? q = some e ↔ e ∈ l ∧ q e = true ∧ ∀ e' ∈ l, q e' = true → Sort.strLe e e' = true := by
  induction l with
  | nil => simp
  | cons x l ih =>
    rw [List.pairwise_cons] at hs
    rw [List.find?_cons]
    by_cases hx : q x = true
    · rw [hx]
      constructor
      · intro h
        cases h
        refine ⟨List.mem_cons_self, hx, fun e' he' _ => ?_⟩
        rcases List.mem_cons.1 he' with rfl | h
        · exact Sort.strLe_refl _
        · exact hs.1 _ h
      · rintro ⟨h1, h2, h3⟩
        rcases List.mem_cons.1 h1 with rfl | h
        · rfl
        · exact congrArg some (Sort.strLe_antisymm _ _ (hs.1 _ h) (h3 x List.mem_cons_self hx))
    · simp only [Bool.not_eq_true] at hx
      rw [hx]
      dsimp only
      rw [ih hs.2]
      constructor
      · rintro ⟨h1, h2, h3⟩
        refine ⟨List.mem_cons_of_mem _ h1, h2, fun e' he' hq => ?_⟩
        rcases List.mem_cons.1 he' with rfl | h
        · rw [hx] at hq; cases hq
        · exact h3 _ h hq
      · rintro ⟨h1, h2, h3⟩
        rcases List.mem_cons.1 h1 with rfl | h
        · rw [hx] at h2; cases h2
        · exact ⟨h, h2, fun e' he' => h3 e' (List.mem_cons_of_mem _ he')⟩

theorem exec_find (p : Provider) (n e : Str) :
    (p.executables.find? fun f => decide (basename f = n)) = some e ↔
      Has p e n ∧ ∀ e', Has p e' n → Sort.strLe e e' = true := by
  rw [find_sorted (l := p.executables) (Sort.sortBy_sorted Sort.strLe_total Sort.strLe_trans _)]
  simp only [has_iff, decide_eq_true_eq]
  constructor
  · rintro ⟨h1, h2, h3⟩; exact ⟨⟨h1, h2⟩, fun e' h => h3 e' h.1 h.2⟩
  · rintro ⟨⟨h1, h2⟩, h3⟩; exact ⟨h1, h2, fun e' h h' => h3 e' ⟨h, h'⟩⟩

theorem exec_none (p : Provider) (n : Str) :
    (p.executables.find? fun f => decide (basename f = n)) = none ↔ ∀ e, ¬ Has p e n := by
  rw [List.find?_eq_none]
  simp only [has_iff, decide_eq_true_eq, not_and]

/-! ## C97 -/

/-- **C97, part 1.** Which program of the namespace a name stands for: that of the first provider which has one, and of these
the one whose path comes first. -/
theorem C97_first (job : Provider) (ps : List Provider) (n e : Str) (hn : n ≠ []) :
    (configured job ps).lookup n = some e ↔
      ∃ pre p post, ps = pre ++ p :: post ∧ p.namespace = job.namespace ∧ Has p e n ∧
        (∀ e', Has p e' n → Sort.strLe e e' = true) ∧ ∀ q ∈ pre, q.namespace = job.namespace → ∀ e', ¬ Has q e' n := by
  rw [lookup_configured job ps n hn]
  induction ps with
  | nil => simp
  | cons p ps ih =>
    rw [List.findSome?_cons]
    by_cases hp : job.namespace = p.namespace
    · rw [if_pos hp]
      cases hf : p.executables.find? fun f => decide (basename f = n) with
      | some e0 =>
        dsimp only
        have h0 := (exec_find p n e0).1 hf
        constructor
        · intro h
          cases h
          exact ⟨[], p, ps, rfl, hp.symm, h0.1, h0.2, by simp⟩
        · rintro ⟨pre, q, post, he, h1, h2, h3, h4⟩
          cases pre with
          | nil =>
            cases he
            rw [← hf]
            exact (exec_find _ _ _).2 ⟨h2, h3⟩
          | cons x pre =>
            cases he
            exact absurd h0.1 (h4 _ List.mem_cons_self hp.symm e0)
      | none =>
        dsimp only
        rw [ih]
        have h0 := (exec_none p n).1 hf
        constructor
        · rintro ⟨pre, q, post, rfl, h1, h2, h3, h4⟩
          refine ⟨p :: pre, q, post, rfl, h1, h2, h3, fun x hx hxn => ?_⟩
          rcases List.mem_cons.1 hx with rfl | hx
          · exact h0
          · exact h4 x hx hxn
        · rintro ⟨pre, q, post, he, h1, h2, h3, h4⟩
          cases pre with
          | nil => cases he; exact absurd h2 (h0 e)
          | cons x pre => cases he; exact ⟨pre, q, post, rfl, h1, h2, h3, fun y hy => h4 y (List.mem_cons_of_mem _ hy)⟩
    · rw [if_neg hp]
      dsimp only
      rw [ih]
      constructor
      · rintro ⟨pre, q, post, rfl, h1, h2, h3, h4⟩
        refine ⟨p :: pre, q, post, rfl, h1, h2, h3, fun x hx hxn => ?_⟩
        rcases List.mem_cons.1 hx with rfl | hx
        · exact absurd hxn.symm hp
        · exact h4 x hx hxn
      · rintro ⟨pre, q, post, he, h1, h2, h3, h4⟩
        cases pre with
        | nil => cases he; exact absurd h1.symm hp
        | cons x pre => cases he; exact ⟨pre, q, post, rfl, h1, h2, h3, fun y hy => h4 y (List.mem_cons_of_mem _ hy)⟩

/-- **C97, part 2.** Every name of a program of the namespace stands for one, and no other name does. -/
theorem C97_every (job : Provider) (ps : List Provider) (n : Str) :
    (configured job ps).lookup n = none ↔ n = [] ∨ ∀ p ∈ ps, p.namespace = job.namespace → ∀ e, ¬ Has p e n := by
  by_cases hn : n = []
  · subst hn
    simp [configured_empty]
  · rw [lookup_configured job ps n hn, List.findSome?_eq_none_iff]
    simp only [hn, false_or]
    constructor
    · intro h p hp hns
      have := h p hp
      rw [if_pos hns.symm] at this
      exact (exec_none p n).1 this
    · intro h p hp
      split
      · rename_i hns
        exact (exec_none p n).2 (h p hp hns.symm)
      · rfl

/-- **C97, part 2, for namespaces.** Providers that were given the same namespace, or whose names are the same before the
colon, share their programs. -/
theorem C97_shared (job p : Provider) (ps : List Provider) (hp : p ∈ ps) (n e : Str) (hn : n ≠ []) (h : Has p e n) (s : Str)
    (hj : job.dedicated = some s ∨ job.dedicated = none ∧ ∃ r, job.name = s ++ r ∧ ':' ∉ s ∧ (r = [] ∨ ∃ r', r = ':' :: r'))
    (hs : p.dedicated = some s ∨ p.dedicated = none ∧ ∃ r, p.name = s ++ r ∧ ':' ∉ s ∧ (r = [] ∨ ∃ r', r = ':' :: r')) :
    (configured job ps).lookup n ≠ none := by
  have key : ∀ q : Provider,
      (q.dedicated = some s ∨ q.dedicated = none ∧ ∃ r, q.name = s ++ r ∧ ':' ∉ s ∧ (r = [] ∨ ∃ r', r = ':' :: r')) →
      q.namespace = s := by
    intro q hq
    unfold Provider.namespace
    rcases hq with hq | ⟨hq, r, hr, hc, h⟩
    · rw [hq]
    · rw [hq, hr]
      dsimp only
      rw [List.takeWhile_append_of_pos (fun c hcs => by simp; rintro rfl; exact hc hcs)]
      rcases h with rfl | ⟨r', rfl⟩ <;> simp
  rw [Ne, C97_every, not_or]
  exact ⟨hn, fun hno => hno p hp (by rw [key p hs, key job hj]) e h⟩

/-- The variable that tells where to search, for jobs of all users. -/
theorem C97_path (base : Ctrl.Env) (hb : (base.map (·.1)).Nodup) (j : Ctrl.Job) (cfg : Ctrl.Env) (nestDir data : Str) :
    pathOf base j cfg nestDir data = some (nestDir ++ ':' :: (base.lookup "PATH".toList).getD []) := by
  have he : (Ctrl.execEnv base j cfg nestDir data).lookup "PATH".toList =
      some (nestDir ++ ':' :: (base.lookup "PATH".toList).getD []) := by
    rw [Ctrl.C55_environment]
    rfl
  unfold pathOf
  cases j.user with
  | none => exact he
  | some u =>
    dsimp only
    rcases Ctrl.lookup_diffEnv base j cfg nestDir data hb "PATH".toList with ⟨-, hs, -, -⟩ | ⟨-, h⟩
    · exact absurd hs (by unfold Ctrl.SnapVar; decide)
    · rw [h, if_neg fun h => absurd h.2 (by decide), if_neg fun h => absurd h.2 (by decide), if_neg fun h => absurd h.2 (by decide), he, Option.filter_some]
      rw [if_pos]
      rw [Bool.or_eq_true]
      left
      simp only [Bool.not_eq_true', decide_eq_false_iff_not]
      intro hh
      generalize base.lookup "PATH".toList = o at hh
      cases o with
      | none => cases hh
      | some v =>
        have := congrArg List.length (Option.some.inj hh)
        simp at this
        omega

theorem search_skip (w : World) (inside : Bool) (nestDir : Str) (nest : Nest) (n : Str)
    (h : ∀ e, inside = true → nest.lookup n = some e → w.exe (join nestDir e) = false) (ds : List Str) :
    search w inside nestDir nest ds n = Plain w n (ds.filter fun d => !decide (d = nestDir)) := by
  induction ds with
  | nil => rfl
  | cons d ds ih =>
    rw [search, entry]
    by_cases hd : d = nestDir
    · rw [if_pos hd, List.filter_cons_of_neg (by simp [hd])]
      cases inside with
      | false => exact ih
      | true =>
        cases hl : nest.lookup n with
        | none => exact ih
        | some e =>
          simp only [if_true, Option.map_some, h e rfl hl, Bool.false_eq_true, if_false]
          exact ih
    · rw [if_neg hd, List.filter_cons_of_pos (by simp [hd])]
      dsimp only
      rw [ih, Plain, Plain, List.map_cons, List.find?_cons]
      cases w.exe (join (join w.cwd d) n) <;> rfl

/-- **C97, part 3.** What is run when a command names a program: the one of the namespace that the name stands for, if it can
be run, and else what is found along the path that was there before. -/
theorem C97_decision (w : World) (base : Ctrl.Env) (hb : (base.map (·.1)).Nodup) (j : Ctrl.Job) (cfg : Ctrl.Env)
    (nestDir data path : Str) (hc : ':' ∉ nestDir) (hp : base.lookup "PATH".toList = some path)
    (hfresh : nestDir ∉ Text.splitOn ':' path) (hu : mayEnter w.self j.user = true) (job : Provider) (ps : List Provider) (n : Str) :
    finds w base j cfg nestDir data job ps n =
      ((((configured job ps).lookup n).map (join nestDir)).filter w.exe).or (Plain w n (Text.splitOn ':' path)) := by
  unfold finds
  rw [C97_path base hb, hu, hp, dirs, Option.getD_some, Option.getD_some, Text.split_append hc]
  have hfil : (nestDir :: Text.splitOn ':' path).filter (fun d => !decide (d = nestDir)) = Text.splitOn ':' path := by
    rw [List.filter_cons_of_neg (by simp), List.filter_eq_self]
    intro d hd
    simp only [Bool.not_eq_true', decide_eq_false_iff_not]
    rintro rfl
    exact hfresh hd
  cases hl : (configured job ps).lookup n with
  | none =>
    rw [search_skip _ _ _ _ _ (fun e _ he => by rw [hl] at he; cases he), hfil]
    rfl
  | some e =>
    by_cases he : w.exe (join nestDir e) = true
    · rw [search, entry, if_pos rfl, hl]
      simp [he, Option.filter]
    · simp only [Bool.not_eq_true] at he
      rw [search_skip _ _ _ _ _ (fun e' _ he' => by rw [hl] at he'; cases he'; exact he), hfil]
      simp [he, Option.filter]

/-- **C97, part 4.** A command finds the program of its own provider. Partial: no other program of the namespace may have that
name, and the user of the job has to be the present one or root. -/
theorem C97_own_partial (w : World) (base : Ctrl.Env) (hb : (base.map (·.1)).Nodup) (j : Ctrl.Job) (cfg : Ctrl.Env)
    (nestDir data path : Str) (hc : ':' ∉ nestDir) (hp : base.lookup "PATH".toList = some path)
    (hfresh : nestDir ∉ Text.splitOn ':' path) (hu : mayEnter w.self j.user = true) (job : Provider) (ps : List Provider) (n e : Str)
    (hn : n ≠ []) (hjob : job ∈ ps) (hh : Has job e n) (ha : e.head? = some '/') (hx : w.exe e = true)
    (huniq : ∀ q ∈ ps, q.namespace = job.namespace → ∀ e', Has q e' n → e' = e) :
    finds w base j cfg nestDir data job ps n = some e := by
  rw [C97_decision w base hb j cfg nestDir data path hc hp hfresh hu]
  have hl : (configured job ps).lookup n = some e := by
    cases hl : (configured job ps).lookup n with
    | none =>
      rcases (C97_every job ps n).1 hl with h | h
      · exact absurd h hn
      · exact absurd hh (h job hjob rfl e)
    | some e' =>
      obtain ⟨pre, q, post, rfl, h1, h2, -⟩ := (C97_first job ps n e' hn).1 hl
      rw [huniq q (by simp) h1 e' h2]
  have hj : join nestDir e = e := by rw [join, if_pos ha]
  rw [hl, Option.map_some, hj, Option.filter_some, if_pos hx]
  rfl

/-- **C97, part 5.** Names that no program of the namespace has mean what they meant before, whatever programs other providers
have. -/
theorem C97_system (w : World) (base : Ctrl.Env) (hb : (base.map (·.1)).Nodup) (j : Ctrl.Job) (cfg : Ctrl.Env)
    (nestDir data path : Str) (hc : ':' ∉ nestDir) (hp : base.lookup "PATH".toList = some path)
    (hfresh : nestDir ∉ Text.splitOn ':' path) (job : Provider) (ps : List Provider) (n : Str)
    (h : ∀ q ∈ ps, q.namespace = job.namespace → ∀ e, ¬ Has q e n) :
    finds w base j cfg nestDir data job ps n = Plain w n (Text.splitOn ':' path) := by
  by_cases hu : mayEnter w.self j.user = true
  · rw [C97_decision w base hb j cfg nestDir data path hc hp hfresh hu, (C97_every job ps n).2 (.inr h)]
    rfl
  · simp only [Bool.not_eq_true] at hu
    unfold finds
    rw [C97_path base hb, hu, hp, dirs, Option.getD_some, Option.getD_some, Text.split_append hc,
      search_skip w false nestDir _ n (fun _ h => by cases h), List.filter_cons_of_neg (by simp), List.filter_eq_self.2]
    intro d hd
    simp only [Bool.not_eq_true', decide_eq_false_iff_not]
    rintro rfl
    exact hfresh hd

/-- **C97, part 6.** So every program that is run is one of the namespace or was found before. -/
theorem C97_only (w : World) (base : Ctrl.Env) (hb : (base.map (·.1)).Nodup) (j : Ctrl.Job) (cfg : Ctrl.Env)
    (nestDir data path : Str) (hc : ':' ∉ nestDir) (hp : base.lookup "PATH".toList = some path)
    (hfresh : nestDir ∉ Text.splitOn ':' path) (hu : mayEnter w.self j.user = true) (job : Provider) (ps : List Provider) (n p : Str)
    (h : finds w base j cfg nestDir data job ps n = some p) :
    w.exe p = true ∧ ((∃ q ∈ ps, q.namespace = job.namespace ∧ ∃ e, Has q e n ∧ p = join nestDir e) ∨
      Plain w n (Text.splitOn ':' path) = some p) := by
  rw [C97_decision w base hb j cfg nestDir data path hc hp hfresh hu] at h
  have hplain : ∀ ds, Plain w n ds = some p → w.exe p = true := fun ds h => List.find?_some h
  cases hl : (configured job ps).lookup n with
  | none =>
    rw [hl] at h
    exact ⟨hplain _ h, .inr h⟩
  | some e =>
    rw [hl, Option.map_some, Option.filter_some] at h
    by_cases hx : w.exe (join nestDir e) = true
    · rw [if_pos hx] at h
      cases h
      have hn : n ≠ [] := by
        rintro rfl
        rw [configured_empty] at hl
        cases hl
      obtain ⟨pre, q, post, rfl, h1, h2, -⟩ := (C97_first job ps n e hn).1 hl
      exact ⟨hx, .inl ⟨q, by simp, h1, e, h2, rfl⟩⟩
    · rw [if_neg hx] at h
      exact ⟨hplain _ h, .inr h⟩

/-- **C97, part 7.** Users who may not look into the directory of links find only what was there before. -/
theorem C97_others (w : World) (base : Ctrl.Env) (hb : (base.map (·.1)).Nodup) (j : Ctrl.Job) (cfg : Ctrl.Env)
    (nestDir data path : Str) (hc : ':' ∉ nestDir) (hp : base.lookup "PATH".toList = some path)
    (hfresh : nestDir ∉ Text.splitOn ':' path) (u : Str) (hj : j.user = some u) (h1 : u ≠ w.self) (h2 : u ≠ "root".toList)
    (job : Provider) (ps : List Provider) (n : Str) :
    finds w base j cfg nestDir data job ps n = Plain w n (Text.splitOn ':' path) := by
  have hu : mayEnter w.self j.user = false := by rw [hj, mayEnter, decide_eq_false h1, decide_eq_false h2]; rfl
  unfold finds
  rw [C97_path base hb, hu, hp, dirs, Option.getD_some, Option.getD_some, Text.split_append hc,
    search_skip w false nestDir _ n (fun _ h => by cases h), List.filter_cons_of_neg (by simp), List.filter_eq_self.2]
  intro d hd
  simp only [Bool.not_eq_true', decide_eq_false_iff_not]
  rintro rfl
  exact hfresh hd

/-! ## Examples -/

/-- A provider with two scripts and a file of data. -/
def exA : Provider := ⟨"2013.org.x:audio".toList, none,
  [⟨"/p/audio/bin/record".toList, .script⟩, ⟨"/p/audio/bin/play".toList, .script⟩, ⟨"/p/audio/data/mix".toList, .data⟩]⟩

/-- Another one of the same namespace. -/
def exB : Provider := ⟨"2013.org.x:video".toList, none,
  [⟨"/p/video/bin/play".toList, .script⟩, ⟨"/p/video/build/bin/mix".toList, .binary⟩]⟩

/-- One of another namespace. -/
def exC : Provider := ⟨"2014.com.y:disk".toList, none, [⟨"/p/disk/bin/dd".toList, .script⟩]⟩

def exBase : Ctrl.Env := [("HOME".toList, "/home/me".toList), ("PATH".toList, "/usr/bin:/bin".toList)]
def exWorld : World := ⟨fun p => decide (p ≠ "/usr/bin/dd".toList), "/tmp/cwd-1".toList, "me".toList⟩
def exJob (u : Option String) : Ctrl.Job := { plugin := "shell".toList, user := u.map (·.toList) }
def exNest : Str := "/tmp/nest-1".toList

example : finds exWorld exBase (exJob none) [] exNest "/s".toList exA [exC, exA, exB] "record".toList =
    some "/p/audio/bin/record".toList := by decide +kernel
example : finds exWorld exBase (exJob (some "root")) [] exNest "/s".toList exA [exC, exA, exB] "mix".toList =
    some "/p/video/build/bin/mix".toList := by decide +kernel
example : finds exWorld exBase (exJob none) [] exNest "/s".toList exA [exC, exA, exB] "dd".toList =
    some "/bin/dd".toList := by decide +kernel
example : Has exA "/p/audio/bin/record".toList "record".toList ∧ (configured exA [exC, exA, exB]).lookup "play".toList =
    some "/p/audio/bin/play".toList :=
  ⟨⟨⟨⟨_, .script⟩, List.mem_cons_self, .inl rfl, rfl⟩, by decide, .inr ⟨"/p/audio/bin".toList, by decide⟩⟩, by decide +kernel⟩

/-! ## Where it fails -/

/-- What the property says: a command finds the programs of the provider of its job. -/
def FindsOwn (w : World) (base : Ctrl.Env) (j : Ctrl.Job) (nestDir : Str) (ps : List Provider) : Prop :=
  ∀ job ∈ ps, ∀ e n, Has job e n → w.exe e = true → finds w base j [] nestDir "/s".toList job ps n = some e

/-- Another provider of the same namespace hides it. -/
theorem C97_own_violated : ¬ FindsOwn exWorld exBase (exJob none) exNest [exA, exB] := by
  intro h
  have := h exB (by simp) "/p/video/bin/play".toList "play".toList
    ⟨⟨⟨_, .script⟩, List.mem_cons_self, .inl rfl, rfl⟩, by decide, .inr ⟨"/p/video/bin".toList, by decide⟩⟩ (by decide)
  have hf : finds exWorld exBase (exJob none) [] exNest "/s".toList exB [exA, exB] "play".toList =
    some "/p/audio/bin/play".toList := by decide +kernel
  rw [hf] at this
  exact absurd this (by decide)

/-- A job of a user other than root finds none, as only the present user may look into the directory. -/
theorem C97_user_violated : ¬ FindsOwn exWorld exBase (exJob (some "guest")) exNest [exA] := by
  intro h
  have := h exA (by simp) "/p/audio/bin/record".toList "record".toList
    ⟨⟨⟨_, .script⟩, List.mem_cons_self, .inl rfl, rfl⟩, by decide, .inr ⟨"/p/audio/bin".toList, by decide⟩⟩ (by decide)
  have hf : finds exWorld exBase (exJob (some "guest")) [] exNest "/s".toList exA [exA] "record".toList =
    some "/usr/bin/record".toList := by decide +kernel
  rw [hf] at this
  exact absurd this (by decide)

/-- Nor does anybody if the directory for temporary files has a colon in its name. -/
theorem C97_colon_violated : ¬ FindsOwn exWorld exBase (exJob none) "/tmp/a:b/nest-1".toList [exA] := by
  intro h
  have := h exA (by simp) "/p/audio/bin/record".toList "record".toList
    ⟨⟨⟨_, .script⟩, List.mem_cons_self, .inl rfl, rfl⟩, by decide, .inr ⟨"/p/audio/bin".toList, by decide⟩⟩ (by decide)
  have hf : finds exWorld exBase (exJob none) [] "/tmp/a:b/nest-1".toList "/s".toList exA [exA] "record".toList =
    some "/tmp/a/record".toList := by decide +kernel
  rw [hf] at this
  exact absurd this (by decide)

/-- Without a variable `PATH` programs are searched for in the current directory only, instead of in those of the system. -/
theorem C97_unset_violated (w : World) (j : Ctrl.Job) (job : Provider) (ps : List Provider) (n : Str)
    (h : ∀ q ∈ ps, q.namespace = job.namespace → ∀ e, ¬ Has q e n) :
    finds w [] j [] exNest "/s".toList job ps n = Plain w n [[]] := by
  unfold finds
  rw [C97_path [] List.nodup_nil, dirs, Option.getD_some,
    search_skip _ _ _ _ _ fun e _ he => by rw [(C97_every job ps n).2 (.inr h)] at he; cases he]
  rfl

end Verif.Tools
