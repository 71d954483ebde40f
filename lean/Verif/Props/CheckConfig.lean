import Verif.Model.CheckConfig
import Verif.Props.Sections
import Verif.Props.Config
import Verif.Lemmas.Sort

/-! # What `plainbox check-config` tells (C139) -/

namespace Verif.CheckConfig

open Verif.Restart (Str)
open Verif.Config (Val Var Problem World Verdict Valid Distinct refused)
open Verif.Sections (Decl Dict Says inFiles behind sectionsOf)

/-! ## Any class of configurations -/

theorem rest_problems {c : Decl} {d : IniText.Data} {whole : Sections.St → Verdict} {st : Sections.St}
    (h : (Sections.readRest c d whole st).2 = false) :
    ∃ s, (Sections.readRest c d whole st).1 = s.withProblems
        (st.base.problems ++ if whole s = .refuse then [.whole] else []) ∧ whole s ≠ .raise ∧
      s.base.problems = st.base.problems ∧ s.base.vars = st.base.vars := by
  unfold Sections.readRest at h ⊢
  dsimp only at h ⊢
  have hb1 := (Sections.readSections_base d c.secs st).1
  by_cases hs : (Sections.readSections d c.secs st).2 = true
  · rw [if_pos hs] at h; rw [hs] at h; cases h
  rw [if_neg hs] at h ⊢
  have hb2 := (Sections.readParams_base d c.params (Sections.readSections d c.secs st).1).1
  by_cases hp : (Sections.readParams d c.params (Sections.readSections d c.secs st).1).2 = true
  · rw [if_pos hp] at h; rw [hp] at h; cases h
  rw [if_neg hp] at h ⊢
  generalize Sections.readParams d c.params (Sections.readSections d c.secs st).1 = r at h hb2 ⊢
  have hb : r.1.base = st.base := hb2.trans hb1
  refine ⟨r.1, ?_, ?_, by rw [hb], by rw [hb]⟩
  · cases hw : whole r.1 with
    | ok => simp [Sections.St.withProblems, ← hb]
    | refuse => simp [Sections.St.withProblems, ← hb]
    | raise => rw [hw] at h; cases h
  · intro hw
    rw [hw] at h
    cases h

/-- What the files say together. -/
def merged (names : List Str) (disk : Str → Option Str) : IniText.Data :=
  (IniText.readFiles (names.filterMap disk) IniText.noData).1

/-- What is known when the command returns. -/
theorem check_some {t : Texts} {w : World} {c : Decl} {whole : Sections.St → Verdict} {names : List Str}
    {disk : Str → Option Str} {lines : List Str} {code : Nat}
    (h : check t w c whole names disk = some (lines, code)) :
    ∃ s : Sections.St, ∃ ps : List Problem, whole s ≠ .raise ∧
      (Config.readVars w (Sections.get (merged names disk)) c.vars Config.init).2 = false ∧
      s.base.vars = (Config.readVars w (Sections.get (merged names disk)) c.vars Config.init).1.vars ∧
      s.base.problems = (Config.readVars w (Sections.get (merged names disk)) c.vars Config.init).1.problems ∧
      ps = c.vars.filterMap (refused w (Sections.get (merged names disk))) ++
        (if whole s = .refuse then [.whole] else []) ∧
      lines = "Configuration files:".toList :: fileLines names (names.filter fun n => (disk n).isSome) ++
        "Variables:".toList :: variableLines t (s.withProblems ps).base c.vars ++
        "Sections:".toList :: sectionLines (s.withProblems ps) c.secs ++ problemLines t ps ∧
      code = if ps.length = 0 then 0 else 1 := by
  unfold check at h
  dsimp only at h
  split at h
  · cases h
  rename_i hr
  have e : Sections.read w c whole (names.filterMap disk) Sections.init =
      Sections.readCommit w c (merged names disk) whole Sections.init := by
    unfold Sections.read merged at *
    cases hf : IniText.readFiles (names.filterMap disk) IniText.noData with
    | mk d x =>
      rw [hf] at hr
      cases x with
      | none => rfl
      | some x => exact absurd rfl hr
  rw [e] at hr h
  have hok := Bool.eq_false_iff.2 hr
  obtain ⟨h1, _⟩ := Sections.readCommit_ok hok
  have h1' : (Config.readVars w (Sections.get (merged names disk)) c.vars Config.init).2 = false := h1
  have e2 : Sections.readCommit w c (merged names disk) whole Sections.init =
      Sections.readRest c (merged names disk) whole { Sections.init with
        base := (Config.readVars w (Sections.get (merged names disk)) c.vars Config.init).1 } := by
    unfold Sections.readCommit
    dsimp only
    rw [if_neg]
    · rfl
    · rw [h1]; simp
  rw [e2] at h hok
  obtain ⟨s, g1, g2, g3, g4⟩ := rest_problems hok
  have hp := Config.readVars_problems_exact w (Sections.get (merged names disk)) c.vars Config.init h1'
  have hp0 : (Config.init.problems : List Problem) = [] := rfl
  rw [hp0, List.nil_append] at hp
  have g3' : s.base.problems = (Config.readVars w (Sections.get (merged names disk)) c.vars Config.init).1.problems := g3
  rw [g1] at h
  simp only [Option.some.injEq, Prod.mk.injEq] at h
  obtain ⟨rfl, rfl⟩ := h
  refine ⟨s, _, g2, h1', g4, g3', rfl, ?_, ?_⟩
  · rw [← hp]; rfl
  · rw [← hp]; rfl


theorem lastP (t : Texts) (a : List Str) (ps : List Problem) :
    (ps = [] → (a ++ problemLines t ps).getLast? = some "No validation problems found".toList) ∧
    (ps ≠ [] → "Problems:".toList ∈ a ++ problemLines t ps) := by
  constructor
  · rintro rfl
    simp [problemLines]
  · intro h
    cases ps with
    | nil => exact absurd rfl h
    | cons x xs => exact List.mem_append.2 (.inr (List.mem_cons_self))

/-- **C139, the exit code**: when the command returns, it exits with 0 exactly if every variable has a valid value in the
files (its default if they do not mention it) and the configuration that was read is accepted as a whole, and with 1
otherwise; with 0 the last line says that there are no problems, with 1 there is a list of problems.
Missing: that it returns (`C139_syntax`, `C139_raises_violated`). -/
theorem C139_code_partial {t : Texts} {w : World} {c : Decl} {whole : Sections.St → Verdict}
    {names : List Str} {disk : Str → Option Str} {lines : List Str} {code : Nat}
    (h : check t w c whole names disk = some (lines, code)) :
    ∃ s : Sections.St,
      s.base = (Config.readVars w (Sections.get (merged names disk)) c.vars Config.init).1 ∧
      (code = 0 ↔ (∀ x ∈ c.vars, ∀ v, Config.readVar w (Sections.get (merged names disk)) x = some v → Valid x v) ∧
        whole s = .ok) ∧
      (code = 0 → lines.getLast? = some "No validation problems found".toList) ∧
      (code ≠ 0 → code = 1 ∧ "Problems:".toList ∈ lines) := by
  obtain ⟨s, ps, h1, h2, h3, h4, h5, h6, h7⟩ := check_some h
  have hb : s.base = (Config.readVars w (Sections.get (merged names disk)) c.vars Config.init).1 := by
    cases hs : s.base; rw [hs] at h3 h4; cases hr : (Config.readVars w (Sections.get (merged names disk)) c.vars Config.init).1
    rw [hr] at h3 h4; simp_all
  have hcode : code = 0 ↔ ps = [] := by
    rw [h7]
    cases ps <;> simp
  have hps : ps = [] ↔
      (∀ x ∈ c.vars, ∀ v, Config.readVar w (Sections.get (merged names disk)) x = some v → Valid x v) ∧
        whole s = .ok := by
    rw [h5, List.append_eq_nil_iff, List.filterMap_eq_nil_iff]
    refine and_congr ?_ ?_
    · refine forall_congr' fun x => forall_congr' fun _ => ?_
      unfold refused
      cases Config.readVar w (Sections.get (merged names disk)) x with
      | none => simp
      | some v =>
        by_cases hv : Valid x v <;> simp [hv]
    · cases hw : whole s with
      | ok => simp
      | refuse => simp
      | raise => exact absurd hw h1
  refine ⟨s, hb, hcode.trans hps, fun h0 => ?_, fun h0 => ⟨?_, ?_⟩⟩
  · rw [h6]; exact (lastP t _ ps).1 (hcode.1 h0)
  · rw [h7] at h0 ⊢; split at h0 <;> simp_all
  · rw [h6]; exact (lastP t _ ps).2 fun e => h0 (hcode.2 e)

theorem infix_flatMap {α β : Type} {f : α → List β} {x : α} {l : List α} (h : x ∈ l) : f x <:+: l.flatMap f := by
  obtain ⟨a, b, rfl⟩ := List.append_of_mem h
  exact ⟨a.flatMap f, b.flatMap f, by simp [List.append_assoc]⟩

/-- **C139, the variables**: each variable is shown below its section. It is the value of the files if that is valid, and
the default otherwise, when a problem that names that value is listed. -/
theorem C139_variable {t : Texts} {w : World} {c : Decl} {whole : Sections.St → Verdict} {names : List Str}
    (hd : Distinct c.vars) (hn : c.vars.Nodup)
    {disk : Str → Option Str} {lines : List Str} {code : Nat}
    (h : check t w c whole names disk = some (lines, code)) (x : Var) (hx : x ∈ c.vars) :
    ∃ v, Config.readVar w (Sections.get (merged names disk)) x = some v ∧
      ((Valid x v ∧ ["   [".toList ++ x.sec ++ "]".toList, "   ".toList ++ x.name ++ "=".toList ++ t.val v] <:+: lines) ∨
       (¬ Valid x v ∧
        ["   [".toList ++ x.sec ++ "]".toList, "   ".toList ++ x.name ++ "=".toList ++ t.val x.default] <:+: lines ∧
        " - variable ".toList ++ t.about (.value x.key v) ++ ": ".toList ++ t.message (.value x.key v) ∈ lines ∧
        code = 1)) := by
  obtain ⟨s, ps, h1, h2, h3, h4, h5, h6, h7⟩ := check_some h
  obtain ⟨v, hv, hcase⟩ := Config.C39_read w (Sections.get (merged names disk)) c.vars hd hn Config.init h2 x hx
  have hget : x.get (s.withProblems ps).base =
      x.get (Config.readVars w (Sections.get (merged names disk)) c.vars Config.init).1 := by
    unfold Var.get
    rw [show (s.withProblems ps).base.vars = s.base.vars from rfl, h3]
  have hin : ["   [".toList ++ x.sec ++ "]".toList, "   ".toList ++ x.name ++ "=".toList ++
      t.val (x.get (s.withProblems ps).base)] <:+: lines := by
    obtain ⟨a, b, e⟩ := infix_flatMap (f := fun x : Var => ["   [".toList ++ x.sec ++ "]".toList,
      "   ".toList ++ x.name ++ "=".toList ++ t.val (x.get (s.withProblems ps).base)]) hx
    rw [h6]
    unfold variableLines
    rw [← e]
    refine ⟨"Configuration files:".toList :: fileLines names (names.filter fun n => (disk n).isSome) ++
      "Variables:".toList :: a, b ++ ("Sections:".toList :: sectionLines (s.withProblems ps) c.secs ++
        problemLines t ps), ?_⟩
    simp only [List.cons_append, List.append_assoc, List.nil_append]
  refine ⟨v, hv, ?_⟩
  rcases hcase with ⟨g1, g2⟩ | ⟨g1, g2, -⟩
  · rw [hget, g2] at hin
    exact .inl ⟨g1, hin⟩
  · rw [hget, g2] at hin
    have hmem : Problem.value x.key v ∈ ps := by
      rw [h5]
      refine List.mem_append.2 (.inl (List.mem_filterMap.2 ⟨x, hx, ?_⟩))
      unfold refused
      rw [hv]
      simp [g1]
    refine .inr ⟨g1, hin, ?_, ?_⟩
    · rw [h6]
      refine List.mem_append.2 (.inr ?_)
      cases ps with
      | nil => cases hmem
      | cons p ps =>
        exact List.mem_cons_of_mem _ (List.mem_map.2 ⟨_, hmem, rfl⟩)
    · rw [h7, if_neg]
      intro h0
      rw [List.length_eq_zero_iff.1 h0] at hmem
      cases hmem

theorem fileLines_length (names read : List Str) : (fileLines names read).length = names.length := by
  unfold fileLines
  exact List.length_map _

/-- **C139, the files**: the output begins with the files, each in its place, and tells for each whether it is there. -/
theorem C139_files {t : Texts} {w : World} {c : Decl} {whole : Sections.St → Verdict} {names : List Str}
    {disk : Str → Option Str} {lines : List Str} {code : Nat}
    (h : check t w c whole names disk = some (lines, code)) :
    lines.head? = some "Configuration files:".toList ∧
    (∀ i (hi : i < names.length), lines[i + 1]? = some (" - ".toList ++ names[i] ++
      match disk names[i] with
      | none => " (not present)".toList
      | some _ => [])) ∧
    lines[names.length + 1]? = some "Variables:".toList := by
  obtain ⟨s, ps, -, -, -, -, -, h6, -⟩ := check_some h
  have hl : (fileLines names (names.filter fun n => (disk n).isSome)).length = names.length :=
    fileLines_length _ _
  rw [h6]
  refine ⟨rfl, fun i hi => ?_, ?_⟩
  · simp only [List.cons_append, List.append_assoc, List.getElem?_cons_succ]
    rw [List.getElem?_append_left (by omega)]
    unfold fileLines
    rw [List.getElem?_map, List.getElem?_eq_getElem hi]
    have : names[i] ∈ names := List.getElem_mem hi
    cases hdi : disk names[i] with
    | none =>
      have hm : names[i] ∉ names.filter fun n => (disk n).isSome := by
        intro h
        have := (List.mem_filter.1 h).2
        rw [hdi] at this
        cases this
      rw [Option.map_some, if_neg hm]
      rfl
    | some v =>
      have hm : names[i] ∈ names.filter fun n => (disk n).isSome := List.mem_filter.2 ⟨this, by rw [hdi]; rfl⟩
      rw [Option.map_some, if_pos hm, List.append_nil]
  · simp only [List.cons_append, List.append_assoc, List.getElem?_cons_succ]
    rw [List.getElem?_append_right (by omega), hl, Nat.sub_self]
    rfl

/-! ## `PlainBoxConfig` -/

theorem put_keys {V : Type} (k : IniText.Key) (v : V) (d : List (IniText.Key × V)) (h : (d.map (·.1)).Nodup) :
    ((IniText.put k v d).map (·.1)).Nodup ∧ ∀ j, j ∈ (IniText.put k v d).map (·.1) → j = k ∨ j ∈ d.map (·.1) := by
  induction d with
  | nil => simp [IniText.put]
  | cons e d ih =>
    obtain ⟨j, u⟩ := e
    simp only [List.map_cons, List.nodup_cons] at h
    obtain ⟨i1, i2⟩ := ih h.2
    unfold IniText.put
    by_cases hj : j = k
    · rw [if_pos hj]
      exact ⟨by simpa using h, fun i hi => .inr hi⟩
    · rw [if_neg hj]
      simp only [List.map_cons, List.nodup_cons, List.mem_cons]
      refine ⟨⟨fun hm => ?_, i1⟩, fun i hi => ?_⟩
      · rcases i2 j hm with e | e
        · exact hj e
        · exact h.1 e
      · rcases hi with e | e
        · exact .inr (.inl e)
        · exact (i2 i e).imp_right .inr

theorem append_keys {k : IniText.Key} {v : Str} {st st' : IniText.St} (h : IniText.append k v st = .ok st')
    (hn : (st.opts.map (·.1)).Nodup) : (st'.opts.map (·.1)).Nodup := by
  unfold IniText.append at h
  split at h
  · cases h; exact (put_keys _ _ _ hn).1
  · cases h

theorem step_keys {l : Str} {st st' : IniText.St} (h : IniText.step l st = .ok st')
    (hn : (st.opts.map (·.1)).Nodup) : (st'.opts.map (·.1)).Nodup := by
  unfold IniText.step at h
  split at h
  · cases h; exact hn
  split at h
  · unfold IniText.blank at h
    split at h
    · split at h
      · cases h; exact hn
      split at h
      · cases h; exact hn
      · exact append_keys h hn
    · cases h; exact hn
  split at h
  · exact append_keys h hn
  · unfold IniText.newLine at h
    split at h
    · unfold IniText.openSection at h
      split at h
      · split at h
        · cases h
        · cases h; exact hn
      split at h
      · cases h; exact hn
      · cases h; exact hn
    · split at h
      · cases h
      · unfold IniText.addOption at h
        split at h
        · cases h
        · cases h; exact (put_keys _ _ _ hn).1

theorem loop_keys (ls : List Str) : ∀ st : IniText.St, (st.opts.map (·.1)).Nodup →
    ((IniText.loop ls st).1.opts.map (·.1)).Nodup := by
  induction ls with
  | nil => intro st h; exact h
  | cons l ls ih =>
    intro st h
    unfold IniText.loop
    cases hs : IniText.step l st with
    | ok st' => exact ih st' (step_keys hs h)
    | error e => exact h

theorem readFiles_keys (ts : List Str) : ∀ d : IniText.Data, (d.opts.map (·.1)).Nodup →
    ((IniText.readFiles ts d).1.opts.map (·.1)).Nodup := by
  induction ts with
  | nil => intro d h; exact h
  | cons t ts ih =>
    intro d h
    have h1 : ((IniText.read d (IniText.universal t)).1.opts.map (·.1)).Nodup := by
      unfold IniText.read
      dsimp only
      rw [List.map_map]
      exact loop_keys _ (IniText.start d) (by unfold IniText.start; dsimp only; rw [List.map_map]; exact h)
    unfold IniText.readFiles
    cases hr : IniText.read d (IniText.universal t) with
    | mk a b =>
      rw [hr] at h1
      cases b with
      | none => exact ih a h1
      | some e => exact h1

theorem itemList_keys {d : IniText.Data} {s : Str} : ∀ {os : List Str} {l : Dict}, Sections.itemList d s os = some l →
    l.map (·.1) = os := by
  intro os
  induction os with
  | nil => intro l h; simp only [Sections.itemList, Option.some.injEq] at h; subst h; rfl
  | cons a os ih =>
    intro l h
    simp only [Sections.itemList, Option.bind_eq_some_iff, Option.map_eq_some_iff] at h
    obtain ⟨v, -, l', hl, rfl⟩ := h
    simp [ih hl]

theorem items_keys {d : IniText.Data} (hn : (d.opts.map (·.1)).Nodup) {s : Str} {l : Dict}
    (h : Sections.items d s = .found l) : (l.map (·.1)).Nodup := by
  unfold Sections.items at h
  split at h
  · cases hl : Sections.itemList d s (Sections.optionNames d s) with
    | none => rw [hl] at h; cases h
    | some l' =>
      rw [hl] at h
      cases h
      rw [itemList_keys hl]
      unfold Sections.optionNames
      have h1 := IniText.nodup_of hn Config.DEFAULT
      have h2 := IniText.nodup_of hn s
      rw [List.nodup_append]
      refine ⟨h1, h2.sublist List.filter_sublist, ?_⟩
      rintro a ha b hb rfl
      simp only [List.mem_filter, decide_eq_true_eq] at hb
      exact hb.2 ha
  · cases h

theorem lookup_mem {V : Type} : ∀ {l : List (Str × V)}, (l.map (·.1)).Nodup → ∀ {k : Str} {v : V},
    (k, v) ∈ l ↔ l.lookup k = some v := by
  intro l
  induction l with
  | nil => intro _ k v; simp
  | cons e l ih =>
    intro hn k v
    obtain ⟨j, u⟩ := e
    simp only [List.map_cons, List.nodup_cons] at hn
    by_cases hk : k = j
    · subst hk
      have : ((k, u) :: l).lookup k = some u := by simp [List.lookup]
      rw [this]
      simp only [List.mem_cons, Prod.mk.injEq, true_and, Option.some.injEq]
      constructor
      · rintro (e | e)
        · exact e.symm
        · exact absurd (List.mem_map.2 ⟨_, e, rfl⟩) hn.1
      · intro e; exact .inl e.symm
    · have : ((j, u) :: l).lookup k = l.lookup k := by
        have : (k == j) = false := by simpa using hk
        simp [List.lookup, this]
      rw [this, ← ih hn.2]
      simp [hk]

/-- What a list of pairs is printed as. -/
def printed (l : Dict) : List Str := l.map fun e => "   ".toList ++ e.1 ++ "=".toList ++ e.2

/-- The names of options in the order of their characters, each once. -/
def Ascending (l : Dict) : Prop := l.Pairwise fun a b => Sort.strLe a.1 b.1 = true ∧ a.1 ≠ b.1

/-- The files that are there, one after the other. -/
def there (names : List Str) (disk : Str → Option Str) : List Str := names.filterMap disk

theorem sorted_spec (l : Dict) (hn : (l.map (·.1)).Nodup) :
    Ascending (sortedItems l) ∧ ∀ e, e ∈ sortedItems l ↔ e ∈ l := by
  have hp := Sort.sortBy_perm (le := fun a b : Str × Str => Sort.strLe a.1 b.1) l
  refine ⟨?_, fun e => hp.mem_iff⟩
  have h1 := Sort.sortBy_sorted (le := fun a b : Str × Str => Sort.strLe a.1 b.1)
    (fun a b => Sort.strLe_total a.1 b.1) (fun a b c => Sort.strLe_trans a.1 b.1 c.1) l
  have h2 : ((sortedItems l).map (·.1)).Nodup := (hp.map _).nodup_iff.2 hn
  exact h1.and (List.pairwise_map.1 h2)

theorem merged_source {names : List Str} {disk : Str → Option Str}
    (hok : ∀ f ∈ there names disk, (IniText.read IniText.noData (IniText.universal f)).2 = none) :
    (IniText.readFiles (names.filterMap disk) IniText.noData).2 = none ∧
    (fun s o => IniText.find (s, o) (merged names disk).opts) = inFiles (there names disk) ∧
    ∀ s, s ∈ (merged names disk).sections ↔ ∃ f ∈ there names disk, s ∈ sectionsOf (IniText.universal f) := by
  obtain ⟨h1, h2, h3⟩ := IniText.C106_files (there names disk) IniText.noData (by simp [IniText.noData]) hok
  refine ⟨h1, ?_, fun s => ?_⟩
  · funext s o
    refine (h2 _).trans ?_
    simp [inFiles, IniText.noData, IniText.find]
  · refine (h3 s).trans ?_
    simp [IniText.noData, sectionsOf]

theorem plainbox_read (t : Texts) (w : World) {names : List Str} {disk : Str → Option Str}
    (hok : (IniText.readFiles (names.filterMap disk) IniText.noData).2 = none) :
    check t w plainbox noCheck names disk =
      match Sections.items (merged names disk) "environment".toList with
      | .error => none
      | .missing => some ("Configuration files:".toList :: fileLines names (names.filter fun n => (disk n).isSome) ++
          ["Variables:".toList, "Sections:".toList, "   [environment]".toList, "No validation problems found".toList], 0)
      | .found l => some ("Configuration files:".toList :: fileLines names (names.filter fun n => (disk n).isSome) ++
          ["Variables:".toList, "Sections:".toList, "   [environment]".toList] ++ printed (sortedItems l) ++
          ["No validation problems found".toList], 0) := by
  have e : Sections.read w plainbox noCheck (names.filterMap disk) Sections.init =
      Sections.readCommit w plainbox (merged names disk) noCheck Sections.init := by
    unfold Sections.read merged
    cases hf : IniText.readFiles (names.filterMap disk) IniText.noData with
    | mk d x =>
      rw [hf] at hok
      cases hok
      rfl
  have e' : Sections.readCommit w plainbox (merged names disk) noCheck Sections.init =
      match Sections.items (merged names disk) "environment".toList with
      | .error => (Sections.init, true)
      | .missing => (Sections.init, false)
      | .found l => ({ Sections.init with secs := [("environment".toList, l)] }, false) := by
    simp only [Sections.readCommit, plainbox, Config.readVars, Sections.readRest, Sections.readSections,
      Sections.readParams]
    cases Sections.items (merged names disk) "environment".toList <;> rfl
  unfold check
  dsimp only
  rw [e, e']
  cases Sections.items (merged names disk) "environment".toList with
  | error => rfl
  | missing =>
    simp only [Bool.false_eq_true, if_false]
    simp [plainbox, variableLines, sectionLines, problemLines, Sections.init, Config.init, Sections.St.sec]
  | found l =>
    simp only [Bool.false_eq_true, if_false]
    simp [plainbox, variableLines, sectionLines, problemLines, Sections.init, Config.init, Sections.St.sec, printed,
      List.lookup]

/-- **C139**: the values behind `C139_code_partial` and `C139_variable` are those of the files that are there: the last
file that has the option counts, `DEFAULT` is behind every section, and references are replaced. -/
theorem C139_source {names : List Str} {disk : Str → Option Str}
    (hok : ∀ f ∈ there names disk, (IniText.read IniText.noData (IniText.universal f)).2 = none) (s o : Str) :
    let src := inFiles (there names disk)
    let known := s = Config.DEFAULT ∨ ∃ f ∈ there names disk, s ∈ sectionsOf (IniText.universal f)
    (∀ v, Sections.get (merged names disk) s o = .value (some v) ↔
      known ∧ ∃ raw, behind src s o = some (some raw) ∧ Sections.Means (behind src s) 10 raw v) ∧
    (Sections.get (merged names disk) s o = .missing ↔ ¬ known ∨ behind src s o = none) := by
  obtain ⟨-, h2, h3⟩ := merged_source hok
  obtain ⟨g1, g2, -⟩ := Sections.C107_get (merged names disk) s o
  rw [h2] at g1 g2
  simp only [h3] at g1 g2
  exact ⟨g1, g2⟩

/-- **C139, `PlainBoxConfig`**: if no file is faulty, the command fails with an exception exactly if a file has the section
`environment` and some option there, or in `DEFAULT`, means nothing; otherwise it shows below `[environment]` exactly what
the files that are there say of that section, each option once and in order, finds no problems, and exits with 0. -/
theorem C139_environment (t : Texts) (w : World) {names : List Str} {disk : Str → Option Str}
    (hok : ∀ f ∈ there names disk, (IniText.read IniText.noData (IniText.universal f)).2 = none) :
    (check t w plainbox noCheck names disk = none ↔
      (∃ f ∈ there names disk, "environment".toList ∈ sectionsOf (IniText.universal f)) ∧
      ∃ o, behind (inFiles (there names disk)) "environment".toList o ≠ none ∧
        ∀ v, ¬ Says (inFiles (there names disk)) "environment".toList o v) ∧
    ∀ lines code, check t w plainbox noCheck names disk = some (lines, code) → code = 0 ∧
      ∃ l : Dict, Ascending l ∧
        (∀ o v, (o, v) ∈ l ↔ (∃ f ∈ there names disk, "environment".toList ∈ sectionsOf (IniText.universal f)) ∧
          Says (inFiles (there names disk)) "environment".toList o v) ∧
        lines.drop (names.length + 1) =
          ["Variables:".toList, "Sections:".toList, "   [environment]".toList] ++ printed l ++
          ["No validation problems found".toList] := by
  obtain ⟨h1, h2, h3⟩ := merged_source hok
  have hne : "environment".toList ≠ Config.DEFAULT := by decide
  have hsec : ("environment".toList = Config.DEFAULT ∨ "environment".toList ∈ (merged names disk).sections) ↔
      ∃ f ∈ there names disk, "environment".toList ∈ sectionsOf (IniText.universal f) := by
    rw [← h3]
    exact ⟨fun h => h.resolve_left hne, .inr⟩
  have hlen : ∀ rest : List Str, ("Configuration files:".toList ::
      fileLines names (names.filter fun n => (disk n).isSome) ++ rest).drop (names.length + 1) = rest := by
    intro rest
    rw [List.cons_append, List.drop_succ_cons]
    exact List.drop_left' (fileLines_length _ _)
  have herr := Sections.items_error (d := merged names disk) (n := "environment".toList)
  have hmis := Sections.items_missing (d := merged names disk) (n := "environment".toList)
  have hfound := fun l => Sections.items_found (d := merged names disk) (n := "environment".toList) (l := l)
  have hkeys := fun l => items_keys (d := merged names disk) (s := "environment".toList) (l := l)
    (readFiles_keys _ _ (by simp [IniText.noData]))
  rw [h2] at herr
  rw [h2] at hfound
  rw [hsec] at herr hmis hfound
  rw [plainbox_read t w h1]
  cases hi : Sections.items (merged names disk) "environment".toList with
  | error =>
    exact ⟨⟨fun _ => herr.1 hi, fun _ => rfl⟩, fun _ _ h => by cases h⟩
  | missing =>
    refine ⟨⟨fun h => (by cases h), fun h => absurd h.1 (hmis.1 hi)⟩, ?_⟩
    intro lines code h
    simp only [Option.some.injEq, Prod.mk.injEq] at h
    obtain ⟨rfl, rfl⟩ := h
    refine ⟨rfl, [], List.Pairwise.nil, fun o v => ?_, ?_⟩
    · simp only [List.not_mem_nil, false_iff]
      exact fun h => hmis.1 hi h.1
    · exact hlen _
  | found l =>
    have hnerr : Sections.items (merged names disk) "environment".toList ≠ .error := by rw [hi]; simp
    refine ⟨⟨fun h => (by cases h), fun h => absurd (herr.2 h) hnerr⟩, ?_⟩
    intro lines code h
    simp only [Option.some.injEq, Prod.mk.injEq] at h
    obtain ⟨rfl, rfl⟩ := h
    obtain ⟨g1, g2⟩ := sorted_spec l (hkeys l hi)
    obtain ⟨f1, f2⟩ := hfound l hi
    refine ⟨rfl, sortedItems l, g1, fun o v => ?_, ?_⟩
    · rw [g2, lookup_mem (hkeys l hi), f2]
      exact ⟨fun h => ⟨f1, h⟩, fun h => h.2⟩
    · rw [List.append_assoc, List.append_assoc, hlen, List.append_assoc]

/-- **C139**: with a faulty file there is no report at all, whatever the class. -/
theorem C139_syntax (t : Texts) (w : World) (c : Decl) (whole : Sections.St → Verdict) {names : List Str}
    {disk : Str → Option Str} (f : Str) (hf : f ∈ there names disk)
    (hbad : (IniText.read IniText.noData (IniText.universal f)).2 ≠ none) :
    check t w c whole names disk = none := by
  have hex : ∀ fs : List Str, f ∈ fs → ∃ good g rest e, fs = good ++ g :: rest ∧
      (∀ x ∈ good, (IniText.read IniText.noData (IniText.universal x)).2 = none) ∧
      (IniText.read IniText.noData (IniText.universal g)).2 = some e := by
    intro fs
    induction fs with
    | nil => intro h; cases h
    | cons a fs ih =>
      intro h
      cases ha : (IniText.read IniText.noData (IniText.universal a)).2 with
      | some e => exact ⟨[], a, fs, e, rfl, by simp, ha⟩
      | none =>
        have hin : f ∈ fs := by
          rcases List.mem_cons.1 h with rfl | h
          · exact absurd ha hbad
          · exact h
        obtain ⟨good, g, rest, e, rfl, i2, i3⟩ := ih hin
        exact ⟨a :: good, g, rest, e, rfl, by simpa [ha] using i2, i3⟩
  obtain ⟨good, g, rest, e, h1, h2, h3⟩ := hex _ hf
  have := IniText.C106_faulty good g rest IniText.noData (by simp [IniText.noData]) h2 e h3
  rw [← h1] at this
  have hr := (Sections.C107_syntax w c whole Sections.init).2.2.1 (there names disk) (by rw [this]; simp)
  unfold check
  dsimp only
  rw [show names.filterMap disk = there names disk from rfl, if_pos hr]

/-! ## What does not hold -/

def plainText : Texts := { val := fun _ => [], about := fun _ => [], message := fun _ => [] }
def etc : Str := "/etc/xdg/plainbox.conf".toList
def home : Str := "/home/me/.config/plainbox.conf".toList
def onDisk (a b : Option Str) : Str → Option Str := fun n => if n = etc then a else if n = home then b else none

/-- **C139** does not hold for files that are faulty and for values that mean nothing: the command that is to find such
problems ends with an exception, and shows nothing. -/
theorem C139_raises_violated :
    check plainText Config.someWorld plainbox noCheck [etc, home]
      (onDisk (some "[environment]\nA = 1\nA = 2\n".toList) none) = none ∧
    check plainText Config.someWorld plainbox noCheck [etc, home]
      (onDisk none (some "[environment]\nA = 50%\n".toList)) = none := by decide +kernel

/-- **C139** does not hold for what is misspelt: a section that nothing reads passes without a word, and the exit code
is 0. -/
theorem C139_misspelt_violated :
    check plainText Config.someWorld plainbox noCheck [etc, home] (onDisk (some "[enviroment]\nA = 1\n".toList) none) =
      some (["Configuration files:", " - /etc/xdg/plainbox.conf", " - /home/me/.config/plainbox.conf (not present)",
        "Variables:", "Sections:", "   [environment]", "No validation problems found"].map String.toList, 0) := by
  decide +kernel

/-! ## Examples -/

/-- Two files: the one in the home directory counts, and the output is in order. -/
example (t : Texts) (w : World) :
    check t w plainbox noCheck [etc, home] (onDisk (some "[environment]\nB = 1\nA = %(B)s0%%\n".toList)
      (some "[DEFAULT]\nC = x\n[environment]\nB = 2\n".toList)) =
    some (["Configuration files:", " - /etc/xdg/plainbox.conf", " - /home/me/.config/plainbox.conf", "Variables:",
      "Sections:", "   [environment]", "   A=20%", "   B=2", "   C=x",
      "No validation problems found"].map String.toList, 0) := by
  rw [plainbox_read t w (by decide +kernel)]
  decide +kernel

/-- The hypothesis of `C139_environment` and `C139_source`. -/
example : ∀ f ∈ there [etc, home] (onDisk (some "[environment]\nB = 1\nA = %(B)s0%%\n".toList)
      (some "[DEFAULT]\nC = x\n[environment]\nB = 2\n".toList)),
    (IniText.read IniText.noData (IniText.universal f)).2 = none := by decide +kernel

/-- The hypotheses of `C139_syntax`. -/
example : "[a\n".toList ∈ there [etc, home] (onDisk none (some "[a\n".toList)) ∧
    (IniText.read IniText.noData (IniText.universal "[a\n".toList)).2 ≠ none := by decide +kernel

def vName : Var := Config.mkVar "who".toList "name".toList .str (.str "me".toList) [Config.short]
def vCount : Var := Config.mkVar "who".toList "count".toList .int (.int 1) []
def shownTexts : Texts :=
  { val := fun v => match v with
      | .str s => s
      | .int _ => "5".toList
      | _ => [],
    about := fun _ => "name".toList, message := fun _ => "too long".toList }

/-- The hypotheses of `C139_code_partial`, `C139_variable` and `C139_files`, with a value that is not valid. -/
example : check shownTexts Config.someWorld ⟨[vName, vCount], [], []⟩ noCheck [etc, home]
      (onDisk (some "[who]\nname = somebody\ncount = 5\n".toList) none) =
    some (["Configuration files:", " - /etc/xdg/plainbox.conf", " - /home/me/.config/plainbox.conf (not present)",
      "Variables:", "   [who]", "   name=me", "   [who]", "   count=5", "Sections:", "Problems:",
      " - variable name: too long"].map String.toList, 1) := by decide +kernel

/-- The hypotheses of `C139_variable` on the class. -/
example : Distinct [vName, vCount] ∧ ([vName, vCount].map Var.key).Nodup := by
  refine ⟨?_, by decide +kernel⟩
  intro x hx y hy h
  simp only [List.mem_cons, List.not_mem_nil, or_false] at hx hy
  rcases hx with rfl | rfl <;> rcases hy with rfl | rfl
  · rfl
  · exact absurd h (by decide +kernel)
  · exact absurd h (by decide +kernel)
  · rfl

/-- With values that are valid the exit code is 0. -/
example : (check shownTexts Config.someWorld ⟨[vName, vCount], [], []⟩ noCheck [etc, home]
    (onDisk (some "[who]\nname = you\n".toList) none)).map (·.2) = some 0 := by decide +kernel

end Verif.CheckConfig
