import Verif.Model.I18n
import Verif.Model.Definition
import Verif.Lemmas.Path
import Verif.Props.Locate
import Mathlib.Data.List.Forall2

/-!
# C122: Translations are built where the provider looks for them
-/

namespace Verif.I18n

open Verif.Path (Str join ext HasExt)
open Verif.Locate (Goes Leads Name)

/-! ## Specification -/

/-- The programs that are run. -/
def runs (l : List Event) : List (List Str × Option Str) :=
  l.filterMap fun | .run a d => some (a, d) | _ => none

/-- The lines that are printed. -/
def lines (l : List Event) : List Str :=
  l.filterMap fun | .say x => some x | _ => none

/-- The file with the translations to a language. -/
def For (item lang : Str) : Prop := item = lang ++ ".po".toList ∧ ∃ c ∈ lang, c ≠ '.'

/-- The command to merge the translations in a file with the template; the program is run in `po`. -/
def Merges (c l : List Str) (domain item : Str) (x : List Str × Option Str) : Prop :=
  (∃ d, x.2 = some d ∧ Leads c d (l ++ ["po".toList])) ∧
  ∀ lang, For item lang → x.1 = ["intltool-update".toList, "--gettext-package=".toList ++ domain, "--dist".toList, lang]

/-- The command to compile a file; the program is run in the current directory. -/
def Builds (c l : List Str) (domain item : Str) (x : List Str × Option Str) : Prop :=
  x.2 = none ∧
  ∀ lang, For item lang → ∃ src dst, x.1 = ["msgfmt".toList, src, "-o".toList, dst] ∧ Leads c src (l ++ ["po".toList, item]) ∧
    Leads c dst (l ++ ["build".toList, "mo".toList, lang, "LC_MESSAGES".toList, domain ++ ".mo".toList])

/-- Files with texts of the user interface that are found below the data directory. -/
def Ui (w : World) (f : Str) : Prop := (∃ e, HasExt f e ∧ e.map Char.toLower = ".qml".toList) ∧ w.isFile f = true

/-- All files below the data directory. -/
def below (w : World) : List Str :=
  match w.dataDir with
  | some (a :: d) => (w.walk (a :: d)).flatMap fun x => x.2.map (join x.1)
  | _ => []

/-- The commands to make the template; the programs are run in `po`. -/
def Templates (w : World) (c l : List Str) (domain : Str) (xs : List (List Str × Option Str)) : Prop :=
  ∃ d, Leads c d (l ++ ["po".toList]) ∧ ∃ more,
    xs = (["intltool-update".toList, "--gettext-package=".toList ++ domain, "--pot".toList], some d) :: more ∧
    ∃ files, List.Sublist files (below w) ∧ (∀ f ∈ below w, Ui w f ↔ f ∈ files) ∧
      (files = [] → more = []) ∧
      (files ≠ [] → ∃ args, more = [(["xgettext".toList, "-o".toList, domain ++ ".pot".toList, "--qt".toList, "--c++".toList,
          "--join-existing".toList, "--keyword=tr".toList, "--keyword=tr:1,2".toList, "--from-code=UTF-8".toList] ++ args, some d)] ∧
        List.Forall₂ (fun f a => ∀ e, Leads c f e → Leads (l ++ ["po".toList]) a e) files args)

/-! ## Lemmas -/

theorem leads_slash {c l : List Str} {a n : Str} (ha : a ≠ []) (h : Leads c a l) (hn : Name n) :
    Leads c (a ++ '/' :: n) (l ++ [n]) := by
  have hh : (a ++ '/' :: n).head? = a.head? := by
    cases a with
    | nil => exact absurd rfl ha
    | cons => rfl
  have key : ∀ d, Goes d a l → Goes d (a ++ '/' :: n) (l ++ [n]) := by
    intro d hg
    rw [Locate.goes_iff] at hg ⊢
    rw [Locate.splitOn_sep, Locate.collapse_append, ← hg, Text.split_no_sep hn.2.1, Locate.collapse_down _ _ (by simpa using hn)]
  refine ⟨fun h1 => key _ (h.1 (hh ▸ h1)), fun h1 => key _ (h.2 (hh ▸ h1))⟩

theorem leads_join {c l : List Str} {a n : Str} (h : Leads c a l) (hn : Name n) : Leads c (join a n) (l ++ [n]) := by
  have hne : n.head? ≠ some '/' := by
    intro h1
    cases n with
    | nil => cases h1
    | cons x t =>
      injection h1 with h1
      exact hn.2.1 (by simp [h1])
  have one : ∀ d, Goes d n (d ++ [n]) := by
    intro d
    rw [Locate.goes_iff, Text.split_no_sep hn.2.1, Locate.collapse_down _ _ (by simpa using hn)]
  unfold join
  rw [if_neg hne]
  by_cases ha : a = []
  · subst ha
    rw [if_pos (Or.inl rfl)]
    have := Locate.goes_iff.1 (h.2 (by simp))
    have hl : l = c := by simpa [Text.splitOn, Locate.collapse] using this
    subst hl
    exact ⟨fun h1 => absurd h1 hne, fun _ => one _⟩
  · by_cases hs : a.getLast? = some '/'
    · rw [if_pos (Or.inr hs)]
      obtain ⟨b, rfl⟩ := List.getLast?_eq_some_iff.1 hs
      have hh : (b ++ ['/'] ++ n).head? = (b ++ ['/']).head? := by
        cases b <;> rfl
      have key : ∀ d, Goes d (b ++ ['/']) l → Goes d (b ++ ['/'] ++ n) (l ++ [n]) := by
        intro d hg
        rw [Locate.goes_iff] at hg ⊢
        rw [Locate.splitOn_sep, Locate.collapse_append] at hg
        have h2 : Text.splitOn '/' ([] : Str) = [[]] := rfl
        rw [h2] at hg
        have h3 : ∀ d : List Str, Locate.collapse d [[]] = d := by intro d; simp [Locate.collapse]
        rw [h3] at hg
        rw [List.append_assoc, List.singleton_append, Locate.splitOn_sep, Locate.collapse_append, ← hg, Text.split_no_sep hn.2.1,
          Locate.collapse_down _ _ (by simpa using hn)]
      exact ⟨fun h1 => key _ (h.1 (hh ▸ h1)), fun h1 => key _ (h.2 (hh ▸ h1))⟩
    · rw [if_neg (by rintro (h1 | h1); exact ha h1; exact hs h1)]
      exact leads_slash ha h hn

theorem leads_total (c : List Str) (p : Str) : ∃ e, Leads c p e := by
  by_cases h : p.head? = some '/'
  · exact ⟨_, fun _ => Locate.goes_iff.2 rfl, fun h1 => absurd h h1⟩
  · exact ⟨_, fun h1 => absurd h1 h, fun _ => Locate.goes_iff.2 rfl⟩

theorem dot_leads (c : List Str) : Leads c ".".toList c :=
  ⟨fun h => absurd h (by decide), fun _ => .dot (Or.inl rfl) .here⟩

theorem rel_leads {w : World} {c b e : List Str} {p s : Str} (h0 : w.cwd.head? = some '/') (hc : Goes [] w.cwd c)
    (hs : Leads c s b) (hp : Leads c p e) (hne : p ≠ []) : Leads b (rel w p s) e := by
  obtain ⟨r, hr, -, h, -⟩ := Locate.C111_relpath w.cwd p s c b e h0 hc hs hp hne
  unfold rel
  rw [hr]
  exact h

theorem rel_ne {w : World} {c b e : List Str} {p s : Str} (h0 : w.cwd.head? = some '/') (hc : Goes [] w.cwd c)
    (hs : Leads c s b) (hp : Leads c p e) (hne : p ≠ []) : rel w p s ≠ [] := by
  intro h
  have hl := rel_leads h0 hc hs hp hne
  rw [h] at hl
  have he : e = b := by simpa [Text.splitOn, Locate.collapse] using Locate.goes_iff.1 (hl.2 (by simp))
  subst he
  unfold rel Locate.relpath at h
  rw [if_neg hne, Locate.parts_leads h0 hc hs, Locate.parts_leads h0 hc hp] at h
  have := Locate.common_prefix e []
  simp only [List.append_nil] at this
  simp [this] at h

theorem join_ne {a n : Str} (hn : n ≠ []) : join a n ≠ [] := by
  unfold join
  split
  · exact hn
  · split
    · simp [hn]
    · simp

theorem lang_stem {item lang : Str} (h : For item lang) (hi : '/' ∉ item) : stem item = lang := by
  obtain ⟨rfl, x, hx, hd⟩ := h
  have : ext (lang ++ ".po".toList) = ".po".toList := Path.ext_of_hasExt
    ⟨[], lang, "po".toList, by simp, Or.inl rfl, fun hm => hi (List.mem_append_left _ hm), rfl, by decide, by decide, x, hx, hd⟩
  unfold stem
  rw [this]
  simp

theorem lang_name {item lang : Str} (h : For item lang) (hi : '/' ∉ item) : Name lang := by
  obtain ⟨rfl, x, hx, hd⟩ := h
  refine ⟨fun h0 => by simp [h0] at hx, fun hm => hi (List.mem_append_left _ hm), ?_, ?_⟩ <;> rintro rfl <;>
    simp at hx <;> exact hd hx

theorem runs_append (a b : List Event) : runs (a ++ b) = runs a ++ runs b := List.filterMap_append

theorem runs_cmd (w : World) (argv : List Str) (d : Option Str) : runs (cmd w argv d false) = [(argv, d)] := rfl

theorem forall_flat {α : Type} {R : α → List Str × Option Str → Prop} {l : List α} {f : α → List Event}
    {g : α → List Str × Option Str} (hg : ∀ x ∈ l, runs (f x) = [g x]) (h : ∀ x ∈ l, R x (g x)) : List.Forall₂ R l (runs (l.flatMap f)) := by
  induction l with
  | nil => exact .nil
  | cons x l ih =>
    rw [List.flatMap_cons, runs_append, hg x List.mem_cons_self]
    exact .cons (h x List.mem_cons_self) (ih (fun y hy => hg y (List.mem_cons_of_mem _ hy)) fun y hy => h y (List.mem_cons_of_mem _ hy))

theorem mo_leads {w : World} {c l : List Str} {lang : Str} (hl : Leads c w.location l) (hn : Name lang) :
    Leads c (moDir w lang) (l ++ ["build".toList, "mo".toList, lang, "LC_MESSAGES".toList]) := by
  have := leads_join (leads_join (leads_join (leads_join hl (n := "build".toList) (by unfold Name; decide)) (n := "mo".toList)
    (by unfold Name; decide)) hn) (n := "LC_MESSAGES".toList) (by unfold Name; decide)
  simpa [moDir] using this

theorem po_leads {w : World} {c l : List Str} (hl : Leads c w.location l) : Leads c (poDir w) (l ++ ["po".toList]) :=
  leads_join hl (by unfold Name; decide)

theorem name_ext {n e : Str} (hn : '/' ∉ n) (he : '/' ∉ e) (hlen : 2 < e.length) : Name (n ++ e) := by
  refine ⟨?_, ?_, ?_, ?_⟩
  · intro h
    rw [(List.append_eq_nil_iff.1 h).2] at hlen
    simp at hlen
  · simp [hn, he]
  all_goals
    intro h
    have := congrArg List.length h
    simp at this
    omega

theorem qml_eq (w : World) (a : Char) (d : Str) (hd : w.dataDir = some (a :: d)) :
    qmlFiles w (a :: d) = ((below w).filter fun f => (ext f).map Char.toLower = ".qml".toList && w.isFile f).map fun f => rel w f (poDir w) := by
  unfold qmlFiles below
  rw [hd]
  simp only
  rw [List.filter_flatMap, List.map_flatMap]

theorem ui_iff (w : World) (f : Str) : Ui w f ↔ ((ext f).map Char.toLower = ".qml".toList && w.isFile f) = true := by
  unfold Ui
  rw [Bool.and_eq_true, decide_eq_true_iff]
  refine and_congr_left fun _ => ⟨?_, fun h => ⟨ext f, Path.hasExt_ext (fun h0 => ?_), h⟩⟩
  · rintro ⟨e, he, h⟩
    rw [Path.ext_of_hasExt he, h]
  · rw [h0] at h
    exact absurd h (by decide)

theorem templates_ok {w : World} {c l : List Str} {domain : Str} (h0 : w.cwd.head? = some '/') (hc : Goes [] w.cwd c)
    (hl : Leads c w.location l) (hw : ∀ d, ∀ x ∈ w.walk d, [] ∉ x.2) : Templates w c l domain (runs (updatePot w domain false)) := by
  refine ⟨poDir w, po_leads hl, ?_⟩
  unfold updatePot
  rw [runs_append, runs_cmd]
  refine ⟨_, rfl, (below w).filter fun f => (ext f).map Char.toLower = ".qml".toList && w.isFile f, List.filter_sublist, ?_, ?_, ?_⟩
  · intro f hf
    rw [ui_iff, List.mem_filter]
    exact ⟨fun h => ⟨hf, h⟩, fun h => h.2⟩
  · intro h
    cases hd : w.dataDir with
    | none => rfl
    | some d =>
      dsimp only
      cases d with
      | nil => rfl
      | cons a d =>
        rw [if_neg (by simp), qml_eq w a d hd, h]
        rfl
  · intro h
    cases hd : w.dataDir with
    | none =>
      exfalso
      apply h
      unfold below
      rw [hd]
      rfl
    | some d =>
      dsimp only
      cases d with
      | nil =>
        exfalso
        apply h
        unfold below
        rw [hd]
        rfl
      | cons a d =>
        rw [if_neg (by simp), qml_eq w a d hd, if_neg (by simpa using h), runs_cmd]
        refine ⟨_, rfl, ?_⟩
        rw [List.forall₂_map_right_iff, List.forall₂_same]
        intro f hf e he
        refine rel_leads h0 hc (po_leads hl) he ?_
        have hb := List.mem_of_mem_filter hf
        unfold below at hb
        rw [hd] at hb
        simp only [List.mem_flatMap, List.mem_map] at hb
        obtain ⟨x, hx, n, hn, rfl⟩ := hb
        exact join_ne fun h => hw _ x hx (h ▸ hn)

/-! ## Properties -/

/-- **C122, the commands.** The template, the translations of all languages and the compiled files are made in this order, as far as wanted,
each by one command that reads and writes the right files. -/
theorem C122_commands (w : World) (o : Options) (domain : Str) (c l : List Str) (h0 : w.cwd.head? = some '/') (hc : Goes [] w.cwd c)
    (hl : Leads c w.location l) (hw : ∀ d, ∀ x ∈ w.walk d, [] ∉ x.2) (hp : ∀ i ∈ w.po, '/' ∉ i) (hd : w.domain = some domain)
    (hs : '/' ∉ domain) (ho : o.dry = false) :
    ∃ ts ms bs, runs (invoked w o).1 = ts ++ ms ++ bs ∧
      (o.dontUpdate = true → ts = []) ∧ (o.dontUpdate = false → Templates w c l domain ts) ∧
      (o.dontMerge = true → ms = []) ∧
      (o.dontMerge = false → List.Forall₂ (Merges c l domain) (w.po.filter fun i => decide (".po".toList <:+ i)) ms) ∧
      (o.dontBuild = true → bs = []) ∧
      (o.dontBuild = false → List.Forall₂ (Builds c l domain) (w.po.filter fun i => decide (".po".toList <:+ i)) bs) := by
  have hitems : (w.po.filter fun i => decide (".po".toList <:+ i)) = items w := by
    unfold items
    apply List.filter_congr
    intro i _
    rw [Bool.eq_iff_iff, decide_eq_true_iff, List.isSuffixOf_iff_suffix]
  rw [hitems]
  have hsub : ∀ i ∈ items w, '/' ∉ i := fun i hi => hp i (List.mem_of_mem_filter hi)
  have hmk : runs (if w.poExists then [] else [.mkdir (poDir w)]) = [] := by
    split <;> rfl
  refine ⟨runs (if o.dontUpdate then [] else updatePot w domain o.dry), runs (if o.dontMerge then [] else mergePo w domain o.dry),
    runs (if o.dontBuild then [] else buildMo w domain o.dry), ?_, ?_, ?_, ?_, ?_, ?_, ?_⟩
  · unfold invoked
    rw [hd]
    simp only [runs_append, hmk, List.nil_append]
  · intro h
    rw [h]
    rfl
  · intro h
    rw [h, ho]
    exact templates_ok h0 hc hl hw
  · intro h
    rw [h]
    rfl
  · intro h
    rw [h, ho]
    refine forall_flat (g := fun item => (["intltool-update".toList, "--gettext-package=".toList ++ domain, "--dist".toList, stem item],
      some (poDir w))) (fun x _ => rfl) fun item hi => ⟨⟨_, rfl, po_leads hl⟩, fun lang hf => ?_⟩
    rw [lang_stem hf (hsub _ hi)]
  · intro h
    rw [h]
    rfl
  · intro h
    rw [h, ho]
    refine forall_flat (g := fun item => (["msgfmt".toList, rel w (poDir w) ".".toList ++ '/' :: stem item ++ ".po".toList, "-o".toList,
      rel w (moDir w (stem item) ++ '/' :: domain ++ ".mo".toList) ".".toList], none)) (fun x _ => rfl)
      fun item hi => ⟨rfl, fun lang hf => ⟨_, _, rfl, ?_, ?_⟩⟩
    · rw [lang_stem hf (hsub _ hi)]
      have hpo := rel_leads h0 hc (dot_leads c) (po_leads hl) (join_ne (by decide))
      have hitem : Name item := by
        rw [hf.1]
        refine name_ext ?_ (by decide) (by decide)
        intro hm
        exact hsub _ hi (by rw [hf.1]; exact List.mem_append_left _ hm)
      have := leads_slash (rel_ne h0 hc (dot_leads c) (po_leads hl) (join_ne (by decide))) hpo hitem
      rw [hf.1] at this ⊢
      simpa using this
    · rw [lang_stem hf (hsub _ hi)]
      have := leads_slash (a := moDir w lang) (join_ne (by decide)) (mo_leads hl (lang_name hf (hsub _ hi)))
        (name_ext (n := domain) (e := ".mo".toList) hs (by decide) (by decide))
      refine rel_leads h0 hc (dot_leads c) ?_ ?_
      · simpa using this
      · simp

/-- **C122, trying.** With `--dry-run` no program is run, and what is printed is what is printed without it. -/
theorem C122_dry (w : World) (o : Options) :
    (o.dry = true → runs (invoked w o).1 = []) ∧ lines (invoked w { o with dry := true }).1 = lines (invoked w { o with dry := false }).1 := by
  have hcat : ∀ a b, lines (a ++ b) = lines a ++ lines b := fun a b => List.filterMap_append
  have flat : ∀ {f g : Str → List Event} (l : List Str), (∀ x, lines (f x) = lines (g x)) → lines (l.flatMap f) = lines (l.flatMap g) := by
    intro f g l h
    induction l with
    | nil => rfl
    | cons x l ih => rw [List.flatMap_cons, List.flatMap_cons, hcat, hcat, h, ih]
  have none' : ∀ {f : Str → List Event} (l : List Str), (∀ x, runs (f x) = []) → runs (l.flatMap f) = [] := by
    intro f l h
    induction l with
    | nil => rfl
    | cons x l ih => rw [List.flatMap_cons, runs_append, h, ih, List.nil_append]
  unfold invoked
  cases w.domain with
  | none => exact ⟨fun _ => rfl, rfl⟩
  | some d =>
    constructor
    · intro h
      have h1 : runs (updatePot w d true) = [] := by
        unfold updatePot
        rw [runs_append]
        cases w.dataDir with
        | none => rfl
        | some a =>
          dsimp only
          split
          · rfl
          · split <;> rfl
      have h2 : runs (mergePo w d true) = [] := none' _ fun x => rfl
      have h3 : runs (buildMo w d true) = [] := none' _ fun x => rfl
      simp only [runs_append, h]
      have p : ∀ (b : Bool) (x : List Event), runs x = [] → runs (if b = true then [] else x) = [] := by
        intro b x hx
        cases b
        · exact hx
        · rfl
      rw [p _ _ h1, p _ _ h2, p _ _ h3]
      cases w.poExists <;> rfl
    · have h1 : lines (updatePot w d true) = lines (updatePot w d false) := by
        unfold updatePot
        rw [hcat, hcat]
        cases w.dataDir with
        | none => rfl
        | some a =>
          dsimp only
          split
          · rfl
          · split <;> rfl
      have h2 : lines (mergePo w d true) = lines (mergePo w d false) := flat _ fun x => rfl
      have h3 : lines (buildMo w d true) = lines (buildMo w d false) := flat _ fun x => rfl
      simp only [hcat]
      congr 1
      · congr 1
        · congr 1
          cases o.dontUpdate
          · exact h1
          · rfl
        · cases o.dontMerge
          · exact h2
          · rfl
      · cases o.dontBuild
        · exact h3
        · rfl

/-- **C122, no domain.** Without a domain nothing is done and the command fails; with one it does not. -/
theorem C122_domain (w : World) (o : Options) :
    (w.domain = none → (invoked w o).2 = 1 ∧ ∀ e ∈ (invoked w o).1, ∃ x, e = .say x) ∧ (w.domain ≠ none → (invoked w o).2 = 0) := by
  unfold invoked
  cases w.domain with
  | none =>
    refine ⟨fun _ => ⟨rfl, ?_⟩, fun h => absurd rfl h⟩
    intro e he
    simp only [List.mem_cons, List.not_mem_nil, or_false] at he
    rcases he with rfl | rfl <;> exact ⟨_, rfl⟩
  | some d => exact ⟨fun h => (nomatch h), fun _ => rfl⟩

theorem split_flat {α : Type} {f : α → List Event} {l : List α} {a b : List Event} {e : Event} (h : l.flatMap f = a ++ e :: b) :
    ∃ x ∈ l, ∃ u v, f x = u ++ e :: v ∧ u <:+ a := by
  induction l generalizing a with
  | nil => simp at h
  | cons x l ih =>
    rw [List.flatMap_cons, List.append_eq_append_iff] at h
    rcases h with ⟨a', ha, h⟩ | ⟨c', hc, h⟩
    · obtain ⟨y, hy, u, v, h1, h2⟩ := ih h
      exact ⟨y, List.mem_cons_of_mem _ hy, u, v, h1, h2.trans (ha ▸ List.suffix_append _ _)⟩
    · cases c' with
      | nil =>
        rw [List.nil_append] at h
        obtain ⟨y, hy, u, v, h1, h2⟩ := ih (a := []) h.symm
        exact ⟨y, List.mem_cons_of_mem _ hy, u, v, h1, h2.trans (List.nil_suffix)⟩
      | cons z c' =>
        injection h with h1 h2
        subst h1
        exact ⟨x, List.mem_cons_self, a, c', hc, List.suffix_refl _⟩

/-- **C122, directories.** When a file is compiled the directory for the result has been made. -/
theorem C122_dirs (w : World) (o : Options) (domain : Str) (c : List Str) (h0 : w.cwd.head? = some '/') (hc : Goes [] w.cwd c)
    (hd : w.domain = some domain) (hs : '/' ∉ domain)
    (a b : List Event) (args : List Str) (dir : Option Str)
    (h : (invoked w o).1 = a ++ .run ("msgfmt".toList :: args) dir :: b) :
    ∃ p src dst, Event.mkdir p ∈ a ∧ args = [src, "-o".toList, dst] ∧ ∀ e, Leads c p e → Leads c dst (e ++ [domain ++ ".mo".toList]) := by
  have key : ∃ u v, buildMo w domain o.dry = u ++ .run ("msgfmt".toList :: args) dir :: v ∧ u <:+ a := by
    unfold invoked at h
    rw [hd] at h
    have nocmd : ∀ (argv : List Str) (d : Option Str) (dry : Bool), argv.head? ≠ some "msgfmt".toList →
        Event.run ("msgfmt".toList :: args) dir ∉ cmd w argv d dry := by
      intro argv d dry hne hm
      cases dry
      · simp only [cmd, call, Bool.false_eq_true, if_false, List.mem_cons, List.not_mem_nil, or_false] at hm
        rcases hm with hm | hm
        · cases hm
        · injection hm with hm
          exact hne (by rw [← hm]; rfl)
      · simp only [cmd, call, if_true, List.mem_cons, List.not_mem_nil, or_false] at hm
        cases hm
    have h1 : Event.run ("msgfmt".toList :: args) dir ∉ updatePot w domain o.dry := by
      unfold updatePot
      rw [List.mem_append]
      rintro (hm | hm)
      · exact nocmd _ _ _ (by simp) hm
      · cases hdd : w.dataDir with
        | none => rw [hdd] at hm; cases hm
        | some d =>
          rw [hdd] at hm
          dsimp only at hm
          split at hm
          · cases hm
          · split at hm
            · cases hm
            · exact nocmd _ _ _ (by simp) hm
    have h2 : Event.run ("msgfmt".toList :: args) dir ∉ mergePo w domain o.dry := by
      unfold mergePo
      rw [List.mem_flatMap]
      rintro ⟨x, -, hm⟩
      rcases List.mem_cons.1 hm with hm | hm
      · cases hm
      · exact nocmd _ _ _ (by simp) hm
    generalize he : Event.run ("msgfmt".toList :: args) dir = ev at *
    have h3 : ev ∉ (if w.poExists then [] else [.mkdir (poDir w)]) ++ (if o.dontUpdate then [] else updatePot w domain o.dry) ++
        (if o.dontMerge then [] else mergePo w domain o.dry) := by
      rw [List.mem_append, List.mem_append]
      rintro ((hm | hm) | hm)
      · split at hm
        · cases hm
        · subst he
          simp at hm
      · split at hm
        · cases hm
        · exact h1 hm
      · split at hm
        · cases hm
        · exact h2 hm
    dsimp only at h
    rw [List.append_eq_append_iff] at h
    rcases h with ⟨a', ha, h⟩ | ⟨c', hc', h⟩
    · split at h
      · simp at h
      · exact ⟨a', b, h, ha ▸ List.suffix_append _ _⟩
    · cases c' with
      | nil =>
        rw [List.nil_append] at h
        split at h
        · cases h
        · exact ⟨[], b, h.symm, List.nil_suffix⟩
      | cons z c' =>
        injection h with e1 e2
        exact absurd (by rw [hc', e1]; simp) h3
  obtain ⟨u, v, hu, hsuf⟩ := key
  obtain ⟨item, hi, u', v', he, hsu⟩ := split_flat hu
  refine ⟨moDir w (stem item), rel w (poDir w) ".".toList ++ '/' :: stem item ++ ".po".toList,
    rel w (moDir w (stem item) ++ '/' :: domain ++ ".mo".toList) ".".toList, ?_, ?_, ?_⟩
  · apply hsuf.subset
    apply hsu.subset
    cases u' with
    | nil => simp at he
    | cons z u' =>
      injection he with e1 e2
      rw [← e1]
      exact List.mem_cons_self
  · have hm : Event.run ("msgfmt".toList :: args) dir ∈
        Event.mkdir (moDir w (stem item)) :: cmd w ["msgfmt".toList, rel w (poDir w) ".".toList ++ '/' :: stem item ++ ".po".toList,
          "-o".toList, rel w (moDir w (stem item) ++ '/' :: domain ++ ".mo".toList) ".".toList] none o.dry := by
      rw [he]
      simp
    rcases List.mem_cons.1 hm with hm | hm
    · cases hm
    · cases hdry : o.dry
      · rw [hdry] at hm
        simp only [cmd, call, Bool.false_eq_true, if_false, List.mem_cons, List.not_mem_nil, or_false] at hm
        rcases hm with hm | hm
        · cases hm
        · injection hm with hm
          injection hm with _ hm
      · rw [hdry] at hm
        simp only [cmd, call, if_true, List.mem_cons, List.not_mem_nil, or_false] at hm
        cases hm
  · intro e hle
    have := leads_slash (a := moDir w (stem item)) (join_ne (by decide)) hle
      (name_ext (n := domain) (e := ".mo".toList) hs (by decide) (by decide))
    refine rel_leads h0 hc (dot_leads c) ?_ ?_
    · simpa using this
    · simp

/-- **C122, looking.** If the definition gives no `locale_dir` and there is no directory `locale` then `gettext` looks for the translations
of the provider where they have been written, provided the directory was there when the provider was loaded. -/
theorem C122_found_partial (isDir : Str → Bool) (st : Config.St) (location : Str) (c l : List Str) (hl : Leads c location l)
    (h1 : (Definition.localeV isDir).get st = .unset) (h2 : (Definition.locationV isDir).get st = .str location)
    (h3 : isDir (join location "locale".toList) = false) (h4 : isDir (join (join location "build".toList) "mo".toList) = true) :
    ∃ d, Definition.effective isDir st (Definition.localeV isDir) [["locale".toList], ["build".toList, "mo".toList]] = some d ∧
      ∀ lang domain, Name lang → '/' ∉ domain → Leads c (join (join (join d lang) "LC_MESSAGES".toList) (domain ++ ".mo".toList))
        (l ++ ["build".toList, "mo".toList, lang, "LC_MESSAGES".toList, domain ++ ".mo".toList]) := by
  refine ⟨join (join location "build".toList) "mo".toList, ?_, ?_⟩
  · unfold Definition.effective
    rw [h1]
    simp only [List.findSome?_cons, Definition.existing, Definition.implicit, h2, List.foldl_cons, List.foldl_nil, Option.filter, h3, h4]
    simp
  · intro lang domain hn hs
    have := leads_join (mo_leads (w := ⟨[], location, none, true, [], none, fun _ => [], fun _ => true, fun _ => 0⟩) hl hn)
      (name_ext (n := domain) (e := ".mo".toList) hs (by decide) (by decide))
    simpa [moDir] using this

/-- **C122 is violated**: where there is a directory `locale` the translations that are built are not looked for. -/
theorem C122_shadowed_violated : ∃ (isDir : Str → Bool) (st : Config.St) (location : Str),
    (Definition.localeV isDir).get st = .unset ∧ (Definition.locationV isDir).get st = .str location ∧
    isDir (join (join location "build".toList) "mo".toList) = true ∧
    Definition.effective isDir st (Definition.localeV isDir) [["locale".toList], ["build".toList, "mo".toList]] = some "/p/locale".toList :=
  ⟨fun _ => true, { Config.init with vars := [((Definition.locationV fun _ => true).key, .str "/p".toList)] }, "/p".toList,
    by decide, by decide, by decide, by decide⟩

/-- A provider in `/p` with three files in `po` and a file for the user interface; the command is given in `/p/data`. -/
def provider : World where
  cwd := "/p/data".toList
  location := "/p".toList
  domain := some "d".toList
  poExists := true
  po := ["pl.po".toList, "POTFILES.in".toList, "de.po".toList]
  dataDir := some "/p/data".toList
  walk := fun d => if d = "/p/data".toList then [("/p/data".toList, ["a.QML".toList, "b.png".toList])] else []
  isFile := fun _ => true
  status := fun _ => 1

/-- The commands of the example. -/
example : runs (invoked provider ⟨false, false, false, false⟩).1 =
    [(["intltool-update".toList, "--gettext-package=d".toList, "--pot".toList], some "/p/po".toList),
     (["xgettext".toList, "-o".toList, "d.pot".toList, "--qt".toList, "--c++".toList, "--join-existing".toList, "--keyword=tr".toList,
       "--keyword=tr:1,2".toList, "--from-code=UTF-8".toList, "../data/a.QML".toList], some "/p/po".toList),
     (["intltool-update".toList, "--gettext-package=d".toList, "--dist".toList, "pl".toList], some "/p/po".toList),
     (["intltool-update".toList, "--gettext-package=d".toList, "--dist".toList, "de".toList], some "/p/po".toList),
     (["msgfmt".toList, "../po/pl.po".toList, "-o".toList, "../build/mo/pl/LC_MESSAGES/d.mo".toList], none),
     (["msgfmt".toList, "../po/de.po".toList, "-o".toList, "../build/mo/de/LC_MESSAGES/d.mo".toList], none)] := by
  decide +kernel

/-- The hypotheses of `C122_commands` and `C122_dirs` are met by the example. -/
example : provider.cwd.head? = some '/' ∧ Goes [] provider.cwd ["p".toList, "data".toList] ∧
    Leads ["p".toList, "data".toList] provider.location ["p".toList] ∧ (∀ d, ∀ x ∈ provider.walk d, [] ∉ x.2) ∧
    (∀ i ∈ provider.po, '/' ∉ i) ∧ provider.domain = some "d".toList ∧ For "pl.po".toList "pl".toList := by
  refine ⟨by decide, Locate.goes_iff.2 (by decide), ⟨fun _ => Locate.goes_iff.2 (by decide), fun h => absurd (by decide) h⟩, ?_, ?_, rfl,
    by decide, 'p', by decide, by decide⟩
  · intro d x hx
    simp only [provider] at hx
    split at hx
    · simp at hx
      subst hx
      decide
    · cases hx
  · unfold provider
    decide

/-- What is printed in the example for one file, also with `--dry-run`. -/
example : lines (invoked { provider with po := ["pl.po".toList] } ⟨true, true, false, false⟩).1 =
    ["( cd ../po && intltool-update --gettext-package=d --dist pl )".toList,
     "msgfmt ../po/pl.po -o ../build/mo/pl/LC_MESSAGES/d.mo".toList] := by decide +kernel

/-- **C122 is violated**: `--dry-run` makes directories. -/
theorem C122_dry_violated : ∃ w o, o.dry = true ∧ Event.mkdir "/p/build/mo/pl/LC_MESSAGES".toList ∈ (invoked w o).1 :=
  ⟨provider, ⟨true, false, false, false⟩, rfl, by decide +kernel⟩

/-- **C122 is violated**: the command succeeds although every program fails. -/
theorem C122_status_violated : ∃ w o, runs (invoked w o).1 ≠ [] ∧ (∀ x ∈ runs (invoked w o).1, w.status x.1 ≠ 0) ∧ (invoked w o).2 = 0 :=
  ⟨provider, ⟨false, false, false, false⟩, by decide +kernel, by decide +kernel, rfl⟩

/-- **C122 is violated**: for a file `.po` the program is told to read `.po.po`. -/
theorem C122_hidden_violated : ∃ w o, w.po = [".po".toList] ∧
    runs (invoked w o).1 = [(["msgfmt".toList, "../po/.po.po".toList, "-o".toList, "../build/mo/.po/LC_MESSAGES/d.mo".toList], none)] :=
  ⟨{ provider with po := [".po".toList] }, ⟨false, true, true, false⟩, rfl, by decide +kernel⟩

end Verif.I18n
