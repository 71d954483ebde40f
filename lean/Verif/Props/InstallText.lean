import Verif.Model.InstallText
import Verif.Props.Install
import Verif.Props.IniText

/-!
# C73, continued: the text of the provider file

`C73_text_partial`: the provider that is loaded from the text of the installed file is the one of
`C73_installed_partial`.
`C73_text_violated`: descriptions that do not survive.
-/

namespace Verif.Install

open Verif.Config Verif.Definition
open Verif.IniText (Named Clean Trim)
open Verif.Text

/-! ## Specification -/

/-- Texts of one line, without white space at the ends. -/
structure OneLine (s : Str) : Prop where
  trim : Trim s
  newline : '\n' ∉ s
  ret : '\r' ∉ s

/-- Texts that survive in the file: lines without white space at their ends, which after the first do not look
like comments, of which the last is not empty; no carriage returns. -/
structure Survivor (s : Str) : Prop where
  clean : Clean s
  ret : '\r' ∉ s

/-- What the author of the provider wrote survives. -/
structure Texts (k : Kwargs) (n pfx : Str) : Prop where
  name : OneLine n
  pfx : '\n' ∉ pfx ∧ '\r' ∉ pfx
  texts : ∀ s, k.namesp = some s ∨ k.version = some s ∨ k.description = some s ∨ k.domain = some s → Survivor s

/-! ## Lemmas -/

theorem survivor_line {s : Str} (h : OneLine s) : Survivor s := by
  refine ⟨⟨?_, ?_, ?_⟩, h.ret⟩
  · rw [split_no_sep h.newline]
    intro l hl
    rw [List.mem_singleton] at hl
    exact hl ▸ h.trim
  · rw [split_no_sep h.newline]
    simp
  · intro e
    exact h.newline (List.mem_of_getLast? e)

/-- What is known of each option: names of options, values that survive; but for the location. -/
def Ok (k : IniText.Key) (v : Str) : Prop :=
  k.1 = SEC ∧ Named k.2 ∧ '\r' ∉ k.2 ∧ (k.2 = "location".toList ∨ Survivor v)

/-- The same, also for the location. -/
def Ok' (k : IniText.Key) (v : Str) : Prop := (Named k.2 ∧ Clean v) ∧ '\r' ∉ k.2 ∧ '\r' ∉ v

theorem put_mem (k : IniText.Key) (v : Str) (l : List (IniText.Key × Str)) (hn : (l.map (·.1)).Nodup) :
    ∀ e ∈ IniText.put k v l, (e ∈ l ∧ e.1 ≠ k) ∨ e = (k, v) := by
  induction l with
  | nil => intro e he; simp only [IniText.put, List.mem_singleton] at he; exact .inr he
  | cons y l ih =>
    obtain ⟨j, w⟩ := y
    rw [List.map_cons, List.nodup_cons] at hn
    intro e he
    simp only [IniText.put] at he
    split at he
    · rename_i hj
      rcases List.mem_cons.1 he with he | he
      · exact .inr (hj ▸ he)
      · refine .inl ⟨by simp [he], fun h => hn.1 ?_⟩
        dsimp only
        rw [hj, ← h]
        exact List.mem_map_of_mem he
    · rename_i hj
      rcases List.mem_cons.1 he with he | he
      · exact .inl ⟨by simp [he], by rw [he]; exact hj⟩
      · exact (ih hn.2 e he).imp_left fun h => ⟨by simp [h.1], h.2⟩

theorem setOpt_made {ok ok' : IniText.Key → Str → Prop} {o v : Str} {d d' : Config.Data} (hd : IniText.Made ok d)
    (hs : SEC ∈ d.sections) (hv : ok' (SEC, o) v) (hok : ∀ e w, e ≠ (SEC, o) → ok e w → ok' e w)
    (h : setOpt o v d = some d') : IniText.Made ok' d' ∧ d'.sections = d.sections := by
  unfold setOpt at h
  split at h
  · cases h
    refine ⟨⟨hd.sections, hd.default, hd.headed, ?_, ?_, ?_⟩, rfl⟩
    · dsimp only
      rw [IniText.find_storeOpt]
      by_cases hm : (SEC, o) ∈ d.opts.map (·.1)
      · rw [IniText.put_keys _ _ _ hm]; exact hd.keys
      · rw [IniText.put_new _ _ _ hm, List.map_append, List.nodup_append]
        refine ⟨hd.keys, by simp, ?_⟩
        intro a ha b hb hab
        simp only [List.map_cons, List.map_nil, List.mem_singleton] at hb
        exact hm (hb ▸ hab ▸ ha)
    · intro e he
      dsimp only at he ⊢
      rw [IniText.find_storeOpt] at he
      rcases put_mem _ _ _ hd.keys e he with he | rfl
      · exact hd.known e he.1
      · exact .inr hs
    · intro e he
      dsimp only at he
      rw [IniText.find_storeOpt] at he
      rcases put_mem _ _ _ hd.keys e he with he | rfl
      · exact hok _ _ he.2 (hd.opts e he.1)
      · exact hv
  · cases h

theorem removeOpt_made {ok ok' : IniText.Key → Str → Prop} {o : Str} {d : Config.Data} (hd : IniText.Made ok d)
    (hok : ∀ e w, e ≠ (SEC, o) → ok e w → ok' e w) : IniText.Made ok' (removeOpt o d) := by
  refine ⟨hd.sections, hd.default, hd.headed, ?_, ?_, ?_⟩
  · exact hd.keys.sublist (List.filter_sublist.map _)
  · intro e he
    exact hd.known e (List.mem_filter.1 he).1
  · intro e he
    have := List.mem_filter.1 he
    exact hok _ _ (of_decide_eq_true this.2) (hd.opts e this.1)

theorem emitDirs_made {ok : IniText.Key → Str → Prop} (fs : FS) (location : Str) :
    ∀ (l : List (Str × Str × Str)) (d d' : Config.Data), IniText.Made ok d → SEC ∈ d.sections →
    (∀ x ∈ l, ok (SEC, x.2.1) x.2.2) → emitDirs fs location l d = some d' →
    IniText.Made ok d' ∧ d'.sections = d.sections := by
  intro l
  induction l with
  | nil => intro d d' hd hs _ h; simp only [emitDirs, Option.some.injEq] at h; exact h ▸ ⟨hd, rfl⟩
  | cons x l ih =>
    obtain ⟨s, k, dst⟩ := x
    intro d d' hd hs hx h
    simp only [emitDirs] at h
    have hx' := fun y hy => hx y (List.mem_cons_of_mem _ hy)
    split at h
    · obtain ⟨d1, h1, h2⟩ := Option.bind_eq_some_iff.1 h
      obtain ⟨m, hm⟩ := setOpt_made hd hs (hx _ List.mem_cons_self) (fun _ _ _ h => h) h1
      obtain ⟨m2, hm2⟩ := ih d1 d' m (hm ▸ hs) hx' h2
      exact ⟨m2, hm2.trans hm⟩
    · exact ih d d' hd hs hx' h

theorem path_line {pfx : Str} (hp : ∃ r, pfx = '/' :: r) (hx : '\n' ∉ pfx ∧ '\r' ∉ pfx)
    (a b : Str) (ha : '\n' ∉ a ∧ '\r' ∉ a) (hb : OneLine b) (hne : b ≠ []) :
    Survivor (pfx ++ (a ++ b)) := by
  obtain ⟨r, rfl⟩ := hp
  refine survivor_line ⟨⟨?_, ?_⟩, ?_, ?_⟩
  · intro c hc
    simp only [List.cons_append, List.head?_cons, Option.some.injEq] at hc
    subst hc; decide
  · intro c hc
    obtain ⟨x, hx⟩ : ∃ x, b.getLast? = some x := by
      cases h : b.getLast? with
      | none => exact absurd (List.getLast?_eq_none_iff.1 h) hne
      | some x => exact ⟨x, rfl⟩
    rw [← List.append_assoc, List.getLast?_append, hx, Option.some_or] at hc
    exact hb.trim.2 c (hx.trans hc)
  · simp only [List.mem_append, not_or]
    exact ⟨hx.1, ha.1, hb.newline⟩
  · simp only [List.mem_append, not_or]
    exact ⟨hx.2, ha.2, hb.ret⟩

/-- A short text that is looked at. -/
theorem line_of (s : String) (h : ((∀ c ∈ s.toList.head?, isSpace c = false) ∧
    (∀ c ∈ s.toList.getLast?, isSpace c = false)) ∧ '\n' ∉ s.toList ∧ '\r' ∉ s.toList) : OneLine s.toList :=
  ⟨⟨fun c hc => h.1.1 c hc, fun c hc => h.1.2 c hc⟩, h.2.1, h.2.2⟩

/-- The names of options. -/
def optionNames : List String := ["relocatable", "location", "name", "namespace", "version", "description",
  "gettext_domain", "units_dir", "jobs_dir", "data_dir", "bin_dir", "locale_dir"]

theorem named_options : ∀ o ∈ optionNames, Named o.toList ∧ '\r' ∉ o.toList := by
  have h : ∀ o ∈ optionNames, (o.toList ≠ [] ∧ (∀ c ∈ o.toList.head?, isSpace c = false ∧ c ≠ '#' ∧ c ≠ ';' ∧
      c ≠ '[') ∧ (∀ c ∈ o.toList.getLast?, isSpace c = false)) ∧ '=' ∉ o.toList ∧ '\n' ∉ o.toList ∧
      '\r' ∉ o.toList := by decide +kernel
  intro o ho
  obtain ⟨⟨h1, h2, h3⟩, h4, h5, h6⟩ := h o ho
  exact ⟨⟨h1, ⟨fun c hc => (h2 c hc).1, fun c hc => h3 c hc⟩, fun c hc => (h2 c hc).2, h4, h5⟩, h6⟩

theorem vars_names (D : Str → Bool) : ∀ x ∈ vars D, ∃ o ∈ optionNames, x.name = o.toList := by
  have : (vars D).map (·.name) = optionNames.map String.toList := rfl
  intro x hx
  have := this ▸ List.mem_map_of_mem (f := fun x : Var => x.name) hx
  obtain ⟨o, ho, e⟩ := List.mem_map.1 this
  exact ⟨o, ho, e.symm⟩

theorem base_made (pr : Printer) (D : Str → Bool) (location : Str) (k : Kwargs) (n pfx : Str) (st : St)
    (hst : ∀ x ∈ vars D, x.sec = SEC ∧ x.get st = orUnset (baseOpt location k x.name)) (hn : k.name = some n)
    (ht : Texts k n pfx) (d : Config.Data)
    (h : toParser pr st (vars D) { sections := [], opts := [] } = some d) : IniText.Made Ok d := by
  refine IniText.toParser_made Ok pr st (vars D) _ d ⟨by simp, by simp, by simp, by simp, by simp, by simp⟩
    ?_ ?_ h
  · intro x hx
    rw [(hst x hx).1]
    exact .inr (by decide +kernel)
  · intro x hx hu
    obtain ⟨h1, h2⟩ := hst x hx
    obtain ⟨o, ho, e⟩ := vars_names D x hx
    refine ⟨h1, ?_, ?_, ?_⟩
    · dsimp only; rw [e]; exact (named_options o ho).1
    · dsimp only; rw [e]; exact (named_options o ho).2
    · dsimp only
      by_cases hl : x.name = "location".toList
      · exact .inl hl
      · right
        rw [h2] at hu ⊢
        unfold baseOpt at hu ⊢
        rw [if_neg hl] at hu ⊢
        have hno : ∀ s, k.name = some s → Survivor s := by
          intro s hs
          rw [hn] at hs
          cases hs
          exact survivor_line ht.name
        have go : ∀ v : Option Str, (∀ s, v = some s → Survivor s) → orUnset v ≠ .unset →
            Survivor (showVal pr (orUnset v)) := by
          intro v hv hu
          cases v with
          | none => exact absurd rfl hu
          | some s => exact hv s rfl
        split at hu
        · rename_i h; rw [if_pos h]; exact go _ hno hu
        rename_i h; rw [if_neg h]
        split at hu
        · rename_i h; rw [if_pos h]; exact go _ (fun s hs => ht.texts s (.inl hs)) hu
        rename_i h; rw [if_neg h]
        split at hu
        · rename_i h; rw [if_pos h]; exact go _ (fun s hs => ht.texts s (.inr (.inl hs))) hu
        rename_i h; rw [if_neg h]
        split at hu
        · rename_i h; rw [if_pos h]; exact go _ (fun s hs => ht.texts s (.inr (.inr (.inl hs)))) hu
        rename_i h; rw [if_neg h]
        split at hu
        · rename_i h; rw [if_pos h]; exact go _ (fun s hs => ht.texts s (.inr (.inr (.inr hs)))) hu
        · exact absurd rfl hu

theorem toParser_sections (pr : Printer) (st : St) : ∀ (xs : List Var) (d d' : Config.Data),
    toParser pr st xs d = some d' → ∀ s ∈ d'.sections, s ∈ d.sections ∨ ∃ x ∈ xs, x.sec = s := by
  intro xs
  induction xs with
  | nil => intro d d' h s hs; simp only [toParser, Option.some.injEq] at h; exact .inl (h ▸ hs)
  | cons x xs ih =>
    intro d d' h s hs
    simp only [toParser] at h
    have h1 : ∀ d1 : Config.Data, (∀ s ∈ d1.sections, s ∈ d.sections ∨ s = x.sec) → s ∈ d1.sections →
        s ∈ d.sections ∨ ∃ y ∈ x :: xs, y.sec = s := by
      intro d1 h h2
      rcases h s h2 with h | h
      · exact .inl h
      · exact .inr ⟨x, List.mem_cons_self, h.symm⟩
    have base : ∀ s ∈ (if x.sec ∈ d.sections ∨ x.sec = DEFAULT then d
        else { d with sections := d.sections ++ [x.sec] }).sections, s ∈ d.sections ∨ s = x.sec := by
      intro s hs
      split at hs
      · exact .inl hs
      · rcases List.mem_append.1 hs with h | h
        · exact .inl h
        · exact .inr (List.mem_singleton.1 h)
    split at h
    · rcases ih _ _ h s hs with h | ⟨y, hy, e⟩
      · exact h1 _ base h
      · exact .inr ⟨y, List.mem_cons_of_mem _ hy, e⟩
    · split at h
      · rcases ih _ _ h s hs with h | ⟨y, hy, e⟩
        · exact h1 _ base h
        · exact .inr ⟨y, List.mem_cons_of_mem _ hy, e⟩
      · cases h

theorem config_made (pr : Printer) (fs : FS) (location : Str) (k : Kwargs) (n : Str) (st : St) (execs : List Str)
    (l : Layout) (pfx : Str)
    (hst : ∀ D, ∀ x ∈ vars D, x.sec = SEC ∧ x.get st = orUnset (baseOpt location k x.name))
    (hp : NoPercent location k) (hn : k.name = some n) (hname : nameOf st = n) (hne : n ≠ [])
    (hpa : ∃ r, pfx = '/' :: r) (ht : Texts k n pfx) (d : Config.Data)
    (h : configObj pr fs st location execs l pfx = some d) : IniText.Made Ok' d ∧ ∀ s ∈ d.sections, '\r' ∉ s := by
  obtain ⟨d0, e0, h0⟩ := base_holds pr (isDir fs) location k st (hst _) hp
  have m0 := base_made pr (isDir fs) location k n pfx st (hst _) hn ht d0 e0
  have sec0 : ∀ s ∈ d0.sections, '\r' ∉ s := by
    intro s hs
    rcases toParser_sections pr st _ _ _ e0 s hs with h | ⟨x, hx, rfl⟩
    · simp at h
    · rw [(hst _ x hx).1]; decide +kernel
  have up : ∀ (e : IniText.Key) (w : Str), e ≠ (SEC, "location".toList) → Ok e w → Ok' e w := by
    rintro ⟨a, b⟩ w hne ⟨h1, h2, h3, h4⟩
    dsimp only at h1 h2 h3 h4
    rcases h4 with h4 | h4
    · exact absurd (by rw [h1, h4]) hne
    · exact ⟨⟨h2, h4.clean⟩, h3, h4.ret⟩
  have ok' : ∀ o ∈ optionNames, ∀ v, Survivor v → Ok' (SEC, o.toList) v := fun o ho v hv =>
    ⟨⟨(named_options o ho).1, hv.clean⟩, (named_options o ho).2, hv.ret⟩
  unfold configObj at h
  rw [e0, hname, Option.bind_some] at h
  cases l with
  | flat =>
    dsimp only at h
    obtain ⟨m, hm⟩ := setOpt_made (ok' := Ok') m0 h0.sec (ok' "location" (by simp [optionNames]) _
      (path_line hpa ht.pfx _ _ (by decide +kernel) ht.name hne)) up h
    exact ⟨m, hm ▸ sec0⟩
  | relocatable =>
    dsimp only at h
    obtain ⟨d1, h1, rfl⟩ := Option.map_eq_some_iff.1 h
    obtain ⟨m, hm⟩ := setOpt_made (ok' := Ok) m0 h0.sec ⟨rfl, (named_options "relocatable" (by
      simp [optionNames])).1, (named_options "relocatable" (by simp [optionNames])).2, .inr
        (survivor_line (line_of "True" (by decide +kernel)))⟩ (fun _ _ _ h => h) h1
    refine ⟨removeOpt_made m up, ?_⟩
    show ∀ s ∈ d1.sections, _
    exact hm ▸ sec0
  | unix =>
    dsimp only at h
    obtain ⟨d1, h1, h2⟩ := Option.bind_eq_some_iff.1 h
    have bin : Survivor (binPath .unix pfx n) := by
      show Survivor (pfx ++ ("/lib/".toList ++ (n ++ "/bin".toList)))
      rw [← List.append_assoc "/lib/".toList]
      refine path_line hpa ht.pfx _ _ ?_ (line_of "/bin" (by decide +kernel)) (by decide +kernel)
      simp only [List.mem_append, not_or]
      exact ⟨⟨by decide +kernel, ht.name.newline⟩, by decide +kernel, ht.name.ret⟩
    have sub : ∀ s : String, OneLine ('/' :: s.toList) → Survivor (subPath .unix pfx n s.toList) := by
      intro s hs
      show Survivor (pfx ++ ("/share/".toList ++ (n ++ '/' :: s.toList)))
      rw [← List.append_assoc "/share/".toList]
      refine path_line hpa ht.pfx _ _ ?_ hs (by simp)
      simp only [List.mem_append, not_or]
      exact ⟨⟨by decide +kernel, ht.name.newline⟩, by decide +kernel, ht.name.ret⟩
    have loc : Survivor (localePath .unix pfx n) := by
      have := path_line hpa ht.pfx [] "/share/locale".toList (by simp) (line_of "/share/locale" (by decide +kernel))
        (by decide +kernel)
      exact this
    obtain ⟨m, hm⟩ := emitDirs_made (ok := Ok') fs location _ _ d1 (removeOpt_made m0 up) h0.sec (by
      intro x hx
      simp only [defMap, List.mem_cons, List.not_mem_nil, or_false] at hx
      rcases hx with rfl | rfl | rfl | rfl | rfl
      · exact ok' "bin_dir" (by simp [optionNames]) _ bin
      · exact ok' "locale_dir" (by simp [optionNames]) _ loc
      · exact ok' "data_dir" (by simp [optionNames]) _ (sub "data" (line_of "/data" (by decide +kernel)))
      · exact ok' "jobs_dir" (by simp [optionNames]) _ (sub "jobs" (line_of "/jobs" (by decide +kernel)))
      · exact ok' "units_dir" (by simp [optionNames]) _ (sub "units" (line_of "/units" (by decide +kernel)))) h1
    have hm' : d1.sections = d0.sections := hm
    split at h2
    · cases h2
      exact ⟨m, hm' ▸ sec0⟩
    · obtain ⟨m2, hm2⟩ := setOpt_made (ok' := Ok') m (hm' ▸ h0.sec) (ok' "bin_dir" (by simp [optionNames]) _ bin)
        (fun _ _ _ h => h) h2
      exact ⟨m2, hm2 ▸ hm' ▸ sec0⟩

/-! ## The property -/

/-- **C73**, partial: the provider that is loaded from the text of the installed provider file is the provider
that `C73_installed_partial` describes, when the texts that were given survive. Full statement: for all texts;
see `C73_text_violated`. -/
theorem C73_text_partial (pr : Printer) (w : World) (env : Env) (fs : FS) (location : Str) (k : Kwargs)
    (n : Str) (st : St) (execs : List Str) (root pfx : Str) (l : Layout)
    (hset : setup fs location k = some st) (fit : Fit fs location k n execs root pfx l)
    (suits : Suits fs location n execs root pfx l) (texts : Texts k n pfx) :
    ∃ fs' p, install pr st location execs root pfx l fs = (fs', none) ∧
      loadText w env (inside root fs') (providerPath l pfx n) = some (.ok p) ∧
      load w env (inside root fs') (providerPath l pfx n) = some (.ok p) ∧
      p.name = n ∧ (∃ v, k.version = some v ∧ p.version = .str v) ∧
      (∃ s, k.description = some s ∧ p.description = .str s) ∧
      (k.domain = none ∧ p.domain = .none ∨ ∃ s, k.domain = some s ∧ p.domain = .str s) ∧
      p.units = (if fs (Path.join location "units".toList) = none then none
        else some (subPath l pfx n "units".toList)) ∧
      p.bin = (if execs = [] then none else some (binPath l pfx n)) := by
  obtain ⟨fs', p, hi, hl, h1, -, h3, h4, h5, hu, -, -, -, hb, -⟩ :=
    C73_installed_partial pr w env fs location k n st execs root pfx l hset fit suits
  refine ⟨fs', p, hi, ?_, hl, h1, h3, h4, h5, hu, hb⟩
  obtain ⟨fs2, d, T, hi2, ⟨_, g, hg⟩, -, hf, -⟩ :=
    install_fs_config pr fs location k n st execs root pfx l hset fit
  rw [hi] at hi2
  cases hi2
  obtain ⟨acc, hst⟩ := setup_spec fs location k st hset
  obtain ⟨hm, hsec⟩ := config_made pr g location k n st execs l pfx hst fit.percent fit.name
    (nameOf_eq fit.name hst) (name_ne acc fit.name) fit.pfxAbs texts d hg
  have hm' : IniText.Made (fun k v => Named k.2 ∧ Clean v) d :=
    ⟨hm.sections, hm.default, hm.headed, hm.keys, hm.known, fun e he => (hm.opts e he).1⟩
  obtain ⟨r1, r2⟩ := IniText.get_read d hm'
  have hun : IniText.universal (IniText.write (IniText.ofConfig d)) = IniText.write (IniText.ofConfig d) := by
    refine IniText.universal_plain (IniText.write_plain hsec ?_)
    intro e he
    obtain ⟨x, hx, rfl⟩ := List.mem_map.1 he
    refine ⟨(hm.opts x hx).2.1, ?_⟩
    intro v hv
    cases hv
    exact (hm.opts x hx).2.2
  have hf' : inside root fs' (providerPath l pfx n) = some (.defn d) := hf
  rw [← hl]
  unfold loadText fileText load
  rw [hf']
  simp only [Option.map_some, Option.some.injEq]
  rw [hun]
  unfold plugInText
  cases hr : IniText.read IniText.noData (IniText.write (IniText.ofConfig d)) with
  | mk a b =>
    rw [hr] at r1 r2
    dsimp only at r1 r2
    subst r1
    dsimp only
    rw [r2]
    rfl

/-! ## Examples and what goes wrong -/

/-- The hypotheses of `C73_text_partial` can be met, in each of the layouts. -/
example (l : Layout) : Fit exFs "/src".toList exK "com.example:test".toList ["/src/bin/tool".toList]
      "/tmp/root".toList "/usr".toList l ∧
    Suits exFs "/src".toList "com.example:test".toList ["/src/bin/tool".toList] "/tmp/root".toList
      "/usr".toList l ∧ (∃ st, setup exFs "/src".toList exK = some st) ∧
    Texts exK "com.example:test".toList "/usr".toList := by
  obtain ⟨h1, h2, st, h3, -⟩ := exFit l
  refine ⟨h1, h2, ⟨st, h3⟩, line_of "com.example:test" (by decide +kernel), by decide +kernel, ?_⟩
  rintro s (h | h | h | h) <;> cases h
  · exact survivor_line (line_of "1.0" (by decide +kernel))
  · exact survivor_line (line_of "A test" (by decide +kernel))

/-- Texts of several lines may survive. -/
example : Texts { exK with description := some "A test\n\nof disks".toList } "com.example:test".toList
    "/usr".toList := by
  refine ⟨line_of "com.example:test" (by decide +kernel), by decide +kernel, ?_⟩
  have h1 : Survivor "1.0".toList := survivor_line (line_of "1.0" (by decide +kernel))
  have h2 : Survivor "A test\n\nof disks".toList := by
    refine ⟨⟨?_, by decide +kernel, by decide +kernel⟩, by decide +kernel⟩
    have hs : splitOn '\n' "A test\n\nof disks".toList = ["A test".toList, "".toList, "of disks".toList] := by
      decide +kernel
    rw [hs]
    intro l hl
    simp only [List.mem_cons, List.not_mem_nil, or_false] at hl
    rcases hl with rfl | rfl | rfl
    · exact (line_of "A test" (by decide +kernel)).trim
    · exact (line_of "" (by decide +kernel)).trim
    · exact (line_of "of disks" (by decide +kernel)).trim
  rintro s (h | h | h | h)
  · cases h
  · cases h; exact h1
  · cases h; exact h2
  · cases h

/-- The definition, what happens, and the description that is loaded from the text. -/
def exDescription (fs : FS) (description : String) (l : Layout) (pfx : String) : Option (Option Err × Val) :=
  (setup fs "/src".toList { exK with description := some description.toList }).map fun st =>
    let r := install exPrinter st "/src".toList ["/src/bin/tool".toList] "/tmp/root".toList pfx.toList l fs
    (r.2, match loadText exWorld exEnv (inside "/tmp/root".toList r.1)
        (providerPath l pfx.toList (nameOf st)) with
      | some (.ok p) => p.description
      | _ => .unset)

example : exDescription exFs "A test\n\nof disks" .unix "/usr" =
    some (none, .str "A test\n\nof disks".toList) := by decide +kernel

/-- **C73** is violated: of a description of several lines, those that begin with `#` or `;` are lost when
the file is loaded, white space at the beginning and at the end of lines is lost; what follows a carriage return is read as
another option, which can make the file unreadable. -/
theorem C73_text_violated (l : Layout) :
    exDescription exFs "Tests:\n# disks\n; memory" l "/usr" = some (none, .str "Tests:".toList) ∧
    exDescription exFs "Tests:\n  - disks" l "/usr" = some (none, .str "Tests:\n- disks".toList) ∧
    exDescription exFs " Tests " l "/usr" = some (none, .str "Tests".toList) ∧
    exDescription exFs "Tests\rname = com.example:other" l "/usr" = some (none, .unset) ∧
    exDescription exFs "Tests\rof disks" l "/usr" = some (none, .str "Tests".toList) := by
  cases l <;> decide +kernel

end Verif.Install
