import Verif.Model.Ctrl
import Verif.Lemmas.Assoc
import Verif.Lemmas.Sort
import Verif.Lemmas.Text

/-! # C36, C37: execution controllers and their environments -/

set_option linter.unusedSimpArgs false

namespace Verif.Ctrl

open Verif.Checksum (Str dictSet)
open Verif.Assoc

/-! ## C36: the choice -/

/-- `c` has the greatest score, and of those with the greatest score it comes last. -/
def Best {C : Type} (score : C → Int) (l : List C) (c : C) : Prop :=
  ∃ pre post, l = pre ++ c :: post ∧ (∀ x ∈ pre, score x ≤ score c) ∧ ∀ x ∈ post, score x < score c

theorem insertBy_last {α : Type} (le : α → α → Bool)
    (trans : ∀ a b c, le a b = true → le b c = true → le a c = true) (x m : α) (s : List α)
    (hs : s.Pairwise fun a b => le a b = true) (h : s.getLast? = some m) :
    (Sort.insertBy le x s).getLast? = some (if le x m then m else x) := by
  induction s with
  | nil => simp at h
  | cons y s ih =>
    rw [Sort.insertBy]
    cases s with
    | nil =>
      simp only [List.getLast?_singleton, Option.some.injEq] at h
      subst h
      by_cases hxy : le x y = true <;> simp [hxy, Sort.insertBy]
    | cons z s =>
      have hm : m ∈ z :: s := List.mem_of_getLast? (by simpa using h)
      have h' : (z :: s).getLast? = some m := by simpa [List.getLast?_cons_cons] using h
      by_cases hxy : le x y = true
      · have hxm : le x m = true := trans _ _ _ hxy (List.rel_of_pairwise_cons hs hm)
        rw [if_pos hxy, if_pos hxm, List.getLast?_cons_cons, List.getLast?_cons_cons, h']
      · rw [if_neg hxy]
        have := ih hs.of_cons h'
        rw [List.getLast?_cons, this]
        rfl

theorem sorted_last {C : Type} (score : C → Int) (l : List C) :
    (l = [] ∧ (Sort.sortBy (fun a b : C × Int => decide (a.2 ≤ b.2))
        (l.map fun c => (c, score c))).getLast? = none) ∨
    ∃ c, Best score l c ∧ (Sort.sortBy (fun a b : C × Int => decide (a.2 ≤ b.2))
        (l.map fun c => (c, score c))).getLast? = some (c, score c) := by
  induction l with
  | nil => exact .inl ⟨rfl, rfl⟩
  | cons x l ih =>
    right
    rw [List.map_cons, Sort.sortBy]
    rcases ih with ⟨rfl, _⟩ | ⟨m, ⟨pre, post, hl, h1, h2⟩, hlast⟩
    · exact ⟨x, ⟨[], [], rfl, by simp, by simp⟩, rfl⟩
    · have := insertBy_last (fun a b : C × Int => decide (a.2 ≤ b.2))
        (by intro a b c h1 h2; simp only [decide_eq_true_eq] at *; omega) (x, score x) _ _
        (Sort.sortBy_sorted (by intro a b; simp only [decide_eq_true_eq]; omega)
          (by intro a b c h1 h2; simp only [decide_eq_true_eq] at *; omega) _) hlast
      by_cases hx : score x ≤ score m
      · refine ⟨m, ⟨x :: pre, post, by rw [hl]; rfl, ?_, h2⟩, ?_⟩
        · intro y hy
          rcases List.mem_cons.1 hy with rfl | hy
          · exact hx
          · exact h1 y hy
        · rw [this, if_pos (decide_eq_true hx)]
      · refine ⟨x, ⟨[], l, rfl, by simp, ?_⟩, ?_⟩
        · intro y hy
          rw [hl] at hy
          rcases List.mem_append.1 hy with hy | hy
          · have := h1 y hy; omega
          · rcases List.mem_cons.1 hy with rfl | hy
            · omega
            · have := h2 y hy; omega
        · rw [this, if_neg (by simpa using hx)]

/-- C36, choice: a controller is chosen exactly when it has a non-negative score that is maximal among
all controllers, and comes last of those with that score; `LookupError` is raised exactly when no
controller has a non-negative score (as its subclass `IndexError` when there is no controller). -/
theorem C36_choice {C : Type} (score : C → Int) (l : List C) :
    (∀ c, choose score l = .ok c ↔ 0 ≤ score c ∧ Best score l c) ∧
    (choose score l = .error .lookupError ↔ l ≠ [] ∧ ∀ c ∈ l, score c < 0) ∧
    (choose score l = .error .indexError ↔ l = []) := by
  have best_unique : ∀ c d, Best score l c → Best score l d → score c = score d →
      c = d := by
    rintro c d ⟨p, q, h1, h2, h3⟩ ⟨p', q', h1', h2', h3'⟩ hs
    rw [h1] at h1'
    rcases List.append_eq_append_iff.1 h1' with ⟨as, ha, hb⟩ | ⟨bs, ha, hb⟩
    · cases as with
      | nil => simp only [List.nil_append, List.cons.injEq] at hb; exact hb.1
      | cons a as =>
        simp only [List.cons_append, List.cons.injEq] at hb
        have := h3 d (by rw [hb.2]; simp)
        omega
    · cases bs with
      | nil => simp only [List.nil_append, List.cons.injEq] at hb; exact hb.1.symm
      | cons a as =>
        simp only [List.cons_append, List.cons.injEq] at hb
        have := h3' c (by rw [hb.2]; simp)
        omega
  have best_max : ∀ c, Best score l c → ∀ x ∈ l, score x ≤ score c := by
    rintro c ⟨p, q, h1, h2, h3⟩ x hx
    rw [h1] at hx
    rcases List.mem_append.1 hx with hx | hx
    · exact h2 x hx
    · rcases List.mem_cons.1 hx with rfl | hx
      · exact Int.le_refl _
      · exact Int.le_of_lt (h3 x hx)
  have best_mem : ∀ c, Best score l c → c ∈ l := by
    rintro c ⟨p, q, h1, -, -⟩
    rw [h1]; simp
  rcases sorted_last score l with ⟨rfl, h⟩ | ⟨m, hb, h⟩
  · unfold choose
    rw [h]
    refine ⟨fun c => ⟨nofun, ?_⟩, ⟨nofun, fun h => absurd rfl h.1⟩, ⟨fun _ => rfl, fun _ => rfl⟩⟩
    rintro ⟨-, hc⟩
    exact absurd (best_mem c hc) (by simp)
  · have hne : l ≠ [] := List.ne_nil_of_mem (best_mem m hb)
    unfold choose
    rw [h]
    by_cases hm : score m < 0
    · simp only [if_pos hm]
      refine ⟨fun c => ⟨nofun, ?_⟩, ⟨fun _ => ⟨hne, ?_⟩, fun _ => trivial⟩, ⟨nofun, fun h => absurd h hne⟩⟩
      · rintro ⟨h0, hc⟩
        have := best_max m hb c (best_mem c hc)
        omega
      · intro c hc
        have := best_max m hb c hc
        omega
    · simp only [if_neg hm]
      refine ⟨fun c => ⟨?_, ?_⟩, ⟨nofun, ?_⟩, ⟨nofun, fun h => absurd h hne⟩⟩
      · intro h; cases h; exact ⟨by omega, hb⟩
      · rintro ⟨h0, hc⟩
        have h1 := best_max m hb c (best_mem c hc)
        have h2 := best_max c hc m (best_mem m hb)
        rw [best_unique m c hb hc (by omega)]
      · rintro ⟨-, h⟩
        exact absurd (h m (best_mem m hb)) hm

/-- C36, choice, in short: the chosen controller is one of the controllers, able, and best. -/
theorem C36_best {C : Type} (score : C → Int) (l : List C) (c : C) (h : choose score l = .ok c) :
    c ∈ l ∧ 0 ≤ score c ∧ ∀ d ∈ l, score d ≤ score c := by
  obtain ⟨h0, pre, post, hl, h1, h2⟩ := ((C36_choice score l).1 c).1 h
  refine ⟨by rw [hl]; simp, h0, fun d hd => ?_⟩
  rw [hl] at hd
  rcases List.mem_append.1 hd with hd | hd
  · exact h1 d hd
  · rcases List.mem_cons.1 hd with rfl | hd
    · exact Int.le_refl _
    · exact Int.le_of_lt (h2 d hd)

example : choose (fun c : Nat × Int => c.2) [(0, 1), (1, 4), (2, -1), (3, 4), (4, 0)] = .ok (3, 4) := by
  decide

/-- The controllers that run the command with elevated privileges. -/
def Elevates : Ctrl → Prop
  | .ptl1 | .pkexec | .sudo | .sudoWithPass => True
  | .user | .qml => False

instance (c : Ctrl) : Decidable (Elevates c) := by cases c <;> unfold Elevates <;> infer_instance

/-- The controllers used by device contexts or by a runner of its own. -/
def Stock (w : World) (l : List Ctrl) : Prop := l = contextCtrls w.platform ∨ l = runnerCtrls w.platform

/-- C36, ordinary jobs: a job that does not ask for another user is never executed by a controller that
elevates privileges. -/
theorem C36_ordinary (w : World) (j : Job) (l : List Ctrl) (hl : Stock w l) (hu : j.user = none)
    (c : Ctrl) (h : choose (score w j) l = .ok c) : ¬ Elevates c := by
  obtain ⟨hc, h0, hmax⟩ := C36_best _ _ _ h
  intro he
  have key : w.platform = .linux → False := by
    intro hp
    have hmem : Ctrl.user ∈ l := by
      rcases hl with rfl | rfl <;> rw [hp] <;> decide
    have hm := hmax .user hmem
    generalize hwin : "win32".toList = win at *
    cases c with
    | user => exact he
    | qml => exact he
    | ptl1 => simp only [score, ptl1Score, userScore, hwin] at h0 hm; grind
    | pkexec => simp only [score, pkexecScore, userScore, hwin] at h0 hm; grind
    | sudo => simp only [score, sudoScore, userScore, hwin] at h0 hm; grind
    | sudoWithPass => simp only [score, sudoWithPassScore, userScore, hwin] at h0 hm; grind
  cases hp : w.platform with
  | linux => exact key hp
  | win32 =>
    have : l = [.user] := by rcases hl with rfl | rfl <;> rw [hp] <;> rfl
    subst this
    simp only [List.mem_singleton] at hc
    subst hc
    exact he
  | other =>
    have : l = [] := by rcases hl with rfl | rfl <;> rw [hp] <;> rfl
    subst this
    simp at hc

example : choose (score ⟨.linux, 0, false, false, true, true⟩
    { plugin := "shell".toList, provider := { secure := true } }) (runnerCtrls .linux) = .ok .user := by
  decide +kernel

/-- C36, jobs that ask for another user, partial: such a job is executed by a controller that elevates
privileges, unless the process itself already runs as root, or the job is a `qml` job and the
controller for those is available. -/
theorem C36_root_partial (w : World) (j : Job) (l : List Ctrl) (hu : j.user ≠ none)
    (c : Ctrl) (h : choose (score w j) l = .ok c) :
    Elevates c ∨ (c = .user ∧ w.uid = 0) ∨ (c = .qml ∧ j.plugin = "qml".toList) := by
  obtain ⟨hc, h0, hmax⟩ := C36_best _ _ _ h
  cases c with
  | ptl1 => exact .inl trivial
  | pkexec => exact .inl trivial
  | sudo => exact .inl trivial
  | sudoWithPass => exact .inl trivial
  | user =>
    right; left
    refine ⟨rfl, ?_⟩
    simp only [score, userScore] at h0
    grind
  | qml =>
    right; right
    refine ⟨rfl, ?_⟩
    simp only [score, qmlScore] at h0
    split at h0
    · assumption
    · omega

/-- C36, jobs that ask for another user, as executed by a session (its device contexts do not use the
controller for `qml` jobs) in a process that is not root. -/
theorem C36_root_session (w : World) (j : Job) (hu : j.user ≠ none) (huid : w.uid ≠ 0)
    (c : Ctrl) (h : choose (score w j) (contextCtrls w.platform) = .ok c) : Elevates c := by
  rcases C36_root_partial w j _ hu c h with h' | ⟨_, h'⟩ | ⟨rfl, _⟩
  · exact h'
  · exact absurd h' huid
  · have := (C36_best _ _ _ h).1
    cases hp : w.platform <;> rw [hp] at this <;> revert this <;> decide

example : choose (score ⟨.linux, 1000, false, false, true, false⟩
    { plugin := "shell".toList, user := some "root".toList }) (contextCtrls .linux) = .ok .pkexec := by
  decide +kernel

/-- C36 violated: with the runner's own list of controllers, a `qml` job that asks for root is executed
by a controller that does not elevate privileges, in a process that is not root. -/
theorem C36_qml_violated :
    ∃ (w : World) (j : Job), w.uid ≠ 0 ∧ j.user = some "root".toList ∧
      choose (score w j) (runnerCtrls w.platform) = .ok .qml :=
  ⟨⟨.linux, 1000, false, false, true, true⟩,
    { plugin := "qml".toList, user := some "root".toList, provider := { secure := true } },
    by decide, rfl, by decide +kernel⟩

/-- When a job that asks for root can be run at all, and who runs it, for a session on Linux that is
not root: the trusted launcher for jobs of secure providers, otherwise sudo for those who may use it,
otherwise pkexec. -/
theorem C36_root_linux (w : World) (j : Job) (hp : w.platform = .linux) (hu : j.user ≠ none)
    (huid : w.uid ≠ 0) :
    choose (score w j) (contextCtrls w.platform) =
      if "win32".toList ∈ j.flags then .error .lookupError
      else if j.provider.isProvider1 ∧ j.provider.secure ∧ ¬ w.ssh ∧ ¬ w.snap ∧ w.ptl1Supported then
        .ok .ptl1
      else if w.canSudo then .ok .sudo
      else if w.snap then .error .lookupError
      else .ok .pkexec := by
  by_cases hw : "win32".toList ∈ j.flags
  · rw [if_pos hw]
    have : ∀ c ∈ contextCtrls w.platform, score w j c < 0 := by
      intro c hc
      rw [hp] at hc
      simp only [contextCtrls, List.mem_cons, List.not_mem_nil, or_false] at hc
      rcases hc with rfl | rfl | rfl | rfl
      · simp only [score, ptl1Score]; grind
      · simp only [score, pkexecScore]; grind
      · simp only [score, sudoScore]; grind
      · simp only [score, userScore]; grind
    exact ((C36_choice _ _).2.1).2 ⟨by rw [hp]; simp [contextCtrls], this⟩
  · rw [if_neg hw, hp]
    have hu' : userScore w j = -1 := by simp only [userScore]; grind
    have h1 : ptl1Score w j = if j.provider.isProvider1 ∧ j.provider.secure ∧ ¬ w.ssh ∧ ¬ w.snap then
        (if w.ptl1Supported then 3 else 0) else -1 := by simp only [ptl1Score]; grind
    have h2 : pkexecScore w j = if w.snap then -1 else 1 := by simp only [pkexecScore]; grind
    have h3 : sudoScore w j = if w.canSudo then 2 else -1 := by simp only [sudoScore]; grind
    simp only [choose, contextCtrls, List.map_cons, List.map_nil, score, hu', h1, h2, h3]
    cases j.provider.isProvider1 <;> cases j.provider.secure <;> cases w.snap <;> cases w.ssh <;>
      cases w.ptl1Supported <;> cases w.canSudo <;> rfl

/-! ## C37: the environment -/

theorem lookup_filter_nodup {V : Type} (p : Str × V → Bool) (l : List (Str × V))
    (hn : (l.map (·.1)).Nodup) (k : Str) :
    (l.filter p).lookup k = (l.lookup k).filter fun v => p (k, v) := by
  induction l with
  | nil => rfl
  | cons x l ih =>
    rw [List.map_cons, List.nodup_cons] at hn
    rw [List.filter_cons, lk_cons]
    by_cases h : k = x.1
    · rw [if_pos h]
      have hnone : l.lookup k = none := by
        cases hl : l.lookup k with
        | none => rfl
        | some v =>
          exfalso
          apply hn.1
          rw [← h]
          have : ∀ l : List (Str × V), l.lookup k = some v → k ∈ l.map (·.1) := by
            intro l
            induction l with
            | nil => simp
            | cons y l ih =>
              rw [lk_cons]
              split
              · rename_i h; intro _; simp [h]
              · intro h; simp [ih h]
          exact this l hl
      have hx : x = (k, x.2) := Prod.ext h.symm rfl
      by_cases hp : p x = true
      · rw [if_pos hp, lk_cons, if_pos h, Option.filter_some, if_pos (hx ▸ hp)]
      · rw [if_neg hp, ih hn.2, hnone, Option.filter_some, if_neg (hx ▸ hp)]; rfl
    · rw [if_neg h]
      by_cases hp : p x = true
      · rw [if_pos hp, lk_cons, if_neg h, ih hn.2]
      · rw [if_neg hp, ih hn.2]

theorem lookup_setOpt (k : Str) (v : Option Str) (env : Env) (k' : Str) :
    (setOpt k v env).lookup k' = if k' = k then v.or (env.lookup k') else env.lookup k' := by
  cases v with
  | none => simp [setOpt]
  | some v => rw [setOpt, lookup_dictSet]; rfl

theorem lookup_configStep (cfg env : Env) (k : Str) :
    (configStep cfg env).lookup k = (env.lookup k).or (cfg.lookup k) := by
  induction cfg generalizing env with
  | nil => simp [configStep]
  | cons x cfg ih =>
    obtain ⟨a, v⟩ := x
    rw [configStep, ih, lk_cons]
    by_cases ha : (env.lookup a).isSome = true
    · rw [if_pos ha]
      by_cases h : k = a
      · subst h
        obtain ⟨w, hw⟩ := Option.isSome_iff_exists.1 ha
        rw [hw]; rfl
      · rw [if_neg h]
    · rw [if_neg ha, lookup_dictSet]
      by_cases h : k = a
      · subst h
        rw [if_pos rfl, if_pos rfl, Option.not_isSome_iff_eq_none.1 ha]; rfl
      · rw [if_neg h, if_neg h]

theorem nodup_filter {V : Type} (p : Str × V → Bool) (l : List (Str × V)) (h : (l.map (·.1)).Nodup) :
    ((l.filter p).map (·.1)).Nodup := h.sublist (List.filter_sublist.map _)

theorem nodup_setOpt (k : Str) (v : Option Str) (env : Env) (h : (env.map (·.1)).Nodup) :
    ((setOpt k v env).map (·.1)).Nodup := by
  cases v with
  | none => exact h
  | some v => exact nodup_dictSet _ _ _ h

theorem nodup_configStep (cfg env : Env) (h : (env.map (·.1)).Nodup) :
    ((configStep cfg env).map (·.1)).Nodup := by
  induction cfg generalizing env with
  | nil => exact h
  | cons x cfg ih =>
    rw [configStep]
    apply ih
    split
    · exact h
    · exact nodup_dictSet _ _ _ h

theorem nodup_execEnv (base : Env) (j : Job) (cfg : Env) (nest data : Str)
    (h : (base.map (·.1)).Nodup) : ((execEnv base j cfg nest data).map (·.1)).Nodup := by
  unfold execEnv dirsStep
  apply nodup_configStep
  apply nodup_setOpt
  apply nodup_setOpt
  apply nodup_setOpt
  apply nodup_dictSet
  apply nodup_dictSet
  apply nodup_dictSet
  have hl : ((localeStep j base).map (·.1)).Nodup := by
    unfold localeStep
    split
    · exact nodup_filter _ _ (nodup_filter _ _ (nodup_dictSet _ _ _ h))
    · exact nodup_setOpt _ _ _ (nodup_setOpt _ _ _ (nodup_setOpt _ _ _ (nodup_setOpt _ _ _ h)))
  unfold pythonStep
  split
  · exact hl
  · exact hl
  · exact nodup_dictSet _ _ _ hl

/-- Names of the locale variables. -/
def Locale (k : Str) : Prop := k = "LANG".toList ∨ k = "LANGUAGE".toList ∨ "LC_".toList <+: k

/-- Names of the variables that plainbox itself may set, apart from locale variables. -/
def ownNames : List Str :=
  ["TEXTDOMAIN".toList, "PLAINBOX_PROVIDER_GETTEXT_DOMAIN".toList, "TEXTDOMAINDIR".toList,
   "PLAINBOX_PROVIDER_LOCALE_DIR".toList, "PYTHONPATH".toList, "PATH".toList,
   "PLAINBOX_SESSION_SHARE".toList, "CHECKBOX_DATA".toList, "PLAINBOX_PROVIDER_DATA".toList,
   "PLAINBOX_PROVIDER_UNITS".toList, "CHECKBOX_SHARE".toList]

instance (k : Str) : Decidable (Locale k) := by unfold Locale; infer_instance

theorem Locale.not_own {k : Str} (h : Locale k) : k ∉ ownNames := by
  intro hk
  simp only [ownNames, List.mem_cons, List.not_mem_nil, or_false] at hk
  rcases hk with rfl | rfl | rfl | rfl | rfl | rfl | rfl | rfl | rfl | rfl | rfl <;> revert h <;> decide

theorem lookup_localeStep_neutral (j : Job) (base : Env) (k : Str)
    (hf : "preserve-locale".toList ∉ j.flags) :
    (localeStep j base).lookup k =
      if k = "LANG".toList then some "C.UTF-8".toList
      else if Locale k then none else base.lookup k := by
  rw [localeStep, if_pos hf, lookup_filter (fun k => !isLC k),
    lookup_filter (fun k => !decide (k = "LANGUAGE".toList)), lookup_dictSet]
  by_cases h1 : k = "LANG".toList
  · subst h1
    rw [if_pos (by decide), if_pos (by decide), if_pos rfl, if_pos rfl]
  · rw [if_neg h1, if_neg h1]
    by_cases h2 : isLC k = true
    · rw [if_neg (by simp [h2]), if_pos (.inr (.inr (List.isPrefixOf_iff_prefix.1 h2)))]
    · rw [if_pos (by simp [h2])]
      by_cases h3 : k = "LANGUAGE".toList
      · rw [if_neg (by rw [decide_eq_true h3]; decide), if_pos (.inr (.inl h3))]
      · rw [if_pos (by rw [decide_eq_false h3]; rfl), if_neg]
        rintro (h | h | h)
        · exact h1 h
        · exact h3 h
        · exact h2 (List.isPrefixOf_iff_prefix.2 h)

theorem lookup_localeStep_preserve (j : Job) (base : Env) (k : Str)
    (hf : "preserve-locale".toList ∈ j.flags) :
    (localeStep j base).lookup k =
      if k = "TEXTDOMAIN".toList ∨ k = "PLAINBOX_PROVIDER_GETTEXT_DOMAIN".toList then
        j.provider.gettextDomain.or (base.lookup k)
      else if k = "TEXTDOMAINDIR".toList ∨ k = "PLAINBOX_PROVIDER_LOCALE_DIR".toList then
        j.provider.localeDir.or (base.lookup k)
      else base.lookup k := by
  rw [localeStep, if_neg (fun h => h hf)]
  simp only [lookup_setOpt]
  by_cases h1 : k = "TEXTDOMAIN".toList
  · subst h1; rfl
  · by_cases h2 : k = "PLAINBOX_PROVIDER_GETTEXT_DOMAIN".toList
    · subst h2; rfl
    · by_cases h3 : k = "TEXTDOMAINDIR".toList
      · subst h3; rfl
      · by_cases h4 : k = "PLAINBOX_PROVIDER_LOCALE_DIR".toList
        · subst h4; rfl
        · rw [if_neg h3, if_neg h4, if_neg h2, if_neg h1, if_neg (not_or.2 ⟨h1, h2⟩),
            if_neg (not_or.2 ⟨h3, h4⟩)]

theorem pathInject_eq (first : Str) (env : Env) (name : Str) :
    pathInject first env name = first ++ ':' :: (env.lookup name).getD [] := by
  unfold pathInject
  rw [Text.joinWith_cons _ _ (Text.splitOn_ne_nil _ _), Text.join_split]

/-- The value of a variable that is prepended to. -/
def prepended (first : Str) (old : Option Str) : Str := first ++ ':' :: old.getD []

/-- C55, first part of the specification: the environment before the configuration is consulted. -/
def intended (base : Env) (j : Job) (nest data : Str) (k : Str) : Option Str :=
  if k = "PATH".toList then some (prepended nest (base.lookup k))
  else if k = "CHECKBOX_DATA".toList ∨ k = "PLAINBOX_SESSION_SHARE".toList then some data
  else if k = "PLAINBOX_PROVIDER_DATA".toList then j.provider.dataDir.or (base.lookup k)
  else if k = "PLAINBOX_PROVIDER_UNITS".toList then j.provider.unitsDir.or (base.lookup k)
  else if k = "CHECKBOX_SHARE".toList then j.provider.checkboxShare.or (base.lookup k)
  else if k = "PYTHONPATH".toList then
    match j.provider.extraPythonPath with
    | some (c :: e) => some (prepended (c :: e) (base.lookup k))
    | _ => base.lookup k
  else if "preserve-locale".toList ∈ j.flags then
    if k = "TEXTDOMAIN".toList ∨ k = "PLAINBOX_PROVIDER_GETTEXT_DOMAIN".toList then
      j.provider.gettextDomain.or (base.lookup k)
    else if k = "TEXTDOMAINDIR".toList ∨ k = "PLAINBOX_PROVIDER_LOCALE_DIR".toList then
      j.provider.localeDir.or (base.lookup k)
    else base.lookup k
  else if k = "LANG".toList then some "C.UTF-8".toList
  else if Locale k then none
  else base.lookup k

theorem lookup_pythonStep (j : Job) (env : Env) (k : Str) :
    (pythonStep j env).lookup k =
      if k = "PYTHONPATH".toList then
        match j.provider.extraPythonPath with
        | some (c :: e) => some (prepended (c :: e) (env.lookup k))
        | _ => env.lookup k
      else env.lookup k := by
  unfold pythonStep
  by_cases hk : k = "PYTHONPATH".toList
  · rw [if_pos hk]
    split
    · rename_i h; rw [h]
    · rename_i h; rw [h]
    · rename_i e h1 h2
      cases e with
      | nil => exact absurd rfl (h1)
      | cons c e => rw [h2, lookup_dictSet, if_pos hk, pathInject_eq, hk]; rfl
  · rw [if_neg hk]
    split
    · rfl
    · rfl
    · rw [lookup_dictSet, if_neg hk]

theorem lookup_localeStep_own (j : Job) (base : Env) (k : Str)
    (hk : k ∈ ["PYTHONPATH".toList, "PATH".toList, "PLAINBOX_SESSION_SHARE".toList,
      "CHECKBOX_DATA".toList, "PLAINBOX_PROVIDER_DATA".toList,
      "PLAINBOX_PROVIDER_UNITS".toList, "CHECKBOX_SHARE".toList]) :
    (localeStep j base).lookup k = base.lookup k := by
  by_cases hf : "preserve-locale".toList ∈ j.flags
  · rw [lookup_localeStep_preserve j base k hf]
    simp only [List.mem_cons, List.not_mem_nil, or_false] at hk
    rcases hk with rfl | rfl | rfl | rfl | rfl | rfl | rfl <;>
      rw [if_neg (by decide), if_neg (by decide)]
  · rw [lookup_localeStep_neutral j base k hf]
    simp only [List.mem_cons, List.not_mem_nil, or_false] at hk
    rcases hk with rfl | rfl | rfl | rfl | rfl | rfl | rfl <;>
      rw [if_neg (by decide), if_neg (by decide)]

/-- C55: the environment of a command. Every variable has the value prescribed by plainbox, by the
locale policy or by the environment of the process, and only variables without such a value are taken
from the configuration. -/
theorem C55_environment (base : Env) (j : Job) (cfg : Env) (nest data : Str) (k : Str) :
    (execEnv base j cfg nest data).lookup k = (intended base j nest data k).or (cfg.lookup k) := by
  rw [execEnv, lookup_configStep]
  congr 1
  unfold dirsStep
  rw [lookup_setOpt, lookup_setOpt, lookup_setOpt, lookup_dictSet, lookup_dictSet, lookup_dictSet,
    pathInject_eq]
  rw [lookup_pythonStep, lookup_pythonStep]
  by_cases h : k ∈ ["PYTHONPATH".toList, "PATH".toList, "PLAINBOX_SESSION_SHARE".toList,
      "CHECKBOX_DATA".toList, "PLAINBOX_PROVIDER_DATA".toList,
      "PLAINBOX_PROVIDER_UNITS".toList, "CHECKBOX_SHARE".toList]
  · rw [lookup_localeStep_own j base k h,
      lookup_localeStep_own j base "PATH".toList (by decide)]
    simp only [List.mem_cons, List.not_mem_nil, or_false] at h
    rcases h with rfl | rfl | rfl | rfl | rfl | rfl | rfl <;> rfl
  · have hne : ∀ n ∈ ["PYTHONPATH".toList, "PATH".toList, "PLAINBOX_SESSION_SHARE".toList,
      "CHECKBOX_DATA".toList, "PLAINBOX_PROVIDER_DATA".toList,
      "PLAINBOX_PROVIDER_UNITS".toList, "CHECKBOX_SHARE".toList], k ≠ n := fun n hn e => h (e ▸ hn)
    unfold intended
    rw [if_neg (hne _ (by decide)), if_neg (hne _ (by decide)), if_neg (hne _ (by decide)),
      if_neg (hne _ (by decide)), if_neg (hne _ (by decide)), if_neg (hne _ (by decide)),
      if_neg (hne _ (by decide)), if_neg (hne _ (by decide)), 
      if_neg (not_or.2 ⟨hne _ (by decide), hne _ (by decide)⟩), if_neg (hne _ (by decide)),
      if_neg (hne _ (by decide)), if_neg (hne _ (by decide)), if_neg (hne _ (by decide))]
    by_cases hf : "preserve-locale".toList ∈ j.flags
    · rw [if_pos hf, lookup_localeStep_preserve j base k hf]
    · rw [if_neg hf, lookup_localeStep_neutral j base k hf]

theorem lookup_copyVars (base delta : Env) (hn : (base.map (·.1)).Nodup) (k : Str) :
    (copyVars base delta).lookup k =
      if copied k then (base.lookup k).or (delta.lookup k) else delta.lookup k := by
  induction base generalizing delta with
  | nil => simp [copyVars]
  | cons x base ih =>
    rw [List.map_cons, List.nodup_cons] at hn
    obtain ⟨a, v⟩ := x
    rw [copyVars, ih _ hn.2, lk_cons]
    by_cases hk : copied k = true
    · rw [if_pos hk, if_pos hk]
      by_cases ha : k = a
      · subst ha
        rw [if_pos rfl, if_pos hk, lookup_dictSet, if_pos rfl]
        have : base.lookup k = none := by
          cases hl : base.lookup k with
          | none => rfl
          | some w =>
            exfalso
            apply hn.1
            have : ∀ l : Env, l.lookup k = some w → k ∈ l.map (·.1) := by
              intro l
              induction l with
              | nil => simp
              | cons y l ih =>
                rw [lk_cons]
                split
                · rename_i h; intro _; simp [h]
                · intro h; simp [ih h]
            exact this _ hl
        rw [this]; rfl
      · rw [if_neg ha]
        congr 1
        split
        · rw [lookup_dictSet, if_neg ha]
        · rfl
    · rw [if_neg hk, if_neg hk]
      split
      · rename_i h
        rw [lookup_dictSet, if_neg]
        rintro rfl
        exact hk h
      · rfl

/-- The value of a variable after the differential environment is applied to the environment it was
computed against. -/
def Merged (base delta : Env) (k : Str) : Option Str := (delta.lookup k).or (base.lookup k)

/-- The environment is that of a snap application. -/
def InSnap (base : Env) : Prop :=
  (∃ c s, base.lookup "SNAP".toList = some (c :: s)) ∨
  ∃ c s, base.lookup "SNAP_APP_PATH".toList = some (c :: s)

/-- Variables that snap applications need. -/
def SnapVar (k : Str) : Prop :=
  k = "PYTHONHOME".toList ∨ k = "PYTHONUSERBASE".toList ∨ k = "LD_LIBRARY_PATH".toList ∨
  k = "GI_TYPELIB_PATH".toList ∨ "SNAP".toList <+: k

theorem copied_iff (k : Str) : copied k = true ↔ SnapVar k := by
  unfold copied SnapVar
  rw [Bool.or_eq_true, decide_eq_true_eq, List.isPrefixOf_iff_prefix]
  simp only [List.mem_cons, List.not_mem_nil, or_false, or_assoc]

theorem truthy_iff (base : Env) (k : Str) :
    truthy base k = true ↔ ∃ c s, base.lookup k = some (c :: s) := by
  unfold truthy
  cases h : base.lookup k with
  | none => simp
  | some v => cases v <;> simp

theorem SnapVar.plain {k : Str} (h : SnapVar k) : k ∉ ownNames ∧ ¬ Locale k := by
  have hc := (copied_iff k).2 h
  constructor
  · intro hk
    simp only [ownNames, List.mem_cons, List.not_mem_nil, or_false] at hk
    rcases hk with rfl | rfl | rfl | rfl | rfl | rfl | rfl | rfl | rfl | rfl | rfl <;> revert hc <;>
      decide
  · rintro (rfl | rfl | ⟨t, rfl⟩)
    · revert hc; decide
    · revert hc; decide
    · have : copied ("LC_".toList ++ t) = false := by
        unfold copied
        rw [Bool.or_eq_false_iff]
        constructor
        · rw [decide_eq_false_iff_not]
          simp only [List.mem_cons, List.not_mem_nil, or_false]
          rintro (h | h | h | h) <;> revert h <;> simp
        · rfl
      rw [this] at hc
      cases hc

/-- The intended value of a variable that plainbox does not deal with. -/
theorem intended_plain (base : Env) (j : Job) (nest data : Str) (k : Str) (h1 : k ∉ ownNames)
    (h2 : ¬ Locale k) : intended base j nest data k = base.lookup k := by
  have hne : ∀ n ∈ ownNames, k ≠ n := fun n hn e => h1 (e ▸ hn)
  unfold intended
  rw [if_neg (hne _ (by decide)), 
    if_neg (not_or.2 ⟨hne _ (by decide), hne _ (by decide)⟩), if_neg (hne _ (by decide)),
    if_neg (hne _ (by decide)), if_neg (hne _ (by decide)), if_neg (hne _ (by decide)),
    if_neg (not_or.2 ⟨hne _ (by decide), hne _ (by decide)⟩),
    if_neg (not_or.2 ⟨hne _ (by decide), hne _ (by decide)⟩),
    if_neg (fun e => h2 (.inl e)), if_neg h2, ite_self]

/-- Only locale variables are ever removed. -/
theorem intended_none (base : Env) (j : Job) (nest data : Str) (k : Str)
    (h : intended base j nest data k = none) :
    base.lookup k = none ∨ ("preserve-locale".toList ∉ j.flags ∧ Locale k ∧ k ≠ "LANG".toList) := by
  have hor : ∀ a : Option Str, a.or (base.lookup k) = none → base.lookup k = none := by
    intro a ha
    cases a with
    | none => exact ha
    | some v => cases ha
  unfold intended at h
  split at h
  · cases h
  split at h
  · cases h
  split at h
  · exact .inl (hor _ h)
  split at h
  · exact .inl (hor _ h)
  split at h
  · exact .inl (hor _ h)
  split at h
  · split at h
    · cases h
    · exact .inl h
  split at h
  · split at h
    · exact .inl (hor _ h)
    split at h
    · exact .inl (hor _ h)
    · exact .inl h
  · rename_i hf
    split at h
    · cases h
    · rename_i hl
      split at h
      · rename_i hloc; exact .inr ⟨hf, hloc, hl⟩
      · exact .inl h

/-- The differential environment, variable by variable. -/
theorem lookup_diffEnv (base : Env) (j : Job) (cfg : Env) (nest data : Str)
    (hn : (base.map (·.1)).Nodup) (k : Str) :
    (InSnap base ∧ SnapVar k ∧ (base.lookup k).isSome ∧
      (diffEnv base j cfg nest data).lookup k = base.lookup k) ∨
    (¬ (InSnap base ∧ SnapVar k ∧ (base.lookup k).isSome) ∧
      (diffEnv base j cfg nest data).lookup k =
        if "preserve-locale".toList ∉ j.flags ∧ k = "LC_ALL".toList then some "C.UTF-8".toList
        else if "preserve-locale".toList ∉ j.flags ∧ k = "LANGUAGE".toList then some []
        else if "preserve-locale".toList ∉ j.flags ∧ k = "LANG".toList then some "C.UTF-8".toList
        else ((execEnv base j cfg nest data).lookup k).filter fun v =>
          !decide (base.lookup k = some v) || decide (k ∈ j.environ)) := by
  have hdelta : (if "preserve-locale".toList ∉ j.flags then
      dictSet "LC_ALL".toList "C.UTF-8".toList
        (dictSet "LANGUAGE".toList [] (dictSet "LANG".toList "C.UTF-8".toList
          ((execEnv base j cfg nest data).filter fun kv =>
            !decide (base.lookup kv.1 = some kv.2) || decide (kv.1 ∈ j.environ))))
      else ((execEnv base j cfg nest data).filter fun kv =>
            !decide (base.lookup kv.1 = some kv.2) || decide (kv.1 ∈ j.environ))).lookup k =
      if "preserve-locale".toList ∉ j.flags ∧ k = "LC_ALL".toList then some "C.UTF-8".toList
        else if "preserve-locale".toList ∉ j.flags ∧ k = "LANGUAGE".toList then some []
        else if "preserve-locale".toList ∉ j.flags ∧ k = "LANG".toList then some "C.UTF-8".toList
        else ((execEnv base j cfg nest data).lookup k).filter fun v =>
          !decide (base.lookup k = some v) || decide (k ∈ j.environ) := by
    rw [← lookup_filter_nodup (fun kv : Str × Str =>
      !decide (base.lookup kv.1 = some kv.2) || decide (kv.1 ∈ j.environ)) _
      (nodup_execEnv base j cfg nest data hn)]
    by_cases hf : "preserve-locale".toList ∉ j.flags
    · rw [if_pos hf, lookup_dictSet, lookup_dictSet, lookup_dictSet]
      simp only [hf, not_false_eq_true, true_and]
    · rw [if_neg hf]
      simp only [hf, false_and, if_false]
  have hsnap : (truthy base "SNAP".toList || truthy base "SNAP_APP_PATH".toList) = true ↔
      InSnap base := by
    rw [Bool.or_eq_true, truthy_iff, truthy_iff]; rfl
  unfold diffEnv
  simp only
  by_cases hs : InSnap base
  · rw [if_pos (hsnap.2 hs), lookup_copyVars _ _ hn, hdelta]
    by_cases hc : SnapVar k
    · rw [if_pos ((copied_iff k).2 hc)]
      cases hb : base.lookup k with
      | none => exact .inr ⟨by simp, rfl⟩
      | some v => exact .inl ⟨hs, hc, rfl, rfl⟩
    · rw [if_neg (fun h => hc ((copied_iff k).1 h))]
      exact .inr ⟨fun h => hc h.2.1, rfl⟩
  · rw [if_neg (fun h => hs (hsnap.1 h)), hdelta]
    exact .inr ⟨fun h => hs h.1, rfl⟩

/-- C37, values, partial: applied to the environment it was computed against, the differential
environment gives every variable its value in the intended execution environment, and adds none,
except that unless `preserve-locale` is set `LANGUAGE`, `LC_ALL` and other `LC_` variables need not
have that value (see `C37_locale` and `C37_locale_violated`). -/
theorem C37_values_partial (base : Env) (j : Job) (cfg : Env) (nest data : Str)
    (hn : (base.map (·.1)).Nodup) (k : Str)
    (hk : "preserve-locale".toList ∈ j.flags ∨ ¬ Locale k ∨ k = "LANG".toList) :
    Merged base (diffEnv base j cfg nest data) k = (execEnv base j cfg nest data).lookup k := by
  unfold Merged
  rcases lookup_diffEnv base j cfg nest data hn k with ⟨hs, hc, hb, h⟩ | ⟨hns, h⟩
  · obtain ⟨v, hv⟩ := Option.isSome_iff_exists.1 hb
    rw [h, C55_environment, intended_plain _ _ _ _ _ hc.plain.1 hc.plain.2, hv]
    rfl
  · rw [h]
    have hlang : "preserve-locale".toList ∉ j.flags →
        (execEnv base j cfg nest data).lookup "LANG".toList = some "C.UTF-8".toList := by
      intro hf
      rw [C55_environment]
      have : intended base j nest data "LANG".toList = some "C.UTF-8".toList := by
        unfold intended
        rw [if_neg (by decide), if_neg (by decide), if_neg (by decide), if_neg (by decide),
          if_neg (by decide), if_neg (by decide), if_neg hf, if_pos rfl]
      rw [this]; rfl
    split
    · rename_i h'
      rcases hk with h1 | h1 | h1
      · exact absurd h1 h'.1
      · exact absurd (h'.2 ▸ (by decide : Locale "LC_ALL".toList)) h1
      · exact absurd (h1.symm.trans h'.2) (by decide)
    split
    · rename_i h'
      rcases hk with h1 | h1 | h1
      · exact absurd h1 h'.1
      · exact absurd (h'.2 ▸ (by decide : Locale "LANGUAGE".toList)) h1
      · exact absurd (h1.symm.trans h'.2) (by decide)
    split
    · rename_i h'
      rw [h'.2, hlang h'.1]; rfl
    rename_i hL
    cases ht : (execEnv base j cfg nest data).lookup k with
    | some v =>
      rw [Option.filter_some]
      split
      · rfl
      · rename_i hv
        simp only [Bool.or_eq_true, Bool.not_eq_true', decide_eq_false_iff_not, decide_eq_true_eq,
          not_or, Decidable.not_not] at hv
        rw [hv.1]; rfl
    | none =>
      rw [C55_environment] at ht
      have hi : intended base j nest data k = none := by
        cases h' : intended base j nest data k with
        | none => rfl
        | some v => rw [h'] at ht; cases ht
      rcases intended_none base j nest data k hi with h' | ⟨h1, h2, h3⟩
      · rw [h']; rfl
      · rcases hk with h4 | h4 | h4
        · exact absurd h4 h1
        · exact absurd h2 h4
        · exact absurd h4 h3

/-- The locale that applies to a category, as `setlocale(3)` finds it: the first of `LC_ALL`, the
variable of the category and `LANG` that is set and not empty. -/
def effectiveLocale (get : Str → Option Str) (category : Str) : Option Str :=
  [get "LC_ALL".toList, get category, get "LANG".toList].findSome? fun v =>
    match v with
    | some (c :: s) => some (c :: s)
    | _ => none

/-- C37, locale: unless `preserve-locale` is set, the locale of every category is neutral and no
language is preferred, whatever the base environment and the configuration say. -/
theorem C37_locale (base : Env) (j : Job) (cfg : Env) (nest data : Str)
    (hn : (base.map (·.1)).Nodup) (hf : "preserve-locale".toList ∉ j.flags) :
    (∀ category, effectiveLocale (Merged base (diffEnv base j cfg nest data)) category =
      some "C.UTF-8".toList) ∧
    Merged base (diffEnv base j cfg nest data) "LANGUAGE".toList = some [] := by
  have key : ∀ k, Locale k → (diffEnv base j cfg nest data).lookup k =
        if "preserve-locale".toList ∉ j.flags ∧ k = "LC_ALL".toList then some "C.UTF-8".toList
        else if "preserve-locale".toList ∉ j.flags ∧ k = "LANGUAGE".toList then some []
        else if "preserve-locale".toList ∉ j.flags ∧ k = "LANG".toList then some "C.UTF-8".toList
        else ((execEnv base j cfg nest data).lookup k).filter fun v =>
          !decide (base.lookup k = some v) || decide (k ∈ j.environ) := by
    intro k hk
    rcases lookup_diffEnv base j cfg nest data hn k with ⟨_, hc, _⟩ | ⟨_, h⟩
    · exact absurd hk hc.plain.2
    · exact h
  have h1 : Merged base (diffEnv base j cfg nest data) "LC_ALL".toList = some "C.UTF-8".toList := by
    unfold Merged
    rw [key _ (by decide), if_pos ⟨hf, rfl⟩]; rfl
  constructor
  · intro category
    unfold effectiveLocale
    rw [h1]; rfl
  · unfold Merged
    rw [key _ (by decide), if_neg (by rintro ⟨_, h⟩; revert h; decide), if_pos ⟨hf, rfl⟩]; rfl

/-- C37, minimality, partial: a variable that the differential environment mentions has another value
there than in the environment it was computed against (or no value there), unless it is one of the
job's own environment settings, one of the three locale variables that are always set, or a variable
that snap applications need. -/
theorem C37_minimal_partial (base : Env) (j : Job) (cfg : Env) (nest data : Str)
    (hn : (base.map (·.1)).Nodup) (k v : Str)
    (h : (diffEnv base j cfg nest data).lookup k = some v)
    (h1 : k ∉ j.environ)
    (h2 : "preserve-locale".toList ∈ j.flags ∨
      k ∉ ["LANG".toList, "LANGUAGE".toList, "LC_ALL".toList])
    (h3 : ¬ (InSnap base ∧ SnapVar k)) : base.lookup k ≠ some v := by
  rcases lookup_diffEnv base j cfg nest data hn k with ⟨hs, hc, _⟩ | ⟨_, h'⟩
  · exact absurd ⟨hs, hc⟩ h3
  · rw [h'] at h
    have hno : ∀ n ∈ ["LANG".toList, "LANGUAGE".toList, "LC_ALL".toList],
        ¬ ("preserve-locale".toList ∉ j.flags ∧ k = n) := by
      rintro n hn' ⟨hf, rfl⟩
      rcases h2 with h2 | h2
      · exact hf h2
      · exact h2 hn'
    rw [if_neg (hno _ (by decide)), if_neg (hno _ (by decide)), if_neg (hno _ (by decide))] at h
    cases ht : (execEnv base j cfg nest data).lookup k with
    | none => rw [ht] at h; cases h
    | some w =>
      rw [ht, Option.filter_some] at h
      split at h
      · rename_i hw
        cases h
        intro hb
        rw [hb, decide_eq_true rfl, decide_eq_false h1] at hw
        cases hw
      · cases h

/-- A job without anything special. -/
def exJob : Job := { plugin := "shell".toList, user := some "root".toList }

/-- C37, values, violated for locale variables: a `LANGUAGE` in the configuration is part of the
execution environment, which the differential environment replaces by an empty one; an `LC_TIME` that
was removed from the execution environment is still there. -/
theorem C37_locale_violated :
    ∃ base cfg : Env, (base.map (·.1)).Nodup ∧
      (execEnv base exJob cfg [] []).lookup "LANGUAGE".toList = some "pl".toList ∧
      Merged base (diffEnv base exJob cfg [] []) "LANGUAGE".toList = some [] ∧
      (execEnv base exJob cfg [] []).lookup "LC_TIME".toList = none ∧
      Merged base (diffEnv base exJob cfg [] []) "LC_TIME".toList = some "pl_PL.UTF-8".toList :=
  ⟨[("LC_TIME".toList, "pl_PL.UTF-8".toList)], [("LANGUAGE".toList, "pl".toList)],
    by decide, by decide +kernel, by decide +kernel, by decide +kernel, by decide +kernel⟩

/-- C37, minimality, violated: variables whose value does not change are mentioned: `LANG` always, the
job's environment settings, and those that snap applications need. -/
theorem C37_minimal_violated :
    ∃ (base : Env) (j : Job), (base.map (·.1)).Nodup ∧
      ∀ k ∈ ["LANG".toList, "HOME".toList, "SNAP_NAME".toList],
        (base.lookup k).isSome ∧ (diffEnv base j [] [] []).lookup k = base.lookup k :=
  ⟨[("LANG".toList, "C.UTF-8".toList), ("HOME".toList, "/root".toList), ("SNAP".toList, "/snap".toList),
    ("SNAP_NAME".toList, "x".toList)], { exJob with environ := ["HOME".toList] },
    by decide, by decide +kernel⟩

example : Merged [("PATH".toList, "/bin".toList), ("X".toList, "1".toList)]
    (diffEnv [("PATH".toList, "/bin".toList), ("X".toList, "1".toList)] exJob
      [("X".toList, "2".toList), ("Y".toList, "3".toList)] "/nest".toList "/data".toList) "PATH".toList =
    some "/nest:/bin".toList := by decide +kernel

example : (diffEnv [("PATH".toList, "/bin".toList), ("X".toList, "1".toList)] exJob
      [("X".toList, "2".toList), ("Y".toList, "3".toList)] "/nest".toList "/data".toList) =
    [("PATH".toList, "/nest:/bin".toList), ("LANG".toList, "C.UTF-8".toList),
     ("CHECKBOX_DATA".toList, "/data".toList), ("PLAINBOX_SESSION_SHARE".toList, "/data".toList),
     ("Y".toList, "3".toList), ("LANGUAGE".toList, []), ("LC_ALL".toList, "C.UTF-8".toList)] := by
  decide +kernel

end Verif.Ctrl
