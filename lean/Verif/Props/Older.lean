import Verif.Lemmas.Older
import Verif.Props.Suspend

/-!
# C118: sessions saved in an older format
-/

set_option linter.unusedSectionVars false
set_option linter.unusedSimpArgs false

namespace Verif.Older

open Verif.Session
open Verif.Suspend (Fmt Doc SortOK Proc view setR readAll lookupJobs ReachableReal Readable
  Resumable exFmt exBase susFinal susFinal_real susFinal_read susFinal_resumable dedup_sort genOf
  withFamily susOps x8 x100)

variable {J I E R C W : Type} [DecidableEq J] [DecidableEq I] [DecidableEq E] [DecidableEq R]
  [DecidableEq C]

/-! ## The formats -/

/-- **C118**, the formats: the formats that can be written are 1 to 6, and a file of any other
version is refused as incompatible whatever else it holds. -/
theorem C118_formats (f : Fmt J R C W) (sem : Sem J I E R) (sortIds : List I → List I)
    (base : List J) :
    (∀ n s, (∃ file, suspendAs f sem n s = some file) ↔ 1 ≤ n ∧ n ≤ 6) ∧
    (∀ n s file, suspendAs f sem n s = some file → file.1 = n) ∧
    (∀ file, (∃ n, resumeAny f sem sortIds base file = .unsupported n) ↔ ¬ (1 ≤ file.1 ∧ file.1 ≤ 6)) ∧
    (∀ file n, resumeAny f sem sortIds base file = .unsupported n → n = file.1) := by
  have hcase : ∀ n : Nat, (1 ≤ n ∧ n ≤ 6) ↔
      n = 1 ∨ n = 2 ∨ n = 3 ∨ n = 4 ∨ n = 5 ∨ n = 6 := by intro n; omega
  have hres : ∀ file n, resumeAny f sem sortIds base file = .unsupported n →
      ¬ (1 ≤ file.1 ∧ file.1 ≤ 6) ∧ n = file.1 := by
    intro file n h
    rw [hcase]
    obtain ⟨v, d⟩ := file
    have hd : ∀ x : Except (Suspend.Err J I) (Session J I E R),
        (match x with
          | .error e => Outcome.failed e
          | .ok s => Outcome.session s) ≠ (Outcome.unsupported n : Outcome J I E R) := by
      intro x; cases x <;> simp
    simp only [resumeAny] at h ⊢
    by_cases h1 : v = 1
    · rw [if_pos h1] at h; exact absurd h (hd _)
    rw [if_neg h1] at h
    by_cases h2 : v = 2
    · rw [if_pos h2] at h; exact absurd h (hd _)
    rw [if_neg h2] at h
    by_cases h3 : v = 3
    · rw [if_pos h3] at h; exact absurd h (hd _)
    rw [if_neg h3] at h
    by_cases h4 : v = 4
    · rw [if_pos h4] at h; exact absurd h (hd _)
    rw [if_neg h4] at h
    by_cases h5 : v = 5
    · rw [if_pos h5] at h; exact absurd h (hd _)
    rw [if_neg h5] at h
    by_cases h6 : v = 6
    · rw [if_pos h6] at h; exact absurd h (hd _)
    rw [if_neg h6] at h
    simp only [Outcome.unsupported.injEq] at h
    exact ⟨by simp [h1, h2, h3, h4, h5, h6], h.symm⟩
  refine ⟨?_, ?_, ?_, fun file n h => (hres file n h).2⟩
  · intro n s
    rw [hcase]
    unfold suspendAs
    constructor
    · rintro ⟨file, h⟩
      split at h
      · omega
      · split at h
        · omega
        · split at h
          · omega
          · simp at h
    · intro h
      split
      · exact ⟨_, rfl⟩
      · split
        · exact ⟨_, rfl⟩
        · split
          · exact ⟨_, rfl⟩
          · omega
  · intro n s file h
    unfold suspendAs at h
    split at h
    · simp only [Option.some.injEq] at h; rw [← h]
    · split at h
      · simp only [Option.some.injEq] at h; rw [← h]
      · split at h
        · simp only [Option.some.injEq] at h; rw [← h]
        · simp at h
  · intro file
    constructor
    · rintro ⟨n, h⟩; exact (hres file n h).1
    · intro h
      rw [hcase] at h
      simp only [not_or] at h
      obtain ⟨h1, h2, h3, h4, h5, h6⟩ := h
      exact ⟨file.1, by simp only [resumeAny, if_neg h1, if_neg h2, if_neg h3, if_neg h4, if_neg h5,
        if_neg h6]⟩

theorem file_early {f : Fmt J R C W} {sem : Sem J I E R} {n : Nat} (hn : 1 ≤ n ∧ n ≤ 3)
    {s : Session J I E R} {file : Nat × Doc I C W} (h : suspendAs f sem n s = some file) :
    file = (n, suspendEarly f sem s) := by
  unfold suspendAs at h
  rw [if_pos (by omega)] at h
  simpa using h.symm

theorem file_middle {f : Fmt J R C W} {sem : Sem J I E R} {n : Nat} (hn : 4 ≤ n ∧ n ≤ 5)
    {s : Session J I E R} {file : Nat × Doc I C W} (h : suspendAs f sem n s = some file) :
    file = (n, suspendMiddle f sem s) := by
  unfold suspendAs at h
  rw [if_neg (by omega), if_pos (by omega)] at h
  simpa using h.symm

theorem resumeAny_early {f : Fmt J R C W} {sem : Sem J I E R} {sortIds : List I → List I}
    {base : List J} {n : Nat} (hn : 1 ≤ n ∧ n ≤ 5) (d : Doc I C W) (s' : Session J I E R) :
    resumeAny f sem sortIds base (n, d) = .session s' ↔
      resumeEarly f sem sortIds base d = .ok s' := by
  have hd : ∀ x : Except (Suspend.Err J I) (Session J I E R),
      (match x with
        | .error e => Outcome.failed e
        | .ok s => Outcome.session s) = (Outcome.session s' : Outcome J I E R) ↔ x = .ok s' := by
    intro x; cases x <;> simp
  have hc : n = 1 ∨ n = 2 ∨ n = 3 ∨ n = 4 ∨ n = 5 := by omega
  rcases hc with rfl | rfl | rfl | rfl | rfl <;> exact hd _

/-! ## The selection -/

/-- **C118**, the selection: a session saved in any of the formats 1 to 5 that can be resumed comes
back with the same run list and the same desired jobs, in the same order.  Missing: the mandatory
jobs.  They are in the file but the readers of these formats do not take them
(`C118_mandatory_violated`). -/
theorem C118_selection_partial {f : Fmt J R C W} (hinj : Function.Injective f.cks)
    {sem : Sem J I E R} (hwf : sem.WF) {sortIds : List I → List I} (hsort : SortOK sortIds)
    {base : List J} {n : Nat} (hn : 1 ≤ n ∧ n ≤ 5) {s s' : Session J I E R} (hr : Reachable sem s)
    {file : Nat × Doc I C W} (hf : suspendAs f sem n s = some file)
    (h : resumeAny f sem sortIds base file = .session s') :
    s'.runList = s.runList ∧ s'.desired = s.desired ∧ s'.mandatory = [] := by
  by_cases h3 : n ≤ 3
  · rw [file_early ⟨hn.1, h3⟩ hf, resumeAny_early hn] at h
    exact early_sel hinj hwf hsort hr (early_covers (hr.live hwf)) h
  · rw [file_middle ⟨by omega, hn.2⟩ hf, resumeAny_early hn] at h
    exact early_sel hinj hwf hsort hr (middle_covers (hr.live hwf)) h

/-- **C118**, the newest format keeps the mandatory jobs: a session whose desired jobs start with the
mandatory ones, saved in format 6 and resumed, has the same run list and the same mandatory jobs. -/
theorem C118_newest {f : Fmt J R C W} (hinj : Function.Injective f.cks)
    {sem : Sem J I E R} (hwf : sem.WF) {sortIds : List I → List I} (hsort : SortOK sortIds)
    {base : List J} {s s' : Session J I E R} (hr : Reachable sem s)
    (hm : s.mandatory <+: s.desired) {file : Nat × Doc I C W} (hf : suspendAs f sem 6 s = some file)
    (h : resumeAny f sem sortIds base file = .session s') :
    s'.runList = s.runList ∧ s'.mandatory = s.mandatory ∧ (∀ v, v ∈ s'.desired ↔ v ∈ s.desired) := by
  have e : file = (6, Suspend.suspend f sem s) := by
    unfold suspendAs at hf
    rw [if_neg (by omega), if_neg (by omega), if_pos rfl] at hf
    simpa using hf.symm
  subst e
  have h1 : Suspend.resume f sem sortIds base (Suspend.suspend f sem s) = .ok s' := by
    unfold resumeAny at h
    dsimp only at h
    rw [if_neg (by omega), if_neg (by omega), if_neg (by omega), if_neg (by omega),
      if_neg (by omega), if_pos rfl] at h
    cases hx : Suspend.resume f sem sortIds base (Suspend.suspend f sem s) with
    | error e => rw [hx] at h; exact absurd h (by simp)
    | ok x =>
      rw [hx] at h
      injection h with h
      rw [h]
  have hc : Suspend.cycles f sem sortIds base 1 s = .ok s' := by
    rw [Suspend.cycles, h1]
    rfl
  obtain ⟨a, b, -, d⟩ := Suspend.C20_selection_partial hinj hwf hsort hr hm 1 hc
  exact ⟨a, b, d⟩

/-! ## Results in formats 1 to 3 -/

/-- **C118**, results in formats 1 to 3: whatever was reported to the session, one saved and resumed
has exactly the same jobs, each with its last result, even a hollow one.  Of the history only the
last result is left, and nothing if that is hollow.  Missing: the rest of the history
(`C118_history_violated`). -/
theorem C118_early_partial {f : Fmt J R C W} (hinj : Function.Injective f.cks)
    {sem : Sem J I E R} (hwf : sem.WF) {sortIds : List I → List I} (hsort : SortOK sortIds)
    {base : List J} {n : Nat} (hn : 1 ≤ n ∧ n ≤ 3) {s s' : Session J I E R} (hr : Reachable sem s)
    (hread : ∀ i q, s.states.lookup i = some q → f.read (f.write q.result) = some q.result)
    {file : Nat × Doc I C W} (hf : suspendAs f sem n s = some file)
    (h : resumeAny f sem sortIds base file = .session s') :
    (∀ i q, s.states.lookup i = some q → ∃ q', s'.states.lookup i = some q' ∧ q'.job = q.job ∧
      q'.result = q.result ∧
      q'.history = if q.result.isHollow then [] else [q.result]) ∧
    (∀ i q', s'.states.lookup i = some q' → ∃ q, s.states.lookup i = some q) := by
  have hl := hr.live hwf
  rw [file_early hn hf, resumeAny_early ⟨hn.1, by omega⟩] at h
  obtain ⟨_, a, b⟩ := early_states hsort h
  obtain ⟨e1, _, _⟩ := early_sel hinj hwf hsort hr (early_covers hl) h
  constructor
  · intro i q hq
    obtain ⟨j, p, hv, hck, hp⟩ := a i (f.cks q.job) (by rw [early_jobs hl.book, hq]; rfl)
    have hj : j = q.job := hinj hck
    subst hj
    have hp' : p = setR (.empty, []) q.result := by
      rcases hp with ⟨hn, _⟩ | ⟨ws, rs, hws, hrs, hp⟩
      · rw [early_results hl.book, hq] at hn; simp at hn
      · rw [early_results hl.book, hq] at hws
        simp only [Option.map_some, Option.some.injEq] at hws
        subst hws
        simp only [readAll, hread i q hq, Option.some.injEq] at hrs
        subst hrs
        exact hp
    simp only [view] at hv
    cases hq' : s'.states.lookup i with
    | none => rw [hq'] at hv; simp at hv
    | some q' =>
      rw [hq'] at hv
      simp only [Option.map_some, Option.some.injEq, Prod.mk.injEq] at hv
      obtain ⟨h1, h2⟩ := hv
      rw [hp'] at h2
      refine ⟨q', rfl, h1, ?_⟩
      unfold setR at h2
      simp only at h2
      by_cases hemp : q.result = .empty
      · rw [if_pos hemp] at h2
        simp only [Prod.mk.injEq] at h2
        rw [hemp]
        exact ⟨h2.1, by rw [h2.2]; rfl⟩
      · rw [if_neg hemp] at h2
        simp only [Prod.mk.injEq, List.nil_append] at h2
        exact h2
  · intro i q' hq'
    rcases b i (q'.job, q'.result, q'.history) (by simp [view, hq']) with hi | hi
    · rw [e1] at hi
      obtain ⟨v, hv, rfl⟩ := List.mem_map.mp hi
      obtain ⟨q, hq, _⟩ := hl.book.lookup_some (hl.runSub v hv)
      exact ⟨q, hq⟩
    · obtain ⟨c, hc⟩ := (Suspend.mem_keys_iff _ _).mp hi
      rw [early_jobs hl.book] at hc
      cases hq : s.states.lookup i with
      | none => rw [hq] at hc; simp at hc
      | some q => exact ⟨q, rfl⟩

/-! ## Results in formats 4 and 5 -/

/-- Without the mandatory jobs. -/
theorem no_mandatory {sem : Sem J I E R} {s : Session J I E R} (hr : Reachable sem s) :
    Reachable sem { s with mandatory := [] } :=
  .step (op := .mandatory []) hr trivial rfl

/-- **C118**, results in formats 4 and 5: if no hollow result was reported, a session saved and
resumed has every job that has a result or is on the run list, with its last result and its whole
history, and no other job. -/
theorem C118_middle_partial {f : Fmt J R C W} (hinj : Function.Injective f.cks)
    {sem : Sem J I E R} (hwf : sem.WF) {sortIds : List I → List I} (hsort : SortOK sortIds)
    {base : List J} {n : Nat} (hn : 4 ≤ n ∧ n ≤ 5) {s s' : Session J I E R}
    (hr : ReachableReal sem s) (hread : Readable f s)
    {file : Nat × Doc I C W} (hf : suspendAs f sem n s = some file)
    (h : resumeAny f sem sortIds base file = .session s') :
    (∀ i q, s.states.lookup i = some q → (q.history ≠ [] ∨ q.job ∈ s.runList) →
      ∃ q', s'.states.lookup i = some q' ∧ q'.job = q.job ∧ q'.result = q.result ∧
        q'.history = q.history) ∧
    (∀ i q', s'.states.lookup i = some q' →
      ∃ q, s.states.lookup i = some q ∧ (q.history ≠ [] ∨ q.job ∈ s.runList)) := by
  have hl := hr.reachable.live hwf
  have hhist := (Suspend.histOK_iff s).mp (hr.hist hwf)
  rw [file_middle hn hf, resumeAny_early ⟨by omega, hn.2⟩] at h
  obtain ⟨_, a, b⟩ := early_states hsort h
  obtain ⟨e1, _, _⟩ := early_sel hinj hwf hsort hr.reachable (middle_covers hl) h
  have hkey : ∀ i q, s.states.lookup i = some q →
      ((suspendMiddle f sem s).jobs.lookup i = some (f.cks q.job) ↔
        (q.history ≠ [] ∨ q.job ∈ s.runList)) := by
    intro i q hq
    rw [middle_eq, Suspend.suspend_jobs hl.book, hq]
    simp only
    have hrun : i ∈ s.runList.map sem.id ↔ q.job ∈ s.runList := by
      obtain ⟨x, y⟩ := hl.book.lookup_job hq
      constructor
      · intro hm
        obtain ⟨j, hj, hji⟩ := List.mem_map.mp hm
        rw [DepMgr.eq_of_id (g := sem.graph) hl.book.nodup x (hl.runSub j hj) (y.trans hji.symm)]
        exact hj
      · intro hm
        exact List.mem_map.mpr ⟨q.job, hm, y⟩
    rw [Suspend.hist_nonhollow (hhist i q hq), ← hrun]
    cases q.result.isHollow <;> by_cases hm : i ∈ s.runList.map sem.id <;> simp [hm]
  have hres : ∀ i q, s.states.lookup i = some q → (suspendMiddle f sem s).results.lookup i =
      if 0 < q.history.length then some (q.history.map f.write) else none := by
    intro i q hq
    rw [middle_eq, Suspend.suspend_results hl.book, hq]
  constructor
  · intro i q hq hcase
    obtain ⟨j, p, hv, hck, hp⟩ := a i (f.cks q.job) ((hkey i q hq).mpr hcase)
    have hj : j = q.job := hinj hck
    subst hj
    have hp' : p = (q.result, q.history) := by
      obtain ⟨h1, h2⟩ := hhist i q hq
      rcases hp with ⟨hn, hp⟩ | ⟨ws, rs, hws, hrs, hp⟩
      · rw [hres i q hq] at hn
        split at hn
        · simp at hn
        · rename_i hlen
          have : q.history = [] := by
            cases hh : q.history with
            | nil => rfl
            | cons x xs => rw [hh] at hlen; simp at hlen
          rw [this] at h2 ⊢
          rw [hp, h2]; rfl
      · rw [hres i q hq] at hws
        split at hws
        · simp only [Option.some.injEq] at hws
          subst hws
          rw [Suspend.readAll_write _ (hread i q hq)] at hrs
          simp only [Option.some.injEq] at hrs
          subst hrs
          rw [Suspend.foldl_alt _ _ _ h1] at hp
          rw [hp, h2]; simp
        · simp at hws
    simp only [view] at hv
    cases hq' : s'.states.lookup i with
    | none => rw [hq'] at hv; simp at hv
    | some q' =>
      rw [hq'] at hv
      simp only [Option.map_some, Option.some.injEq, Prod.mk.injEq] at hv
      obtain ⟨h1, h2⟩ := hv
      rw [hp'] at h2
      simp only [Prod.mk.injEq] at h2
      exact ⟨q', rfl, h1, h2⟩
  · intro i q' hq'
    rcases b i (q'.job, q'.result, q'.history) (by simp [view, hq']) with hi | hi
    · rw [e1] at hi
      obtain ⟨v, hv, rfl⟩ := List.mem_map.mp hi
      obtain ⟨q, hq, hqv⟩ := hl.book.lookup_some (hl.runSub v hv)
      exact ⟨q, hq, .inr (by rw [hqv]; exact hv)⟩
    · obtain ⟨c, hc⟩ := (Suspend.mem_keys_iff _ _).mp hi
      cases hq : s.states.lookup i with
      | none => rw [middle_eq, Suspend.suspend_jobs hl.book, hq] at hc; simp at hc
      | some q =>
        refine ⟨q, rfl, (hkey i q hq).mp ?_⟩
        have hc0 := hc
        rw [middle_eq, Suspend.suspend_jobs hl.book, hq] at hc
        simp only at hc
        split at hc
        · simp only [Option.some.injEq] at hc
          rw [hc0, hc]
        · simp at hc

/-! ## Resuming succeeds -/

/-- Jobs that can be had again from the last result of jobs: the given jobs, their siblings, and what
templates make from the last results of such jobs. -/
inductive FromLast (sem : Sem J I E R) (base : List J) (s : Session J I E R) : J → Prop where
  | base {k} : k ∈ withFamily sem base → FromLast sem base s k
  | gen {j q k} : FromLast sem base s j → s.states.lookup (sem.id j) = some q → q.job = j →
      k ∈ withFamily sem (genOf sem j q.result) → FromLast sem base s k

/-- The session fits the jobs given to resume: no two different jobs share an id (`U` lists all jobs
that can occur), and all its jobs are among them or come from them by last results. -/
structure Fits (sem : Sem J I E R) (base U : List J) (s : Session J I E R) : Prop where
  uniq : (U.map sem.id).Nodup
  baseSub : ∀ j ∈ base, j ∈ U
  fam : ∀ j ∈ U, ∀ k ∈ sem.family j, k ∈ U
  known : ∀ i q, s.states.lookup i = some q → q.job ∈ U ∧ ∀ k ∈ genOf sem q.job q.result, k ∈ U
  had : ∀ i q, s.states.lookup i = some q → FromLast sem base s q.job

/-- **C118**: resuming a file of format 1 to 3 succeeds if the results can be read back and every job
of the session is among the jobs given to resume or comes from them. -/
theorem C118_early_succeeds {f : Fmt J R C W} (hinj : Function.Injective f.cks)
    {sem : Sem J I E R} (hwf : sem.WF) {sortIds : List I → List I} (hsort : SortOK sortIds)
    {base U : List J} {n : Nat} (hn : 1 ≤ n ∧ n ≤ 3) {s : Session J I E R} (hr : Reachable sem s)
    (hread : ∀ i q, s.states.lookup i = some q → f.read (f.write q.result) = some q.result)
    (hfit : Fits sem base U s) {file : Nat × Doc I C W} (hf : suspendAs f sem n s = some file) :
    ∃ s', resumeAny f sem sortIds base file = .session s' := by
  have hl := hr.live hwf
  have henv : Suspend.Env f sem base U (suspendEarly f sem s) := by
    have hprod : ∀ j, FromLast sem base s j → Suspend.DProd f sem base (suspendEarly f sem s) j := by
      intro j hj
      induction hj with
      | base hk => exact .base hk
      | @gen j q k _ hq hjq hk ih =>
        refine .gen ih (ws := [f.write q.result]) (rs := [q.result]) ?_ ?_ (by simp) hk
        · rw [early_results hl.book, hq]; rfl
        · simp only [readAll, hread _ q hq]
    refine ⟨hfit.uniq, hfit.baseSub, hfit.fam, ?_⟩
    intro i hi
    have hq : ∃ q, s.states.lookup i = some q := by
      rcases List.mem_append.mp hi with hi | hi
      · obtain ⟨c, hc⟩ := (Suspend.mem_keys_iff _ _).mp hi
        rw [early_jobs hl.book] at hc
        cases hq : s.states.lookup i with
        | none => rw [hq] at hc; simp at hc
        | some q => exact ⟨q, rfl⟩
      · obtain ⟨c, hc⟩ := (Suspend.mem_keys_iff _ _).mp hi
        rw [early_results hl.book] at hc
        cases hq : s.states.lookup i with
        | none => rw [hq] at hc; simp at hc
        | some q => exact ⟨q, rfl⟩
    obtain ⟨q, hq⟩ := hq
    refine ⟨q.job, (hfit.known i q hq).1, (hl.book.lookup_job hq).2,
      by rw [early_jobs hl.book, hq]; rfl, hprod _ (hfit.had i q hq), ?_⟩
    intro ws hws
    rw [early_results hl.book, hq] at hws
    simp only [Option.map_some, Option.some.injEq] at hws
    subst hws
    refine ⟨[q.result], by simp only [readAll, hread i q hq], ?_⟩
    intro r hrm
    rw [List.mem_singleton.mp hrm]
    exact (hfit.known i q hq).2
  obtain ⟨s', h⟩ := early_ok hinj hwf hsort hr (early_covers hl) henv
  exact ⟨s', by rw [file_early hn hf, resumeAny_early ⟨hn.1, by omega⟩]; exact h⟩

/-- **C118**: resuming a file of format 4 or 5 succeeds under the conditions under which resuming one
of format 6 does. -/
theorem C118_middle_succeeds {f : Fmt J R C W} (hinj : Function.Injective f.cks)
    {sem : Sem J I E R} (hwf : sem.WF) {sortIds : List I → List I} (hsort : SortOK sortIds)
    {base U : List J} {n : Nat} (hn : 4 ≤ n ∧ n ≤ 5) {s : Session J I E R}
    (hr : ReachableReal sem s) (hread : Readable f s) (hR : Resumable sem base U s)
    {file : Nat × Doc I C W} (hf : suspendAs f sem n s = some file) :
    ∃ s', resumeAny f sem sortIds base file = .session s' := by
  have hl := hr.reachable.live hwf
  obtain ⟨s', h⟩ := early_ok hinj hwf hsort hr.reachable (middle_covers hl)
    (hR.env hl.book hl.runSub hread (hr.hist hwf))
  exact ⟨s', by rw [file_middle hn hf, resumeAny_early ⟨by omega, hn.2⟩]; exact h⟩

/-! ## Examples and violations -/

/-- A session after some calls, saved in a format and resumed with the same jobs. -/
def later (n : Nat) (ops : List (Op XJob Nat Nat)) : Option (Session XJob Nat (Nat × Nat) Nat) :=
  (suspendAs exFmt exSem n (runOps exSem emptySession ops).1).bind fun file =>
    match resumeAny exFmt exSem List.dedup exBase file with
    | .session s => some s
    | _ => none

/-- Formats 4 and 5: the session of `Verif/Props/Suspend.lean` comes back with the job that ran
twice. -/
example (n : Nat) (hn : 4 ≤ n ∧ n ≤ 5) : ∃ file s', suspendAs exFmt exSem n susFinal = some file ∧
    resumeAny exFmt exSem List.dedup exBase file = .session s' ∧
    s'.runList = [x3, x1, x2, x4, x100] ∧
    ∃ q, s'.states.lookup 3 = some q ∧ q.history = [⟨.fail, [], 1⟩, ⟨.pass, [], 2⟩] := by
  have hinj : Function.Injective exFmt.cks := fun _ _ h => h
  obtain ⟨file, hf⟩ := ((C118_formats exFmt exSem List.dedup exBase).1 n susFinal).mpr ⟨by omega, by omega⟩
  obtain ⟨s', h⟩ := C118_middle_succeeds hinj exSem_wf dedup_sort hn susFinal_real susFinal_read
    susFinal_resumable hf
  refine ⟨file, s', hf, h, ?_, ?_⟩
  · rw [(C118_selection_partial hinj exSem_wf dedup_sort ⟨by omega, hn.2⟩ susFinal_real.reachable hf
      h).1]
    decide
  · obtain ⟨q', a, _, _, c⟩ := (C118_middle_partial hinj exSem_wf dedup_sort hn susFinal_real
      susFinal_read hf h).1 3 ⟨x3, [], ⟨.pass, [], 2⟩, [⟨.fail, [], 1⟩, ⟨.pass, [], 2⟩], 3⟩
      (by decide) (.inl (by decide))
    exact ⟨q', a, c⟩

theorem susFinal_fits : Fits exSem exBase (exBase ++ [x8, x100]) susFinal := by
  have hmem : ∀ p ∈ susFinal.states, (p.2.job ∈ exBase ∨ p.2.job = x8 ∨ p.2.job = x100) ∧
      p.2.job ∈ exBase ++ [x8, x100] ∧
      ∀ k ∈ genOf exSem p.2.job p.2.result, k ∈ exBase ++ [x8, x100] := by decide
  have h1 : FromLast exSem exBase susFinal x1 := .base (by decide)
  refine ⟨by decide, by decide, by decide, ?_, ?_⟩
  · intro i q hq
    exact (hmem _ (lookup_mem hq)).2
  · intro i q hq
    rcases (hmem _ (lookup_mem hq)).1 with h | h | h
    · exact .base (List.mem_flatMap.mpr ⟨_, h, by simp⟩)
    · simp only at h; rw [h]; exact .base (by decide)
    · simp only at h
      rw [h]
      exact .gen h1 (q := ⟨x1, [], ⟨.pass, [5, 100], 0⟩, [⟨.pass, [5, 100], 0⟩], 3⟩)
        (by decide) rfl (by decide)

/-- Formats 1 to 3: the same session comes back with the last result of that job. -/
example (n : Nat) (hn : 1 ≤ n ∧ n ≤ 3) : ∃ file s', suspendAs exFmt exSem n susFinal = some file ∧
    resumeAny exFmt exSem List.dedup exBase file = .session s' ∧
    s'.runList = [x3, x1, x2, x4, x100] ∧
    ∃ q, s'.states.lookup 3 = some q ∧ q.result = ⟨.pass, [], 2⟩ ∧ q.history = [⟨.pass, [], 2⟩] := by
  have hinj : Function.Injective exFmt.cks := fun _ _ h => h
  have hread : ∀ i q, susFinal.states.lookup i = some q →
      exFmt.read (exFmt.write q.result) = some q.result := fun _ _ _ => rfl
  obtain ⟨file, hf⟩ := ((C118_formats exFmt exSem List.dedup exBase).1 n susFinal).mpr ⟨by omega, by omega⟩
  obtain ⟨s', h⟩ := C118_early_succeeds hinj exSem_wf dedup_sort hn susFinal_real.reachable hread
    susFinal_fits hf
  refine ⟨file, s', hf, h, ?_, ?_⟩
  · rw [(C118_selection_partial hinj exSem_wf dedup_sort ⟨hn.1, by omega⟩ susFinal_real.reachable hf
      h).1]
    decide
  · obtain ⟨q', a, _, b, c⟩ := (C118_early_partial hinj exSem_wf dedup_sort hn
      susFinal_real.reachable hread hf h).1 3
      ⟨x3, [], ⟨.pass, [], 2⟩, [⟨.fail, [], 1⟩, ⟨.pass, [], 2⟩], 3⟩ (by decide)
    exact ⟨q', a, b, c⟩

/-- Unlike format 6 (`C19_result_violated`), formats 1 to 3 keep a hollow last result. -/
example : (later 3 [.add x3, .desired [x3] true, .result x3 ⟨.fail, [], 0⟩,
    .result x3 .empty]).bind (fun s => (s.states.lookup 3).map fun q => (q.result, q.history)) =
    some (.empty, []) := by decide

/-- **C118 is violated** for mandatory jobs: they are in a file of format 1 to 5, yet after resuming
it the session has none, so that choosing other jobs drops them; with format 6 they stay. -/
theorem C118_mandatory_violated :
    let ops : List (Op XJob Nat Nat) := [.add x3, .add x7, .mandatory [x3], .desired [x7] true]
    (runOps exSem emptySession (ops ++ [.desired [x7] true])).1.runList = [x3, x7] ∧
    (∀ n ∈ [1, 2, 3, 4, 5],
      ((suspendAs exFmt exSem n (runOps exSem emptySession ops).1).map (·.2.mandatory)) = some [3] ∧
      (later n ops).map (·.mandatory) = some [] ∧
      (later n ops).map (fun s => (step exSem s (.desired [x7] true)).1.runList) = some [x7]) ∧
    (later 6 ops).map (fun s => (step exSem s (.desired [x7] true)).1.runList) = some [x3, x7] := by
  decide

example : (runOps exSem emptySession [.add x3, .add x7, .mandatory [x3], .desired [x7] true]).1.desired =
      [x3, x7] ∧
    (later 6 [.add x3, .add x7, .mandatory [x3], .desired [x7] true]).map (·.mandatory) = some [x3] := by
  decide

/-- **C118 is violated** for histories: a file of format 1 to 3 has one result per job. -/
theorem C118_history_violated :
    let ops : List (Op XJob Nat Nat) :=
      [.add x3, .desired [x3] true, .result x3 ⟨.fail, [], 0⟩, .result x3 ⟨.pass, [], 1⟩]
    ((runOps exSem emptySession ops).1.states.lookup 3).map (·.history.length) = some 2 ∧
    (∀ n ∈ [1, 2, 3], (later n ops).bind (fun s => (s.states.lookup 3).map (·.history.length)) =
      some 1) ∧
    (∀ n ∈ [4, 5, 6], (later n ops).bind (fun s => (s.states.lookup 3).map (·.history.length)) =
      some 2) := by decide

end Verif.Older
