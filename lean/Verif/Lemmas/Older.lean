import Verif.Model.Older
import Verif.Lemmas.SuspendCycle

/-!
# Helpers for the older formats of saved sessions
-/

set_option linter.unusedSectionVars false
set_option linter.unusedSimpArgs false

namespace Verif.Older

open Verif.Session
open Verif.Suspend (Fmt Doc SortOK Proc view setR readAll lookupJobs)
open Verif.DepMgr (eq_of_id resolve resolve_congr)

variable {J I E R C W : Type} [DecidableEq J] [DecidableEq I] [DecidableEq E] [DecidableEq R]
  [DecidableEq C]

/-- The document without mandatory jobs. -/
def bare (d : Doc I C W) : Doc I C W := { d with mandatory := [] }

theorem addBase_bare (f : Fmt J R C W) (sem : Sem J I E R) (d : Doc I C W) :
    ∀ (is : List I) (s : Session J I E R), Suspend.pass f sem (bare d) is s = Suspend.pass f sem d is s := by
  intro is
  induction is with
  | nil => intro s; rfl
  | cons i is ih =>
    intro s
    have : Suspend.processJob f sem (bare d) s i = Suspend.processJob f sem d s i := rfl
    simp only [Suspend.pass, this, ih]

theorem rounds_bare (f : Fmt J R C W) (sem : Sem J I E R) (d : Doc I C W) :
    ∀ (n : Nat) (is : List I) (s : Session J I E R),
      Suspend.rounds f sem (bare d) n is s = Suspend.rounds f sem d n is s := by
  intro n
  induction n with
  | zero => intro is s; cases is <;> rfl
  | succ n ih =>
    intro is s
    cases is with
    | nil => rfl
    | cons i is => simp only [Suspend.rounds, addBase_bare, ih]

theorem restoreResults_bare (f : Fmt J R C W) (sem : Sem J I E R) (sortIds : List I → List I)
    (base : List J) (d : Doc I C W) (s : Session J I E R) :
    Suspend.restoreResults f sem sortIds base (bare d) s =
      Suspend.restoreResults f sem sortIds base d s := by
  simp only [Suspend.restoreResults, addBase_bare, rounds_bare]
  rfl

/-- The older readers do what the new one does to a document without mandatory jobs. -/
theorem resumeEarly_eq (f : Fmt J R C W) (sem : Sem J I E R) {sortIds : List I → List I}
    (hsort : SortOK sortIds) (base : List J) (d : Doc I C W) :
    resumeEarly f sem sortIds base d = Suspend.resume f sem sortIds base (bare d) := by
  simp only [resumeEarly, Suspend.resume, restoreResults_bare]
  cases h0 : construct sem base with
  | error e => rfl
  | ok s0 =>
    simp only
    cases h1 : Suspend.restoreResults f sem sortIds base d s0 with
    | error e => rfl
    | ok s1 =>
      simp only
      have hp := Suspend.restoreResults_spec hsort h0 h1
      have hm : Suspend.restoreMandatory (bare d) s1 = .ok s1 := by
        simp only [Suspend.restoreMandatory, bare, lookupJobs, updateMandatory]
        obtain ⟨_, hm⟩ := hp.sel
        cases s1
        simp only at hm
        subst hm
        rfl
      rw [hm]
      rfl

/-- A document that mentions the jobs of the run list. -/
def Covers (f : Fmt J R C W) (sem : Sem J I E R) (s : Session J I E R) (d : Doc I C W) : Prop :=
  d.desired = s.desired.map sem.id ∧
  ∀ v ∈ s.runList, d.jobs.lookup (sem.id v) = some (f.cks v)

theorem lookupJobs_of {f : Fmt J R C W} (hinj : Function.Injective f.cks) {sem : Sem J I E R}
    {s s1 : Session J I E R} {d : Doc I C W} (hd : Covers f sem s d)
    (hp : Proc f sem d (fun i => i ∈ d.jobs.map Prod.fst ++ d.results.map Prod.fst) s1) :
    ∀ l : List J, (∀ v ∈ l, v ∈ s.runList) → lookupJobs s1 (l.map sem.id) = some l := by
  intro l
  induction l with
  | nil => intro _; rfl
  | cons v l ih =>
    intro h
    have hj := hd.2 v (h v (by simp))
    obtain ⟨j, p, c, hview, hc, hck, _⟩ := hp.done (sem.id v) (by
      rw [List.mem_append]; exact .inl ((Suspend.mem_keys_iff _ _).mpr ⟨_, hj⟩))
    rw [hj] at hc
    simp only [Option.some.injEq] at hc
    have hjv : j = v := hinj (hck.trans hc.symm)
    subst hjv
    simp only [view] at hview
    cases hq : s1.states.lookup (sem.id j) with
    | none => rw [hq] at hview; simp at hview
    | some q =>
      rw [hq] at hview
      simp only [Option.map_some, Option.some.injEq, Prod.mk.injEq] at hview
      simp only [List.map_cons, lookupJobs, hq, ih (fun x hx => h x (by simp [hx])), hview.1]

theorem empty_run {sem : Sem J I E R} (hwf : sem.WF) {s : Session J I E R} (hr : Reachable sem s)
    (hd : s.desired = []) : s.runList = [] := by
  have hl := hr.live hwf
  obtain ⟨hsel, _⟩ := Suspend.reachable_sel hwf hr
  rw [hd] at hsel
  have : resolve sem.graph s.runList (some []) = .ok [] := by
    unfold resolve
    obtain ⟨m, hm⟩ := DepMgr.getJobMap_of_nodup (g := sem.graph) hl.runNodup
    simp only [hm, Option.getD_some, DepMgr.solveLoop, DepMgr.initSt]
  rw [this] at hsel
  simpa using hsel.symm

/-- What an older reader leaves of the selection. -/
theorem early_sel {f : Fmt J R C W} (hinj : Function.Injective f.cks) {sem : Sem J I E R}
    (hwf : sem.WF) {sortIds : List I → List I} (hsort : SortOK sortIds) {base : List J}
    {s s' : Session J I E R} {d : Doc I C W} (hr : Reachable sem s) (hd : Covers f sem s d)
    (h : resumeEarly f sem sortIds base d = .ok s') :
    s'.runList = s.runList ∧ s'.desired = s.desired ∧ s'.mandatory = [] := by
  have hl := hr.live hwf
  rw [resumeEarly_eq f sem hsort] at h
  obtain ⟨s1, mand, des, s3, hp, hmand, hdes, h3, _, _, hb3, h4, hr'⟩ :=
    Suspend.resume_stages hsort h
  obtain ⟨_, _, e1, e2, e3⟩ := Suspend.stages_view hb3 h3 h4
  obtain ⟨hsel, hdsub⟩ := Suspend.reachable_sel hwf hr
  have hcov : Covers f sem s (bare d) := hd
  have hm' : mand = [] := by
    have : lookupJobs s1 (bare d).mandatory = some [] := rfl
    rw [this] at hmand
    simpa using hmand.symm
  have hd' : des = s.desired := by
    have := lookupJobs_of hinj hcov hp s.desired hdsub
    rw [hcov.1, this] at hdes
    simpa using hdes.symm
  subst hm' hd'
  have hsub : ∀ j ∈ s.runList, j ∈ s1.jobs := by
    intro j hj
    have h := lookupJobs_of hinj hcov hp [j] (by simpa using hj)
    obtain ⟨i, q, hq, rfl⟩ := Suspend.lookupJobs_mem _ _ h j (by simp)
    exact (hp.book.lookup_job hq).1
  have hres : resolve sem.graph s1.jobs (some ([] ++ s.desired)) = .ok s.runList :=
    resolve_congr (A := s.runList) hdsub hsel hsub hp.book.nodup
  obtain ⟨u1, u2, u3⟩ := Suspend.updateDesired_direct (s := { s1 with mandatory := [] })
    (des := s.desired) hres (fun he => empty_run hwf hr (by simpa using he))
  have h3' : s3 = (updateDesired sem { s1 with mandatory := [] } s.desired true).1 :=
    (congrArg Prod.fst h3).symm
  rw [← h3'] at u1 u2 u3
  exact ⟨e1.trans u2, e2.trans (by simpa using u1), e3.trans u3⟩

/-- Which jobs and results an older reader leaves. -/
theorem early_states {f : Fmt J R C W} {sem : Sem J I E R}
    {sortIds : List I → List I} (hsort : SortOK sortIds) {base : List J}
    {s' : Session J I E R} {d : Doc I C W}
    (h : resumeEarly f sem sortIds base d = .ok s') :
    Reachable sem s' ∧
    (∀ i c, d.jobs.lookup i = some c → ∃ j p, view s'.states i = some (j, p) ∧ f.cks j = c ∧
      ((d.results.lookup i = none ∧ p = (.empty, [])) ∨
        ∃ ws rs, d.results.lookup i = some ws ∧ readAll f ws = some rs ∧
          p = rs.foldl setR (.empty, []))) ∧
    (∀ i v, view s'.states i = some v → i ∈ s'.runList.map sem.id ∨ i ∈ d.jobs.map Prod.fst) := by
  rw [resumeEarly_eq f sem hsort] at h
  obtain ⟨s1, mand, des, s3, hp, hmand, hdes, h3, _, _, hb3, h4, hr'⟩ :=
    Suspend.resume_stages hsort h
  obtain ⟨v1, v2, e1, _⟩ := Suspend.stages_view hb3 h3 h4
  refine ⟨hr', ?_, ?_⟩
  · intro i c hc
    have hk : i ∈ d.jobs.map Prod.fst := (Suspend.mem_keys_iff _ _).mpr ⟨_, hc⟩
    obtain ⟨j, p, c', hv, hc', hck, hdone⟩ := hp.done i (List.mem_append.mpr (.inl hk))
    have : (bare d).jobs.lookup i = some c := hc
    rw [this] at hc'
    simp only [Option.some.injEq] at hc'
    exact ⟨j, p, by rw [v1 i hk]; exact hv, hck.trans hc'.symm, hdone⟩
  · intro i v hv
    rw [e1]
    by_cases hin : i ∈ s3.runList.map sem.id ++ (bare d).jobs.map Prod.fst
    · exact List.mem_append.mp hin
    · exfalso
      simp only [Session.step] at h4
      rcases trim_spec hb3 (fun j => decide (sem.id j ∉ s3.runList.map sem.id ++
          (bare d).jobs.map Prod.fst)) with ⟨h1, _⟩ | ⟨t, h1, _, _, _, _, h6, _, _⟩
      · rw [h1] at h4; simp at h4
      · rw [h1] at h4
        simp only [Prod.mk.injEq, and_true] at h4
        subst h4
        simp only [view, h6] at hv
        by_cases hc : i ∈ (s3.jobs.filter fun j => decide (sem.id j ∉ s3.runList.map sem.id ++
            (bare d).jobs.map Prod.fst)).map sem.id
        · rw [if_pos hc] at hv; simp at hv
        · rw [if_neg hc] at hv
          cases hq : s3.states.lookup i with
          | none => rw [hq] at hv; simp at hv
          | some q =>
            obtain ⟨a, b⟩ := hb3.lookup_job hq
            apply hc
            refine List.mem_map.mpr ⟨q.job, List.mem_filter.mpr ⟨a, ?_⟩, b⟩
            rw [b]
            exact decide_eq_true hin

/-- An older reader accepts a document whose jobs can be had. -/
theorem early_ok {f : Fmt J R C W} (hinj : Function.Injective f.cks) {sem : Sem J I E R}
    (hwf : sem.WF) {sortIds : List I → List I} (hsort : SortOK sortIds) {base U : List J}
    {s : Session J I E R} {d : Doc I C W} (hr : Reachable sem s) (hd : Covers f sem s d)
    (he : Suspend.Env f sem base U d) : ∃ s', resumeEarly f sem sortIds base d = .ok s' := by
  have hl := hr.live hwf
  obtain ⟨s0, s1, h0, h1⟩ := Suspend.restoreResults_in he hsort
  have hp := Suspend.restoreResults_spec hsort h0 h1
  obtain ⟨hsel, hdsub⟩ := Suspend.reachable_sel hwf hr
  have hdes := lookupJobs_of hinj hd hp s.desired hdsub
  have hmand : s1.mandatory = [] := hp.sel.2
  have hsub : ∀ j ∈ s.runList, j ∈ s1.jobs := by
    intro j hj
    have h := lookupJobs_of hinj hd hp [j] (by simpa using hj)
    obtain ⟨i, q, hq, rfl⟩ := Suspend.lookupJobs_mem _ _ h j (by simp)
    exact (hp.book.lookup_job hq).1
  have hres : resolve sem.graph s1.jobs (some s.desired) = .ok s.runList :=
    resolve_congr (A := s.runList) hdsub hsel hsub hp.book.nodup
  have hbad : ∀ j ∈ s.runList, sem.prog j ≠ .bad := by
    intro j hj hc
    obtain ⟨q, hq, _⟩ := hl.book.lookup_some (hl.runSub j hj)
    have := (hl.fresh _ q hq).2 j hj rfl
    simp [inhibitorList, resourcePart, hc] at this
  have hrec : ∀ d, (recompute sem { s1 with desired := d, runList := s.runList }).2 = none := by
    intro d
    exact recompute_total hwf ⟨hp.book.nodup, hp.book.states, hp.book.res⟩ hsub hl.runNodup
      hl.order hbad
  have hnone : (updateDesired sem s1 s.desired true).2.2 = none := by
    unfold updateDesired
    simp only [if_true, hmand, List.nil_append]
    simp only [repairLoop]
    by_cases hd : s.desired = []
    · rw [if_pos hd]
      have := hrec []
      rw [empty_run hwf hr hd] at this
      exact this
    · rw [if_neg hd, hres]
      exact hrec s.desired
  have h3 : Suspend.restoreDesired sem d s1 = .ok (updateDesired sem s1 s.desired true).1 := by
    simp only [Suspend.restoreDesired, hd.1, hdes, hnone]
  have hb3 : Book sem (updateDesired sem s1 s.desired true).1 := Book.updateDesired hp.book _ _
  generalize (updateDesired sem s1 s.desired true).1 = s3 at h3 hb3
  rcases trim_spec hb3 (fun j => decide (sem.id j ∉ s3.runList.map sem.id ++
    d.jobs.map Prod.fst)) with ⟨_, j, _, hj, hjr⟩ | ⟨t, ht, _⟩
  · exfalso
    simp only [decide_eq_true_eq, List.mem_append, not_or] at hj
    exact hj.1 hjr
  · exact ⟨t, by simp only [resumeEarly, h0, h1, h3, Suspend.restoreJobList, ht]⟩

/-! ## The documents -/

theorem early_jobs {f : Fmt J R C W} {sem : Sem J I E R} {s : Session J I E R} (hb : Book sem s)
    (i : I) : (suspendEarly f sem s).jobs.lookup i =
      (s.states.lookup i).map fun q => f.cks q.job := by
  have hnd : (s.states.map Prod.fst).Nodup := by rw [hb.keys]; exact hb.nodup
  have h1 : (suspendEarly f sem s).jobs =
      (s.states.filter fun _ => true).map fun p => (p.1, f.cks p.2.job) := by
    rw [List.filter_true]
    apply List.map_congr_left
    intro p hp
    rw [Suspend.book_ids hb p hp]
  rw [h1, Suspend.lookup_filter_map s.states hnd _ (fun q => f.cks q.job) i]
  cases s.states.lookup i <;> simp

theorem early_results {f : Fmt J R C W} {sem : Sem J I E R} {s : Session J I E R} (hb : Book sem s)
    (i : I) : (suspendEarly f sem s).results.lookup i =
      (s.states.lookup i).map fun q => [f.write q.result] := by
  have hnd : (s.states.map Prod.fst).Nodup := by rw [hb.keys]; exact hb.nodup
  have h1 : (suspendEarly f sem s).results =
      (s.states.filter fun _ => true).map fun p => (p.1, [f.write p.2.result]) := by
    rw [List.filter_true]
    apply List.map_congr_left
    intro p hp
    rw [Suspend.book_ids hb p hp]
  rw [h1, Suspend.lookup_filter_map s.states hnd _ (fun q => [f.write q.result]) i]
  cases s.states.lookup i <;> simp

theorem early_covers {f : Fmt J R C W} {sem : Sem J I E R} {s : Session J I E R}
    (hl : Live sem s) : Covers f sem s (suspendEarly f sem s) := by
  refine ⟨rfl, ?_⟩
  intro v hv
  obtain ⟨q, hq, hqv⟩ := hl.book.lookup_some (hl.runSub v hv)
  rw [early_jobs hl.book, hq, Option.map_some, hqv]

theorem middle_eq (f : Fmt J R C W) (sem : Sem J I E R) (s : Session J I E R) :
    suspendMiddle f sem s = Suspend.suspend f sem s := rfl

theorem middle_covers {f : Fmt J R C W} {sem : Sem J I E R} {s : Session J I E R}
    (hl : Live sem s) : Covers f sem s (suspendMiddle f sem s) := by
  refine ⟨rfl, ?_⟩
  intro v hv
  obtain ⟨q, hq, hqv⟩ := hl.book.lookup_some (hl.runSub v hv)
  have hrun : sem.id v ∈ s.runList.map sem.id := List.mem_map.mpr ⟨v, hv, rfl⟩
  rw [middle_eq, Suspend.suspend_jobs hl.book, hq]
  simp only [hrun, decide_true, Bool.or_true, if_true, hqv]

end Verif.Older
