import Verif.Lemmas.SessionInv

/-!
# Properties C04, C05, C06, C08, C09, C10 of the session state
-/

set_option linter.unusedSectionVars false
set_option linter.unusedSimpArgs false
set_option linter.unnecessarySeqFocus false

namespace Verif.Session

open Verif.DepMgr (Graph DepType DepsFirst Reach eq_of_id)
open Verif.Resource (ExprSem ProgOutcome evaluateOrRaise Holds Available)

variable {J I E R : Type} [DecidableEq J] [DecidableEq I] [DecidableEq E] [DecidableEq R]

/-! ## Histories -/

/-- Calls are made with jobs of the session: a job that carries the id of a listed job *is* that
job.  (Otherwise the dependency solver fails an assertion, see `foreign_visit_assertion`.) -/
def OpOK (sem : Sem J I E R) (s : Session J I E R) : Op J I R → Prop
  | .desired l b => ∀ v ∈ (if b then s.mandatory else []) ++ l,
      sem.id v ∈ s.jobs.map sem.id → v ∈ s.jobs
  | .result j _ => sem.id j ∈ s.jobs.map sem.id → j ∈ s.jobs
  | _ => True

/-- Sessions reached by calls that all return normally. -/
inductive Reachable (sem : Sem J I E R) : Session J I E R → Prop where
  | start {units s} : construct sem units = .ok s → Reachable sem s
  | step {s op s'} : Reachable sem s → OpOK sem s op → step sem s op = (s', none) →
      Reachable sem s'

/-- Sessions reached by any calls at all, including calls that raise. -/
inductive AnyReachable (sem : Sem J I E R) : Session J I E R → Prop where
  | start {units s} : construct sem units = .ok s → AnyReachable sem s
  | step {s} (op) : AnyReachable sem s → AnyReachable sem (step sem s op).1

theorem dedupLoop_nodup {sem : Sem J I E R} : ∀ (n : Nat) (l r : List J),
    dedupLoop sem n l = .ok r → (r.map sem.id).Nodup := by
  intro n
  induction n with
  | zero => intro l r h; simp [dedupLoop] at h
  | succ n ih =>
    intro l r h
    simp only [dedupLoop] at h
    split at h
    · split at h
      · exact ih _ _ h
      · simp at h
    · simp at h
    · rename_i m hm
      simp only [Except.ok.injEq] at h
      subst h
      exact (DepMgr.getJobMap_ok hm).nodup

theorem construct_live {sem : Sem J I E R} {units : List J} {s : Session J I E R}
    (h : construct sem units = .ok s) : Live sem s := by
  unfold construct at h
  split at h
  · simp at h
  · rename_i jobs hj
    simp only [Except.ok.injEq] at h
    subst h
    refine ⟨⟨dedupLoop_nodup _ _ _ hj, ?_, by simp⟩, by simp, by simp, ?_, ?_⟩
    · simp [List.map_map, Function.comp, JobState.new]
    · intro pre x post hx; simp at hx
    · intro i q hq
      have := lookup_mem hq
      obtain ⟨j, _, hj⟩ := List.mem_map.mp this
      simp only [Prod.mk.injEq] at hj
      rw [← hj.2]
      simp [JobState.new]

theorem step_live {sem : Sem J I E R} (hwf : sem.WF) {s s' : Session J I E R} {op : Op J I R}
    (h : Live sem s) (hok : OpOK sem s op) (hs : step sem s op = (s', none)) : Live sem s' := by
  cases op with
  | add j => exact h.addUnit j hs
  | remove j => exact h.removeUnit j hs
  | trim d => exact h.trim hwf d hs
  | mandatory l =>
    simp only [step, Prod.mk.injEq, and_true] at hs
    subst hs
    exact ⟨⟨h.book.nodup, h.book.states, h.book.res⟩, h.runSub, h.runNodup, h.order, h.fresh⟩
  | desired l b =>
    simp only [step, Prod.mk.injEq] at hs
    exact h.updateDesired l b hok hs
  | result j r => exact h.updateResult j r hs
  | attempt i =>
    simp only [step, Prod.mk.injEq, and_true] at hs
    subst hs
    exact h.attempt i

theorem Reachable.live {sem : Sem J I E R} (hwf : sem.WF) {s : Session J I E R}
    (h : Reachable sem s) : Live sem s := by
  induction h with
  | start h => exact construct_live h
  | step _ hok hs ih => exact step_live hwf ih hok hs

/-! ## C06 -/

/-- What a fresh computation of readiness shows for the job with id `i`. -/
def FreshInhibitors (sem : Sem J I E R) (s : Session J I E R) (i : I)
    (l : List (Inhibitor J E)) : Prop :=
  (i ∉ s.runList.map sem.id ∧ l = [undesired]) ∨
  (∃ j ∈ s.runList, sem.id j = i ∧ inhibitorList sem (look s.states) s.resources j = .ok l)

/-- **C06**.  After every history of calls that return normally, the inhibitors of every job are
those a fresh computation gives, and computing them again changes nothing. -/
theorem C06_readiness_fresh {sem : Sem J I E R} (hwf : sem.WF) {s : Session J I E R}
    (h : Reachable sem s) :
    (∀ i q, s.states.lookup i = some q → FreshInhibitors sem s i q.inhib) ∧
    recompute sem s = (s, none) := by
  have hl := h.live hwf
  refine ⟨?_, recompute_id hwf hl⟩
  intro i q hq
  obtain ⟨h1, h2⟩ := hl.fresh i q hq
  by_cases hi : i ∈ s.runList.map sem.id
  · obtain ⟨j, hj, hji⟩ := List.mem_map.mp hi
    exact .inr ⟨j, hj, hji, h2 j hj hji⟩
  · exact .inl ⟨hi, h1 hi⟩

/-! ## C09 -/

/-- **C09**, first half.  After *any* history — including calls that raise — ids are unique and
the state map has exactly one entry per listed job, holding that job. -/
theorem C09_bookkeeping {sem : Sem J I E R} {s : Session J I E R} (h : AnyReachable sem s) :
    (s.jobs.map sem.id).Nodup ∧
    s.states.map (fun p => (p.1, p.2.job)) = s.jobs.map (fun j => (sem.id j, j)) ∧
    (∀ i ∈ s.resources.map Prod.fst, i ∈ s.jobs.map sem.id) := by
  have hb : Book sem s := by
    induction h with
    | start h => exact (construct_live h).book
    | step op _ ih => exact ih.step op
  exact ⟨hb.nodup, hb.states, hb.res⟩

theorem addMany_present {sem : Sem J I E R} {s : Session J I E R} (h : Book sem s) :
    ∀ js : List J, (∀ j ∈ js, j ∈ s.jobs) → addMany sem s js = (s, none) := by
  intro js
  induction js with
  | nil => intro _; rfl
  | cons j js ih =>
    intro hj
    obtain ⟨q, hq, hqj⟩ := h.lookup_some (hj j (by simp))
    have h1 : addOne sem s j = (s, none) := by
      simp [addOne, hq, hqj]
    simp only [addMany, h1]
    exact ih fun k hk => hj k (by simp [hk])

/-- **C09**, second half.  Adding a job that is already there (with the siblings it implies)
changes nothing. -/
theorem C09_add_identical {sem : Sem J I E R} (hwf : sem.WF) {s : Session J I E R}
    (h : Reachable sem s) {j : J} (hj : j ∈ s.jobs) (hf : ∀ k ∈ sem.family j, k ∈ s.jobs) :
    step sem s (.add j) = (s, none) := by
  have hl := h.live hwf
  have h1 := addMany_present hl.book (j :: sem.family j) (by
    intro k hk
    rcases List.mem_cons.mp hk with rfl | hk
    · exact hj
    · exact hf k hk)
  simp only [step, addUnit, h1, recompute_id hwf hl]

/-- **C09**, third part.  Adding a different job under a used id is refused and changes nothing. -/
theorem C09_add_clash {sem : Sem J I E R} (hwf : sem.WF) {s : Session J I E R}
    (h : Reachable sem s) {j k : J} (hk : k ∈ s.jobs) (hid : sem.id k = sem.id j) (hne : j ≠ k) :
    step sem s (.add j) = (s, some (.duplicate k j)) := by
  have hl := h.live hwf
  obtain ⟨q, hq, hqj⟩ := hl.book.lookup_some hk
  rw [hid] at hq
  have h1 : addMany sem s (j :: sem.family j) = (s, some (.duplicate k j)) := by
    simp [addMany, addOne, hq, hqj, hne]
  simp only [step, addUnit, h1, recompute_id hwf hl]

/-! ## C10 -/

/-- **C10**.  `trim_job_list` either refuses (a designated job is on the run list) and changes
nothing, or removes exactly the designated jobs with their states and resources, keeping the rest
in order. -/
theorem C10_trim {sem : Sem J I E R} {s : Session J I E R} (h : AnyReachable sem s)
    (d : J → Bool) :
    ((∃ j ∈ s.jobs, d j = true ∧ sem.id j ∈ s.runList.map sem.id) →
      trim sem s d = (s, some .valueError)) ∧
    ((∀ j ∈ s.jobs, d j = true → sem.id j ∉ s.runList.map sem.id) →
      ∃ s', trim sem s d = (s', none) ∧
        s'.jobs = s.jobs.filter (fun j => !d j) ∧
        s'.states.Sublist s.states ∧ s'.resources.Sublist s.resources ∧
        (∀ j ∈ s.jobs, s'.states.lookup (sem.id j) =
          if d j then none else s.states.lookup (sem.id j)) ∧
        (∀ j ∈ s.jobs, s'.resources.lookup (sem.id j) =
          if d j then none else s.resources.lookup (sem.id j)) ∧
        s'.desired = s.desired ∧ s'.mandatory = s.mandatory ∧ s'.runList = s.runList ∧
        s'.units = s.units) := by
  have hb : Book sem s := by
    obtain ⟨h1, h2, h3⟩ := C09_bookkeeping h
    exact ⟨h1, h2, h3⟩
  rcases trim_spec hb d with ⟨h1, j, hj, hd, hr⟩ | ⟨s', h1, hrun, e2, e3, e4, e5, e6, _⟩
  · exact ⟨fun _ => h1, fun h => absurd hr (h j hj hd)⟩
  · refine ⟨fun ⟨j, hj, hd, hr⟩ => absurd hr (hrun j hj hd), fun _ =>
      ⟨s', h1, by rw [e2], e3, e4, ?_, ?_, by rw [e2], by rw [e2], by rw [e2], by rw [e2]⟩⟩
    all_goals
      intro j hj
      have : sem.id j ∈ (s.jobs.filter d).map sem.id ↔ d j = true := by
        constructor
        · intro hm
          obtain ⟨k, hk, hki⟩ := List.mem_map.mp hm
          rw [List.mem_filter] at hk
          rw [← eq_of_id (g := sem.graph) hb.nodup hk.1 hj hki]
          exact hk.2
        · intro hd; exact List.mem_map.mpr ⟨j, List.mem_filter.mpr ⟨hj, hd⟩, rfl⟩
      first
      | rw [e5]; simp only [this]
      | rw [e6]; simp only [this]

/-! ## C04 -/

/-- A job list that can be run as it is: no job twice, every dependency before its dependant. -/
structure ValidRun (sem : Sem J I E R) (s : Session J I E R) (desired run : List J) : Prop where
  listed : ∀ j ∈ run, j ∈ s.jobs
  nodup : (run.map sem.id).Nodup
  order : DepsFirst sem.graph run
  all : ∀ v ∈ desired, v ∈ run
  needed : ∀ j ∈ run, Reach sem.graph s.jobs desired j

/-- **C04** (partial: the call returns normally only when no job of the new run list has a
requirement program that cannot be compiled, see `C04_violated`).  `update_desired_job_list` always
terminates with a valid run list of the surviving jobs; a requested job survives exactly when it can
be scheduled; each dropped job is named by a reported problem; every problem names a job that
cannot be scheduled; without problems nothing is dropped. -/
theorem C04_update_desired_partial {sem : Sem J I E R} (hwf : sem.WF) {s : Session J I E R}
    (h : AnyReachable sem s) (req : List J) (b : Bool) (hc : OpOK sem s (.desired req b)) :
    ∃ s' problems err, updateDesired sem s req b = (s', problems, err) ∧
      s'.jobs = s.jobs ∧
      ValidRun sem s s'.desired s'.runList ∧
      s'.desired.Sublist ((if b then s.mandatory else []) ++ req) ∧
      (∀ v ∈ (if b then s.mandatory else []) ++ req,
        (v ∈ s'.desired ↔ Schedulable sem.graph s.jobs (sem.id v)) ∧
        (v ∈ s'.runList ∨ ∃ e ∈ problems, affected e = some v)) ∧
      (∀ e ∈ problems, ∃ j, affected e = some j ∧ ¬ Schedulable sem.graph s.jobs (sem.id j)) ∧
      (problems = [] → s'.desired = (if b then s.mandatory else []) ++ req) ∧
      ((∀ j ∈ s'.runList, sem.prog j ≠ .bad) → err = none) := by
  have hb : Book sem s := by
    obtain ⟨h1, h2, h3⟩ := C09_bookkeeping h
    exact ⟨h1, h2, h3⟩
  obtain ⟨d, run, problems, hr, he⟩ := updateDesired_spec hb req b hc
  have hsurv : ∀ v ∈ (if b then s.mandatory else []) ++ req,
      (v ∈ d ↔ Schedulable sem.graph s.jobs (sem.id v)) := by
    intro v hv
    rw [hr.desired_eq, mem_survivors]
    exact ⟨fun h => h.2, fun h => ⟨hv, h⟩⟩
  refine ⟨_, _, _, he, rfl, ⟨fun j hj => (hr.sub j hj).1, hr.nodup, hr.order, hr.all,
    fun j hj => (hr.sub j hj).2⟩, ?_, ?_, fun e he => (hr.truthful e he).1, ?_, ?_⟩
  · show d.Sublist _
    rw [hr.desired_eq]; exact List.filter_sublist
  · intro v hv
    refine ⟨hsurv v hv, ?_⟩
    by_cases hs : Schedulable sem.graph s.jobs (sem.id v)
    · exact .inl (hr.all v ((hsurv v hv).mpr hs))
    · exact .inr (hr.reported v hv hs)
  · intro hp
    show d = _
    rw [hr.desired_eq]
    unfold survivors
    rw [List.filter_eq_self]
    intro v hv
    by_cases hs : Schedulable sem.graph s.jobs (sem.id v)
    · exact @decide_eq_true _ (Classical.propDecidable _) hs
    · obtain ⟨e, he, _⟩ := hr.reported v hv hs
      rw [hp] at he; simp at he
  · intro hbad
    exact recompute_total hwf (s := { s with desired := d, runList := run })
      ⟨hb.nodup, hb.states, hb.res⟩ (fun j hj => (hr.sub j hj).1) hr.nodup hr.order hbad

/-! ## C05 -/

/-- Every expression names at least one resource; the constructor of resource expressions refuses
others (impl/resource.py:515-517). -/
def ResNonEmpty (sem : Sem J I E R) : Prop := ∀ e, sem.expr.resIds e ≠ []

/-- The prerequisites of a job that do not concern resources. -/
def DepsMet (sem : Sem J I E R) (s : Session J I E R) (j : J) : Prop :=
  (∀ i ∈ sem.direct j, ∃ q, s.states.lookup i = some q ∧ q.result.outcome = .pass) ∧
  (∀ i ∈ sem.after j, ∃ q, s.states.lookup i = some q ∧ q.result.outcome ≠ .none)

/-- The requirement program of a job is true of the recorded resources. -/
def ProgramTrue (sem : Sem J I E R) (s : Session J I E R) (j : J) : Prop :=
  match sem.prog j with
  | .absent => True
  | .bad => False
  | .prog es => ∀ e ∈ es, Available s.resources sem.expr e ∧ Holds sem.expr s.resources e

/-- The case in which the session does not insist on the requirement program: the resource that
is missing belongs to an expression all of whose jobs have passed. -/
def ProgramExcused (sem : Sem J I E R) (s : Session J I E R) (j : J) : Prop :=
  ∃ es e i0, sem.prog j = .prog es ∧
    evaluateOrRaise sem.expr s.resources es = .cannotEvaluate e i0 ∧
    ∀ i ∈ sem.expr.resIds e, ∃ q, s.states.lookup i = some q ∧ q.result.outcome = .pass

theorem look_some {st : List (I × JobState J E R)} {i : I} {k : J} {o : Outcome} :
    look st i = some (k, o) ↔ ∃ q, st.lookup i = some q ∧ q.job = k ∧ q.result.outcome = o := by
  unfold look
  cases st.lookup i with
  | none => simp
  | some q => simp

theorem direct_nil {lk : I → Option (J × Outcome)} {is : List I} :
    directLoop (E := E) lk is = .ok [] ↔ ∀ i ∈ is, ∃ k, lk i = some (k, .pass) := by
  rw [directLoop_eq]
  constructor
  · intro h i hi
    have hk := genLoop_known h i hi
    obtain ⟨⟨k, o⟩, hp⟩ := Option.isSome_iff_exists.mp hk
    refine ⟨k, ?_⟩
    by_cases h1 : o = .none
    · have := (genLoop_mem h ⟨.pendingDep, some k, none⟩).mpr ⟨i, hi, k, o, hp, by simp [h1]⟩
      simp at this
    · by_cases h2 : o = .pass
      · rw [hp, h2]
      · have := (genLoop_mem h ⟨.failedDep, some k, none⟩).mpr
          ⟨i, hi, k, o, hp, by simp [h1, h2]⟩
        simp at this
  · intro h
    obtain ⟨l, hl⟩ := genLoop_ok lk (fun (j : J) o =>
      if o = Outcome.none then [(⟨.pendingDep, some j, none⟩ : Inhibitor J E)]
        else if o ≠ .pass then [⟨.failedDep, some j, none⟩] else []) is (by
      intro i hi; obtain ⟨k, hk⟩ := h i hi; simp [hk])
    rw [hl]
    congr 1
    rw [List.eq_nil_iff_forall_not_mem]
    intro x hx
    obtain ⟨i, hi, k, o, hp, hx⟩ := (genLoop_mem hl x).mp hx
    obtain ⟨k', hk'⟩ := h i hi
    rw [hp] at hk'
    simp only [Option.some.injEq, Prod.mk.injEq] at hk'
    rw [hk'.2] at hx
    simp at hx

theorem after_nil {lk : I → Option (J × Outcome)} {is : List I} :
    afterLoop (E := E) lk is = .ok [] ↔ ∀ i ∈ is, ∃ k o, lk i = some (k, o) ∧ o ≠ .none := by
  rw [afterLoop_eq]
  constructor
  · intro h i hi
    have hk := genLoop_known h i hi
    obtain ⟨⟨k, o⟩, hp⟩ := Option.isSome_iff_exists.mp hk
    refine ⟨k, o, hp, ?_⟩
    intro h1
    have := (genLoop_mem h ⟨.pendingDep, some k, none⟩).mpr ⟨i, hi, k, o, hp, by simp [h1]⟩
    simp at this
  · intro h
    obtain ⟨l, hl⟩ := genLoop_ok lk (fun (j : J) o =>
      if o = Outcome.none then [(⟨.pendingDep, some j, none⟩ : Inhibitor J E)] else []) is (by
      intro i hi; obtain ⟨k, o, hk, _⟩ := h i hi; simp [hk])
    rw [hl]
    congr 1
    rw [List.eq_nil_iff_forall_not_mem]
    intro x hx
    obtain ⟨i, hi, k, o, hp, hx⟩ := (genLoop_mem hl x).mp hx
    obtain ⟨k', o', hk', ho'⟩ := h i hi
    rw [hp] at hk'
    simp only [Option.some.injEq, Prod.mk.injEq] at hk'
    rw [hk'.2] at hx
    simp [ho'] at hx

theorem resource_nil {sem : Sem J I E R} (hne : ResNonEmpty sem) {s : Session J I E R} {j : J} :
    resourcePart sem (look s.states) s.resources j = .ok [] ↔
      ProgramTrue sem s j ∨ ProgramExcused sem s j := by
  constructor
  · intro h
    unfold ProgramTrue ProgramExcused
    cases hp : sem.prog j with
    | absent => exact .inl trivial
    | bad => simp [resourcePart, hp] at h
    | prog es =>
      simp only
      obtain ⟨c1, c2, c3, c4⟩ := Resource.C18_program sem.expr s.resources es
      cases he : evaluateOrRaise sem.expr s.resources es with
      | ok =>
        left
        obtain ⟨a1, a2⟩ := c1.mp he
        exact fun e h => ⟨a1 e h, a2 e h⟩
      | cannotEvaluate e i0 =>
        right
        refine ⟨es, e, i0, rfl, he, ?_⟩
        intro i hi
        simp only [resourcePart, hp, he] at h
        rw [pendingResources_eq] at h
        obtain ⟨⟨k, o⟩, hk⟩ := Option.isSome_iff_exists.mp (genLoop_known h i hi)
        by_cases ho : o = .pass
        · rw [ho] at hk
          obtain ⟨q, h1, _, h3⟩ := look_some.mp hk
          exact ⟨q, h1, h3⟩
        · have := (genLoop_mem h ⟨.pendingResource, some k, some e⟩).mpr
            ⟨i, hi, k, o, hk, by simp [ho]⟩
          simp at this
      | failed e =>
        exfalso
        simp only [resourcePart, hp, he] at h
        rw [failedResources_eq] at h
        obtain ⟨i, hi⟩ := List.exists_mem_of_ne_nil _ (hne e)
        obtain ⟨⟨k, o⟩, hk⟩ := Option.isSome_iff_exists.mp (genLoop_known h i hi)
        have := (genLoop_mem h ⟨.failedResource, some k, some e⟩).mpr ⟨i, hi, k, o, hk, by simp⟩
        simp at this
  · rintro (h | ⟨es, e, i0, hp, he, h⟩)
    · unfold ProgramTrue at h
      cases hp : sem.prog j with
      | absent => simp [resourcePart, hp]
      | bad => simp [hp] at h
      | prog es =>
        simp only [hp] at h
        have := (Resource.C18_program sem.expr s.resources es).1.mpr
          ⟨fun e he => (h e he).1, fun e he => (h e he).2⟩
        simp [resourcePart, hp, this]
    · simp only [resourcePart, hp, he]
      rw [pendingResources_eq]
      obtain ⟨l, hl⟩ := genLoop_ok (look s.states) (fun (j : J) o =>
        if o = Outcome.pass then [] else [(⟨.pendingResource, some j, some e⟩ : Inhibitor J E)])
        (sem.expr.resIds e) (by
          intro i hi
          obtain ⟨q, hq, _⟩ := h i hi
          simp [look, hq])
      rw [hl]
      congr 1
      rw [List.eq_nil_iff_forall_not_mem]
      intro x hx
      obtain ⟨i, hi, k, o, hk, hx⟩ := (genLoop_mem hl x).mp hx
      obtain ⟨q, hq, ho⟩ := h i hi
      obtain ⟨q', hq', _, ho'⟩ := look_some.mp hk
      rw [hq] at hq'
      simp only [Option.some.injEq] at hq'
      subst hq'
      rw [ho] at ho'
      subst ho'
      simp at hx

theorem inhibitor_nil {sem : Sem J I E R} (hne : ResNonEmpty sem) {s : Session J I E R} {j : J} :
    inhibitorList sem (look s.states) s.resources j = .ok [] ↔
      DepsMet sem s j ∧ (ProgramTrue sem s j ∨ ProgramExcused sem s j) := by
  have hsplit : inhibitorList sem (look s.states) s.resources j = .ok [] ↔
      resourcePart sem (look s.states) s.resources j = .ok [] ∧
      directLoop (E := E) (look s.states) (sem.direct j) = .ok [] ∧
      afterLoop (E := E) (look s.states) (sem.after j) = .ok [] := by
    constructor
    · intro h
      obtain ⟨a, b, c, ha, hb, hc, hl⟩ := inhibitorList_split h
      have h0 : a = [] ∧ b = [] ∧ c = [] := by
        have := hl.symm
        simp only [List.append_eq_nil_iff] at this
        exact ⟨this.1.1, this.1.2, this.2⟩
      obtain ⟨rfl, rfl, rfl⟩ := h0
      exact ⟨ha, hb, hc⟩
    · rintro ⟨ha, hb, hc⟩
      simp [inhibitorList, ha, hb, hc]
  rw [hsplit, resource_nil hne, direct_nil, after_nil]
  unfold DepsMet
  constructor
  · rintro ⟨h1, h2, h3⟩
    refine ⟨⟨?_, ?_⟩, h1⟩
    · intro i hi
      obtain ⟨k, hk⟩ := h2 i hi
      obtain ⟨q, hq, _, ho⟩ := look_some.mp hk
      exact ⟨q, hq, ho⟩
    · intro i hi
      obtain ⟨k, o, hk, ho⟩ := h3 i hi
      obtain ⟨q, hq, _, ho'⟩ := look_some.mp hk
      exact ⟨q, hq, ho' ▸ ho⟩
  · rintro ⟨⟨h2, h3⟩, h1⟩
    refine ⟨h1, ?_, ?_⟩
    · intro i hi
      obtain ⟨q, hq, ho⟩ := h2 i hi
      exact ⟨q.job, look_some.mpr ⟨q, hq, rfl, ho⟩⟩
    · intro i hi
      obtain ⟨q, hq, ho⟩ := h3 i hi
      exact ⟨q.job, _, look_some.mpr ⟨q, hq, rfl, rfl⟩, ho⟩

theorem live_can_start_iff {sem : Sem J I E R} (hne : ResNonEmpty sem) {s : Session J I E R}
    (h : Live sem s) {i : I} {q : JobState J E R} (hq : s.states.lookup i = some q) :
    q.canStart = true ↔
      (∃ j ∈ s.runList, sem.id j = i ∧ DepsMet sem s j ∧
        (ProgramTrue sem s j ∨ ProgramExcused sem s j)) ∧ 0 < q.attempts := by
  obtain ⟨f1, f2⟩ := h.fresh i q hq
  simp only [JobState.canStart, Bool.and_eq_true, decide_eq_true_eq, List.isEmpty_iff]
  refine and_congr ?_ Iff.rfl
  constructor
  · intro hnil
    by_cases hi : i ∈ s.runList.map sem.id
    · obtain ⟨j, hj, hji⟩ := List.mem_map.mp hi
      have := f2 j hj hji
      rw [hnil] at this
      exact ⟨j, hj, hji, (inhibitor_nil hne).mp this⟩
    · rw [f1 hi] at hnil; simp at hnil
  · rintro ⟨j, hj, hji, hd⟩
    have h1 := f2 j hj hji
    rw [(inhibitor_nil hne).mpr hd] at h1
    simp only [Except.ok.injEq] at h1
    exact h1.symm

/-- **C05**, exact description of `can_start` in every session reached by calls that return
normally.  Partial with respect to the property because of the `ProgramExcused` alternative, see
`C05_violated` and `C05_can_start_partial`. -/
theorem C05_can_start_exact_partial {sem : Sem J I E R} (hwf : sem.WF) (hne : ResNonEmpty sem)
    {s : Session J I E R} (h : Reachable sem s) {i : I} {q : JobState J E R}
    (hq : s.states.lookup i = some q) :
    q.canStart = true ↔
      (∃ j ∈ s.runList, sem.id j = i ∧ DepsMet sem s j ∧
        (ProgramTrue sem s j ∨ ProgramExcused sem s j)) ∧ 0 < q.attempts :=
  live_can_start_iff hne (h.live hwf) hq

/-- A resource job with an outcome has recorded resources. -/
def ResInv (sem : Sem J I E R) (s : Session J I E R) : Prop :=
  ∀ i q, s.states.lookup i = some q → sem.isResource q.job = true → q.result.outcome ≠ .none →
    (s.resources.lookup i).isSome = true

theorem resInv_iff {sem : Sem J I E R} {s : Session J I E R} :
    ResInv sem s ↔ ∀ i k o, look s.states i = some (k, o) → sem.isResource k = true →
      o ≠ .none → (s.resources.lookup i).isSome = true := by
  constructor
  · intro h i k o hl hr ho
    obtain ⟨q, hq, rfl, rfl⟩ := look_some.mp hl
    exact h i q hq hr ho
  · intro h i q hq hr ho
    exact h i q.job _ (look_some.mpr ⟨q, hq, rfl, rfl⟩) hr ho

theorem lookup_append_if {V : Type} (m : List (I × V)) (k : I) (v : V) (i : I) :
    (m ++ [(k, v)]).lookup i =
      match m.lookup i with
      | some x => some x
      | none => if i = k then some v else none := by
  induction m with
  | nil => simp [lookup_cons_if]
  | cons p m ih =>
    simp only [List.cons_append, lookup_cons_if, ih]
    split <;> rfl

theorem look_addMany {sem : Sem J I E R} : ∀ (js : List J) (s : Session J I E R) (i : I),
    (addMany sem s js).1.resources = s.resources ∧
    ∀ p, look (addMany sem s js).1.states i = some p →
      look s.states i = some p ∨ (look s.states i = none ∧ p.2 = .none) := by
  intro js
  induction js with
  | nil => intro s i; exact ⟨rfl, fun p h => .inl h⟩
  | cons j js ih =>
    intro s i
    have h1 : (addOne sem s j).1.resources = s.resources ∧
        ∀ p, look (addOne sem s j).1.states i = some p →
          look s.states i = some p ∨ (look s.states i = none ∧ p.2 = .none) := by
      unfold addOne
      split
      · refine ⟨rfl, fun p hp => ?_⟩
        simp only [look, lookup_append_if] at hp ⊢
        cases hl : s.states.lookup i with
        | some q => simp [hl] at hp; left; simp [hp]
        | none =>
          simp only [hl] at hp
          right
          refine ⟨rfl, ?_⟩
          split at hp
          · simp only [Option.map_some, Option.some.injEq] at hp
            rw [← hp]; rfl
          · simp at hp
      · split <;> exact ⟨rfl, fun p hp => .inl hp⟩
    simp only [addMany]
    split
    · rename_i s' x heq; rw [heq] at h1; exact h1
    · rename_i s' heq
      rw [heq] at h1
      obtain ⟨r1, r2⟩ := ih s' i
      refine ⟨r1.trans h1.1, fun p hp => ?_⟩
      rcases r2 p hp with h | ⟨h, hn⟩
      · exact h1.2 p h
      · right
        refine ⟨?_, hn⟩
        cases hl : look s.states i with
        | none => rfl
        | some p' =>
          exfalso
          have hk : look s'.states i ≠ none := by
            have : s' = (addOne sem s j).1 := by rw [heq]
            rw [this]
            unfold addOne
            split
            · simp only [look, lookup_append_if] at hl ⊢
              cases hq : s.states.lookup i with
              | none => simp [hq] at hl
              | some q => simp
            · split <;> simp [hl]
          exact hk h

theorem look_addGenerated {sem : Sem J I E R} : ∀ (js : List J) (s : Session J I E R) (i : I),
    (addGenerated sem s js).1.resources = s.resources ∧
    ∀ p, look (addGenerated sem s js).1.states i = some p →
      look s.states i = some p ∨ p.2 = .none := by
  intro js
  induction js with
  | nil => intro s i; exact ⟨rfl, fun p h => .inl h⟩
  | cons j js ih =>
    intro s i
    have h1 : (addUnit sem s j).1.resources = s.resources ∧
        ∀ p, look (addUnit sem s j).1.states i = some p →
          look s.states i = some p ∨ p.2 = .none := by
      obtain ⟨a1, a2⟩ := look_addMany (sem := sem) (j :: sem.family j) s i
      refine ⟨a1, fun p hp => ?_⟩
      simp only [addUnit] at hp
      rw [recompute_look] at hp
      rcases a2 p hp with h | h
      · exact .inl h
      · exact .inr h.2
    simp only [addGenerated]
    split
    · rename_i s' x heq; rw [heq] at h1; exact h1
    · rename_i s' heq
      rw [heq] at h1
      obtain ⟨r1, r2⟩ := ih s' i
      refine ⟨r1.trans h1.1, fun p hp => ?_⟩
      rcases r2 p hp with h | h
      · exact h1.2 p h
      · exact .inr h

theorem look_modify (st : List (I × JobState J E R)) (k : I) (r : Result R) (i : I) :
    look (modify st k (setResult r)) i =
      if i = k then (look st i).map (fun p => (p.1, r.outcome)) else look st i := by
  unfold look
  rw [lookup_modify]
  split
  · cases st.lookup i with
    | none => rfl
    | some q =>
      simp only [Option.map_some, setResult_job, Option.some.injEq, Prod.mk.injEq, true_and]
      unfold setResult
      split
      · rename_i h; rw [h]
      · rfl
  · rfl

theorem ResInv.observe {sem : Sem J I E R} {s : Session J I E R} (h : ResInv sem s)
    (hb : Book sem s) {j : J} {r : Result R}
    (hj : sem.id j ∈ s.jobs.map sem.id → j ∈ s.jobs) :
    ResInv sem (observeResult sem s j r).1 := by
  unfold observeResult
  split
  · exact h
  · rename_i hs
    obtain ⟨q, hq⟩ : ∃ q, s.states.lookup (sem.id j) = some q := by
      cases hl : s.states.lookup (sem.id j) with
      | none => simp [hl] at hs
      | some q => exact ⟨q, rfl⟩
    have hqj : q.job = j := by
      obtain ⟨h1, h2⟩ := hb.lookup_job hq
      have hjm := hj (List.mem_map.mpr ⟨_, h1, h2⟩)
      exact eq_of_id (g := sem.graph) hb.nodup h1 hjm h2
    rw [resInv_iff] at h ⊢
    by_cases hres : sem.isResource j = true
    · simp only [hres, if_true]
      have key : ∀ i k o, look (storeResource sem
          { s with states := modify s.states (sem.id j) (setResult r) } j r).states i = some (k, o) →
          sem.isResource k = true → o ≠ .none →
          ((storeResource sem
          { s with states := modify s.states (sem.id j) (setResult r) } j r).resources.lookup
            i).isSome = true := by
        intro i k o hl hk ho
        unfold storeResource at hl ⊢
        split at hl <;> rename_i hn
        · simp only [hn, if_true] at hl ⊢
          rw [look_modify] at hl
          split at hl
          · rename_i hi
            subst hi
            simp only [look, hq, Option.map_some, Option.some.injEq, Prod.mk.injEq] at hl
            exact absurd (hl.2.symm.trans hn) ho
          · exact h i k o hl hk ho
        · simp only [hn, if_false] at hl ⊢
          rw [lookup_setKey]
          rw [look_modify] at hl
          by_cases hi : i = sem.id j
          · rw [if_pos hi]; rfl
          · rw [if_neg hi] at hl ⊢
            exact h i k o hl hk ho
      split
      · exact key
      · intro i k o hl hk ho
        obtain ⟨a1, a2⟩ := look_addGenerated (sem := sem)
          (sem.gen j (((storeResource sem
            { s with states := modify s.states (sem.id j) (setResult r) } j r).resources.lookup
              (sem.id j)).getD []))
          (storeResource sem
            { s with states := modify s.states (sem.id j) (setResult r) } j r) i
        rw [a1]
        rcases a2 _ hl with h' | h'
        · exact key i k o h' hk ho
        · exact absurd h' ho
    · simp only [hres, if_false]
      intro i k o hl hk ho
      simp only [Bool.false_eq_true, if_false] at hl ⊢
      rw [look_modify] at hl
      split at hl
      · rename_i hi
        subst hi
        simp only [look, hq, Option.map_some, Option.some.injEq, Prod.mk.injEq] at hl
        rw [← hl.1, hqj] at hk
        exact absurd hk hres
      · exact h i k o hl hk ho

theorem ResInv.recompute {sem : Sem J I E R} {s : Session J I E R} (h : ResInv sem s) :
    ResInv sem (recompute sem s).1 := by
  rw [resInv_iff] at h ⊢
  rw [recompute_look]
  exact h

theorem ResInv.step {sem : Sem J I E R} {s : Session J I E R} {op : Op J I R}
    (h : ResInv sem s) (hb : Book sem s) (hok : OpOK sem s op) :
    ResInv sem (step sem s op).1 := by
  cases op with
  | add j =>
    have h0 := resInv_iff.mp h
    rw [resInv_iff]
    intro i k o hl hk ho
    obtain ⟨a1, a2⟩ := look_addMany (sem := sem) (j :: sem.family j) s i
    simp only [Session.step, addUnit] at hl ⊢
    rw [recompute_look] at hl
    rw [show (Session.recompute sem (addMany sem s (j :: sem.family j)).1).1.resources
      = (addMany sem s (j :: sem.family j)).1.resources from rfl, a1]
    rcases a2 _ hl with h' | h'
    · exact h0 i k o h' hk ho
    · exact absurd h'.2 ho
  | remove j =>
    simp only [Session.step, removeUnit]
    split
    · exact h
    · split
      · exact h
      · split
        · exact h
        · apply ResInv.recompute
          intro i q hq hr ho
          simp only [lookup_delKey] at hq ⊢
          split at hq
          · simp at hq
          · rename_i hi
            rw [if_neg hi]
            exact h i q hq hr ho
  | trim d =>
    simp only [Session.step]
    rcases trim_spec hb d with ⟨h1, _⟩ | ⟨s', h1, _, _, _, _, e5, e6, _⟩
    · rw [h1]; exact h
    · rw [h1]
      intro i q hq hr ho
      simp only at hq ⊢
      rw [e5] at hq
      rw [e6]
      split at hq
      · simp at hq
      · rename_i hi
        rw [if_neg hi]
        exact h i q hq hr ho
  | mandatory l => exact h
  | desired l b =>
    obtain ⟨d, run, problems, hr, he⟩ := updateDesired_spec hb l b hok
    simp only [Session.step, he]
    exact ResInv.recompute (s := { s with desired := d, runList := run }) h
  | result j r =>
    have h1 := h.observe hb hok (r := r)
    simp only [Session.step, updateResult]
    split
    · rename_i heq; rw [heq] at h1; exact h1
    · rename_i heq; rw [heq] at h1; exact h1.recompute
  | attempt i =>
    intro k q hq hr ho
    simp only [Session.step, useAttempt, lookup_modify] at hq ⊢
    split at hq
    · cases hl : s.states.lookup k with
      | none => simp [hl] at hq
      | some q0 =>
        simp only [hl, Option.map_some, Option.some.injEq] at hq
        subst hq
        exact h k q0 hl hr ho
    · exact h k q hq hr ho

theorem Reachable.resInv {sem : Sem J I E R} (hwf : sem.WF) {s : Session J I E R}
    (h : Reachable sem s) : ResInv sem s := by
  induction h with
  | start h =>
    unfold construct at h
    split at h
    · simp at h
    · simp only [Except.ok.injEq] at h
      subst h
      intro i q hq _ ho
      obtain ⟨j, _, hj⟩ := List.mem_map.mp (lookup_mem hq)
      simp only [Prod.mk.injEq] at hj
      rw [← hj.2] at ho
      exact absurd rfl ho
  | step hr hok hs ih =>
    have := ih.step (hr.live hwf).book hok
    rw [hs] at this
    exact this

/-- Resource expressions of `j` refer to resource jobs only. -/
def RefersToResources (sem : Sem J I E R) (s : Session J I E R) (j : J) : Prop :=
  ∀ k ∈ s.jobs, sem.id k ∈ sem.resDeps j → sem.isResource k = true

theorem excused_false {sem : Sem J I E R} {s : Session J I E R} (hb : Book sem s)
    (hr : ResInv sem s) {j : J} (hk : RefersToResources sem s j) : ¬ ProgramExcused sem s j := by
  rintro ⟨es, e, i0, hp, he, h⟩
  obtain ⟨h1, h2, h3⟩ := (Resource.C18_program sem.expr s.resources es).2.2.1 e i0 he
  obtain ⟨q, hq, ho⟩ := h i0 h2
  obtain ⟨g1, g2⟩ := hb.lookup_job hq
  have := hr i0 q hq (hk q.job g1 (by
    rw [g2]
    simp only [Sem.resDeps, hp, List.mem_flatMap]
    exact ⟨e, h1, h2⟩)) (by rw [ho]; simp)
  rw [h3] at this
  simp at this

/-- **C05** (partial: for jobs whose requirements refer to resource jobs).  In every session
reached by calls that return normally, a job can start exactly when it is on the run list, its
direct dependencies passed, the jobs it comes after have an outcome, everything its requirement
program mentions is present, the program is true, and it has attempts left. -/
theorem C05_can_start_partial {sem : Sem J I E R} (hwf : sem.WF) (hne : ResNonEmpty sem)
    {s : Session J I E R} (h : Reachable sem s) {j : J} (hj : j ∈ s.jobs)
    (hk : RefersToResources sem s j) {q : JobState J E R}
    (hq : s.states.lookup (sem.id j) = some q) :
    q.canStart = true ↔
      j ∈ s.runList ∧ DepsMet sem s j ∧ ProgramTrue sem s j ∧ 0 < q.attempts := by
  have hl := h.live hwf
  rw [live_can_start_iff hne hl hq]
  have hx := excused_false hl.book (h.resInv hwf) hk
  constructor
  · rintro ⟨⟨k, hkr, hki, hd, hp⟩, ha⟩
    have : k = j := eq_of_id (g := sem.graph) hl.book.nodup (hl.runSub k hkr) hj hki
    subst this
    exact ⟨hkr, hd, hp.resolve_right hx, ha⟩
  · rintro ⟨h1, h2, h3, h4⟩
    exact ⟨⟨j, h1, rfl, h2, .inl h3⟩, h4⟩

/-! ## C08 -/

/-- Some inhibitor says that a resource requirement failed. -/
def HasFailedResource (hs : List (Inhibitor J E)) : Prop := ∃ h ∈ hs, h.cause = .failedResource

/-- Some inhibitor points to a failed dependency that was skipped. -/
def HasSkippedDep (sem : Sem J I E R) (lk : I → Option (J × Outcome))
    (hs : List (Inhibitor J E)) : Prop :=
  ∃ h ∈ hs, h.cause = .failedDep ∧ ∃ k, h.job = some k ∧ ∃ k', lk (sem.id k) = some (k', .skip)

/-- The jobs that failed-dependency inhibitors point to have a state. -/
def RelatedKnown (sem : Sem J I E R) (lk : I → Option (J × Outcome))
    (hs : List (Inhibitor J E)) : Prop :=
  ∀ h ∈ hs, h.cause = .failedDep → ∃ k, h.job = some k ∧ (lk (sem.id k)).isSome = true

/-- The rule of C08. -/
def CannotStartRule (sem : Sem J I E R) (lk : I → Option (J × Outcome)) (j : J)
    (hs : List (Inhibitor J E)) (o : Outcome) : Prop :=
  (HasFailedResource hs ∧ sem.failOnResource j = true ∧ o = .fail) ∨
  (¬ (HasFailedResource hs ∧ sem.failOnResource j = true) ∧
    ((HasSkippedDep sem lk hs ∧ o = .skip) ∨ (¬ HasSkippedDep sem lk hs ∧ o = .notSupported)))

theorem outcomeLoop_spec (sem : Sem J I E R) (lk : I → Option (J × Outcome)) (j : J) :
    ∀ (hs : List (Inhibitor J E)) (acc : Outcome), RelatedKnown sem lk hs →
    ∃ o, outcomeLoop sem lk j hs acc = .ok o ∧
      ((HasFailedResource hs ∧ sem.failOnResource j = true ∧ o = .fail) ∨
       (¬ (HasFailedResource hs ∧ sem.failOnResource j = true) ∧
         ((HasSkippedDep sem lk hs ∧ o = .skip) ∨ (¬ HasSkippedDep sem lk hs ∧ o = acc)))) := by
  intro hs
  induction hs with
  | nil =>
    intro acc _
    refine ⟨acc, rfl, .inr ⟨?_, .inr ⟨?_, rfl⟩⟩⟩
    · rintro ⟨⟨h, hm, _⟩, _⟩; simp at hm
    · rintro ⟨h, hm, _⟩; simp at hm
  | cons h hs ih =>
    intro acc hk
    have hk' : RelatedKnown sem lk hs := fun x hx => hk x (by simp [hx])
    simp only [outcomeLoop]
    by_cases h1 : h.cause = .failedResource ∧ sem.failOnResource j = true
    · rw [if_pos h1]
      exact ⟨.fail, rfl, .inl ⟨⟨h, by simp, h1.1⟩, h1.2, rfl⟩⟩
    · rw [if_neg h1]
      have hfr : (HasFailedResource (h :: hs) ∧ sem.failOnResource j = true) ↔
          (HasFailedResource hs ∧ sem.failOnResource j = true) := by
        constructor
        · rintro ⟨⟨x, hx, hc⟩, hf⟩
          rcases List.mem_cons.mp hx with rfl | hx
          · exact absurd ⟨hc, hf⟩ h1
          · exact ⟨⟨x, hx, hc⟩, hf⟩
        · rintro ⟨⟨x, hx, hc⟩, hf⟩
          exact ⟨⟨x, by simp [hx], hc⟩, hf⟩
      by_cases h2 : h.cause = .failedDep
      · simp only [ne_eq, h2, not_true_eq_false, if_false]
        obtain ⟨k, hkj, hkn⟩ := hk h (by simp) h2
        obtain ⟨⟨k', o'⟩, hl⟩ := Option.isSome_iff_exists.mp hkn
        simp only [hkj, hl]
        obtain ⟨o, ho, hr⟩ := ih (if o' = .skip then .skip else acc) hk'
        refine ⟨o, ho, ?_⟩
        rcases hr with ⟨a, b, c⟩ | ⟨a, b⟩
        · exact .inl ⟨(hfr.mpr ⟨a, b⟩).1, b, c⟩
        · right
          refine ⟨fun hc => a (hfr.mp hc), ?_⟩
          rcases b with ⟨⟨x, hx, hc⟩, e⟩ | ⟨b, e⟩
          · exact .inl ⟨⟨x, by simp [hx], hc⟩, e⟩
          · by_cases hs' : o' = .skip
            · left
              rw [if_pos hs'] at e
              exact ⟨⟨h, by simp, h2, k, hkj, k', by rw [hl, hs']⟩, e⟩
            · right
              rw [if_neg hs'] at e
              refine ⟨?_, e⟩
              rintro ⟨x, hx, hc, y, hy, z, hz⟩
              rcases List.mem_cons.mp hx with rfl | hx
              · rw [hkj] at hy
                simp only [Option.some.injEq] at hy
                subst hy
                rw [hl] at hz
                simp only [Option.some.injEq, Prod.mk.injEq] at hz
                exact hs' hz.2
              · exact b ⟨x, hx, hc, y, hy, z, hz⟩
      · simp only [ne_eq, h2, not_false_eq_true, if_true]
        obtain ⟨o, ho, hr⟩ := ih acc hk'
        refine ⟨o, ho, ?_⟩
        rcases hr with ⟨a, b, c⟩ | ⟨a, b⟩
        · exact .inl ⟨(hfr.mpr ⟨a, b⟩).1, b, c⟩
        · right
          refine ⟨fun hc => a (hfr.mp hc), ?_⟩
          rcases b with ⟨⟨x, hx, hc⟩, e⟩ | ⟨b, e⟩
          · exact .inl ⟨⟨x, by simp [hx], hc⟩, e⟩
          · right
            refine ⟨?_, e⟩
            rintro ⟨x, hx, hc, rest⟩
            rcases List.mem_cons.mp hx with rfl | hx
            · exact h2 hc
            · exact b ⟨x, hx, hc, rest⟩

/-- **C08**.  The outcome given to a job that cannot start follows the rule, and is the same for
every order of the inhibitors. -/
theorem C08_cannot_start (sem : Sem J I E R) (lk : I → Option (J × Outcome)) (j : J)
    (hs : List (Inhibitor J E)) (hk : RelatedKnown sem lk hs) :
    ∃ o, cannotStartOutcome sem lk j hs = .ok o ∧ CannotStartRule sem lk j hs o ∧
      ∀ hs', hs'.Perm hs → cannotStartOutcome sem lk j hs' = .ok o := by
  obtain ⟨o, ho, hr⟩ := outcomeLoop_spec sem lk j hs .notSupported hk
  refine ⟨o, ho, hr, ?_⟩
  intro hs' hp
  obtain ⟨o', ho', hr'⟩ := outcomeLoop_spec sem lk j hs' .notSupported
    (fun x hx => hk x (hp.mem_iff.mp hx))
  have e1 : HasFailedResource hs' ↔ HasFailedResource hs := by
    simp only [HasFailedResource, hp.mem_iff]
  have e2 : HasSkippedDep sem lk hs' ↔ HasSkippedDep sem lk hs := by
    simp only [HasSkippedDep, hp.mem_iff]
  rw [e1, e2] at hr'
  have : o' = o := by
    rcases hr with ⟨a, b, c⟩ | ⟨a, ⟨b, c⟩ | ⟨b, c⟩⟩ <;>
      rcases hr' with ⟨a', b', c'⟩ | ⟨a', ⟨b', c'⟩ | ⟨b', c'⟩⟩ <;> simp_all
  rw [← this]
  exact ho'

theorem live_related {sem : Sem J I E R} {s : Session J I E R} (h : Live sem s) {i : I}
    {q : JobState J E R} (hq : s.states.lookup i = some q) :
    RelatedKnown sem (look s.states) q.inhib := by
  intro x hx hc
  obtain ⟨f1, f2⟩ := h.fresh i q hq
  by_cases hi : i ∈ s.runList.map sem.id
  · obtain ⟨j, hj, hji⟩ := List.mem_map.mp hi
    obtain ⟨a, b, c, ha, hb, hcc, hl⟩ := inhibitorList_split (f2 j hj hji)
    rw [hl, List.mem_append, List.mem_append] at hx
    rcases hx with (hx | hx) | hx
    · obtain ⟨es, _, ⟨e, i0, _, i', _, k, o, _, _, rfl⟩ | ⟨e, _, i', _, k, o, _, rfl⟩⟩ :=
        (resourcePart_mem ha x).mp hx
      · simp at hc
      · simp at hc
    · rw [directLoop_eq] at hb
      obtain ⟨i', _, k, o, hlk, hxf⟩ := (genLoop_mem hb x).mp hx
      obtain ⟨q', hq', hj', _⟩ := look_some.mp hlk
      obtain ⟨_, g2⟩ := h.book.lookup_job hq'
      refine ⟨k, ?_, ?_⟩
      · split at hxf
        · simp at hxf; rw [hxf]
        · split at hxf
          · simp at hxf; rw [hxf]
          · simp at hxf
      · rw [← hj', g2, hlk]; rfl
    · rw [afterLoop_eq] at hcc
      obtain ⟨i', _, k, o, hlk, hxf⟩ := (genLoop_mem hcc x).mp hx
      split at hxf
      · simp at hxf; rw [hxf] at hc; simp at hc
      · simp at hxf
  · rw [f1 hi] at hx
    simp only [List.mem_singleton] at hx
    rw [hx] at hc
    simp [undesired] at hc

/-- **C08** for sessions: in every session reached by calls that return normally the hypothesis of
`C08_cannot_start` holds, so the call does not raise and follows the rule. -/
theorem C08_in_session {sem : Sem J I E R} (hwf : sem.WF) {s : Session J I E R}
    (h : Reachable sem s) (j : J) {q : JobState J E R}
    (hq : s.states.lookup (sem.id j) = some q) :
    ∃ o, cannotStartOutcome sem (look s.states) j q.inhib = .ok o ∧
      CannotStartRule sem (look s.states) j q.inhib o ∧
      ∀ hs', hs'.Perm q.inhib → cannotStartOutcome sem (look s.states) j hs' = .ok o :=
  C08_cannot_start sem _ j q.inhib (live_related (h.live hwf) hq)

/-! ## Concrete cases -/

/-- Jobs of the examples. -/
structure XJob where
  id : Nat
  direct : List Nat := []
  after : List Nat := []
  requires : Option (List (Nat × Nat)) := none
  bad : Bool := false
  resource : Bool := false
  failRes : Bool := false
deriving DecidableEq, Repr

/-- An expression `(r, v)` asks for a record of resource `r` equal to `v`; every resource `n` with
`n ≥ 100` of job 1 generates a job `n`; job 7 has a sibling 8. -/
def exSem : Sem XJob Nat (Nat × Nat) Nat where
  id := XJob.id
  direct := XJob.direct
  after := XJob.after
  prog j := if j.bad then .bad else match j.requires with
    | none => .absent
    | some es => .prog es
  depOrder j := j.direct.map (fun i => (.direct, i)) ++
    (if j.bad then [] else (j.requires.getD []).map fun e => (.resource, e.1)) ++
    j.after.map (fun i => (.ordering, i))
  isResource := XJob.resource
  failOnResource := XJob.failRes
  expr := ⟨fun e => [e.1], fun e args => some (decide (args = [e.2]))⟩
  family j := if j.id = 7 then [{ id := 8, direct := [7] }] else []
  gen j rs := if j.id = 1 then (rs.filter (100 ≤ ·)).map fun r => { id := r } else []
  blank := 0

theorem exSem_wf : exSem.WF := by
  intro j ty i
  simp only [exSem, Sem.resDeps]
  cases hb : j.bad <;> cases hr : j.requires <;> simp [hb, hr, and_comm, or_assoc, eq_comm]

theorem exSem_ne : ResNonEmpty exSem := by intro e; simp [exSem]

/-- Perform calls in turn, stopping at the first exception. -/
def runOps (sem : Sem J I E R) (s : Session J I E R) :
    List (Op J I R) → Session J I E R × Option (Err J I)
  | [] => (s, none)
  | op :: ops =>
    match step sem s op with
    | (s', some x) => (s', some x)
    | (s', none) => runOps sem s' ops

def OpsOK (sem : Sem J I E R) (s : Session J I E R) : List (Op J I R) → Prop
  | [] => True
  | op :: ops => OpOK sem s op ∧ OpsOK sem (step sem s op).1 ops

theorem runOps_reachable {sem : Sem J I E R} : ∀ (ops : List (Op J I R)) {s s' : Session J I E R},
    Reachable sem s → OpsOK sem s ops → runOps sem s ops = (s', none) → Reachable sem s' := by
  intro ops
  induction ops with
  | nil =>
    intro s s' h _ hr
    simp only [runOps, Prod.mk.injEq, and_true] at hr
    exact hr ▸ h
  | cons op ops ih =>
    intro s s' h hok hr
    simp only [runOps] at hr
    split at hr
    · simp at hr
    · rename_i s1 heq
      have hok2 := hok.2
      rw [heq] at hok2
      exact ih (.step h hok.1 heq) hok2 hr

def x1 : XJob := { id := 1, resource := true }
def x2 : XJob := { id := 2, direct := [3], requires := some [(1, 5)] }
def x3 : XJob := { id := 3 }
def x4 : XJob := { id := 4, after := [2] }
def x7 : XJob := { id := 7 }

def emptySession : Session XJob Nat (Nat × Nat) Nat := ⟨[], [], [], [], [], [], []⟩

/-- A history with additions (with siblings), a selection, results (one of which generates a job),
an attempt, a trimming and a removal. -/
def exOps : List (Op XJob Nat Nat) :=
  [.add x1, .add x2, .add x3, .add x4, .add x7, .mandatory [x3], .desired [x4, x2] true,
   .result x1 ⟨.pass, [5, 100], 0⟩, .result x3 ⟨.pass, [], 0⟩, .attempt 3,
   .trim (fun j => j.id = 100), .remove { id := 8, direct := [7] }]

def exFinal : Session XJob Nat (Nat × Nat) Nat := (runOps exSem emptySession exOps).1

instance decOpOK (s : Session XJob Nat (Nat × Nat) Nat) (op : Op XJob Nat Nat) :
    Decidable (OpOK exSem s op) := by
  cases op <;> unfold OpOK <;> infer_instance

instance decOpsOK : ∀ (ops : List (Op XJob Nat Nat)) (s : Session XJob Nat (Nat × Nat) Nat),
    Decidable (OpsOK exSem s ops)
  | [], _ => isTrue trivial
  | op :: ops, s => @instDecidableAnd _ _ (decOpOK s op) (decOpsOK ops (step exSem s op).1)

theorem exFinal_reachable : Reachable exSem exFinal := by
  apply runOps_reachable exOps (s := emptySession)
  · exact .start (units := []) (by decide)
  · decide
  · decide

/-- The final state of the example is not trivial: job 2 can start, job 4 waits for it. -/
example : exFinal.jobs = [x1, x2, x3, x4, x7] ∧ exFinal.runList = [x3, x1, x2, x4] ∧
    exFinal.resources = [(1, [5, 100])] ∧
    (exFinal.states.lookup 2).map (·.canStart) = some true ∧
    (exFinal.states.lookup 4).map (·.inhib) = some [⟨.pendingDep, some x2, none⟩] ∧
    (exFinal.states.lookup 7).map (·.inhib) = some [undesired] := by decide

/-- The hypotheses of `C05_can_start_partial` are met by job 2. -/
example : x2 ∈ exFinal.jobs ∧ RefersToResources exSem exFinal x2 := by
  unfold RefersToResources
  decide

/-- The hypotheses of `C09_add_identical` and `C09_add_clash` are met. -/
example : step exSem exFinal (.add x2) = (exFinal, none) :=
  C09_add_identical exSem_wf exFinal_reachable (by decide) (by decide)
example : step exSem exFinal (.add { id := 2 }) = (exFinal, some (.duplicate x2 { id := 2 })) :=
  C09_add_clash exSem_wf exFinal_reachable (k := x2) (by decide) (by decide) (by decide)

/-- Selections are repaired: 4 comes after 2, which depends on 3, which is missing. -/
example : updateDesired exSem (runOps exSem emptySession [.add x1, .add x2, .add x4, .add x7]).1
    [x7, x4] false =
    ((updateDesired exSem (runOps exSem emptySession [.add x1, .add x2, .add x4, .add x7]).1
      [x7] false).1, [.missing x2 3 .direct, .missing x4 2 .ordering], none) := by decide

/-- **C04 is violated**: selecting a job whose requirement program cannot be compiled raises an
exception that is not a dependency problem; the job is left without inhibitors, so that it can
start. -/
theorem C04_violated :
    let s := (runOps exSem emptySession [.add { id := 5, bad := true }]).1
    let r := updateDesired exSem s [{ id := 5, bad := true }] true
    r.2.2 = some .badProgram ∧ (r.1.states.lookup 5).map (·.canStart) = some true := by decide

/-- **C05 is violated**: a job whose requirement refers to a job that passed but is not a resource
job can start although its requirement program cannot be evaluated. -/
theorem C05_violated :
    let j : XJob := { id := 6, requires := some [(3, 5)] }
    let r := runOps exSem emptySession
      [.add x3, .add j, .desired [j] true, .result x3 ⟨.pass, [], 0⟩]
    r.2 = none ∧ (r.1.states.lookup 6).map (·.canStart) = some true ∧
    evaluateOrRaise exSem.expr r.1.resources [(3, 5)] = .cannotEvaluate (3, 5) 3 := by decide

/-- Removing a job that is on the run list always raises, after the job is already gone; the
remaining readiness is then partly reset. -/
theorem remove_selected_raises :
    let r := runOps exSem emptySession [.add x3, .desired [x3] true, .remove x3]
    r.2 = some (.keyError 3) ∧ r.1.jobs = [] ∧ r.1.runList = [x3] := by decide

/-- A sibling that clashes is refused after its parent has been added. -/
theorem sibling_clash_keeps_parent :
    let r := runOps exSem emptySession [.add { id := 8 }, .add x7]
    r.2 = some (.duplicate { id := 8 } { id := 8, direct := [7] }) ∧
    r.1.jobs = [{ id := 8 }, x7] := by decide

/-- C08 on concrete inhibitors. -/
example :
    let s := (runOps exSem emptySession
      [.add x1, .add x2, .add x3, .desired [x2] true, .result x1 ⟨.pass, [4], 0⟩,
       .result x3 ⟨.skip, [], 0⟩]).1
    (s.states.lookup 2).map (fun q => (q.inhib, cannotStartOutcome exSem (look s.states) x2 q.inhib))
      = some ([⟨.failedResource, some x1, some (1, 5)⟩, ⟨.failedDep, some x3, none⟩],
              .ok .skip) := by decide

end Verif.Session
