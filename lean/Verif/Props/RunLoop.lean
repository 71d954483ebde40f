import Verif.Model.RunLoop
import Verif.Props.Session

/-! # Property C07: running the to-do list in order -/

set_option linter.unusedSectionVars false
set_option linter.unusedSimpArgs false

namespace Verif.Session

open Verif.DepMgr (Graph DepType DepsFirst Reach eq_of_id)

variable {J I E R : Type} [DecidableEq J] [DecidableEq I] [DecidableEq E] [DecidableEq R]

/-! ## What one result changes -/

theorem addOne_keeps {sem : Sem J I E R} (s : Session J I E R) (j : J) {i : I} {p : J × Outcome}
    (h : look s.states i = some p) : look (addOne sem s j).1.states i = some p := by
  unfold addOne
  split
  · simp only [look, lookup_append_if] at h ⊢
    cases hq : s.states.lookup i with
    | none => simp [hq] at h
    | some q => simpa [hq] using h
  · split <;> exact h

theorem addMany_keeps {sem : Sem J I E R} : ∀ (js : List J) (s : Session J I E R) {i : I}
    {p : J × Outcome}, look s.states i = some p → look (addMany sem s js).1.states i = some p := by
  intro js
  induction js with
  | nil => intro s i p h; exact h
  | cons j js ih =>
    intro s i p h
    have h1 := addOne_keeps (sem := sem) s j h
    simp only [addMany]
    split
    · rename_i heq; rw [heq] at h1; exact h1
    · rename_i heq; rw [heq] at h1; exact ih _ h1

theorem addGenerated_keeps {sem : Sem J I E R} : ∀ (js : List J) (s : Session J I E R) {i : I}
    {p : J × Outcome}, look s.states i = some p →
    look (addGenerated sem s js).1.states i = some p := by
  intro js
  induction js with
  | nil => intro s i p h; exact h
  | cons j js ih =>
    intro s i p h
    have h1 : look (addUnit sem s j).1.states i = some p := by
      simp only [addUnit]
      rw [recompute_look]
      exact addMany_keeps _ _ h
    simp only [addGenerated]
    split
    · rename_i heq; rw [heq] at h1; exact h1
    · rename_i heq; rw [heq] at h1; exact ih _ h1

theorem observe_look {sem : Sem J I E R} (s : Session J I E R) (j : J) (r : Result R) {i : I}
    {p : J × Outcome} (h : look s.states i = some p) :
    look (observeResult sem s j r).1.states i =
      some (if i = sem.id j then (p.1, r.outcome) else p) := by
  have hm : look (modify s.states (sem.id j) (setResult r)) i =
      some (if i = sem.id j then (p.1, r.outcome) else p) := by
    rw [look_modify]
    split <;> simp [h]
  unfold observeResult
  split
  · rename_i hn
    rw [h]
    have hne : i ≠ sem.id j := by
      rintro rfl
      simp only [Option.isNone_iff_eq_none] at hn
      simp [look, hn] at h
    simp [hne]
  · split
    · have hst : ∀ s1 : Session J I E R, (storeResource sem s1 j r).states = s1.states := by
        intro s1; unfold storeResource; split <;> rfl
      split
      · rw [hst]; exact hm
      · exact addGenerated_keeps _ _ (by rw [hst]; exact hm)
    · exact hm

theorem update_look {sem : Sem J I E R} {s s' : Session J I E R} {j : J} {r : Result R}
    (hu : updateResult sem s j r = (s', none)) {i : I} {p : J × Outcome}
    (h : look s.states i = some p) :
    look s'.states i = some (if i = sem.id j then (p.1, r.outcome) else p) := by
  have ho := observe_look (sem := sem) s j r h
  unfold updateResult at hu
  split at hu
  · simp at hu
  · rename_i s1 heq
    rw [heq] at ho
    have : s' = (recompute sem s1).1 := by rw [hu]
    rw [this, recompute_look]
    exact ho

theorem attempt_look (s : Session J I E R) (i : I) :
    look (useAttempt s i).states = look s.states := by
  funext k
  simp only [look, useAttempt, lookup_modify]
  split
  · cases s.states.lookup k <;> rfl
  · rfl

/-- Everything the loop relies on. -/
structure LoopInv (sem : Sem J I E R) (s : Session J I E R) : Prop where
  live : Live sem s
  res : ResInv sem s

theorem use_spec {sem : Sem J I E R} {b : Bool} {s s' : Session J I E R} {j : J}
    {r : Result R} (h : LoopInv sem s) (hj : j ∈ s.jobs)
    (hu : useJobResult sem b s j r = (s', none)) :
    LoopInv sem s' ∧ s'.runList = s.runList ∧
    (∀ i p, look s.states i = some p →
      look s'.states i = some (if i = sem.id j then (p.1, r.outcome) else p)) := by
  unfold useJobResult at hu
  split at hu
  · simp at hu
  · rename_i s1 heq
    have l1 := h.live.updateResult j r heq
    have r1 : ResInv sem s1 := by
      have := h.res.step h.live.book (op := .result j r) (fun _ => hj)
      simp only [step, heq] at this
      exact this
    have e1 : s1.runList = s.runList := by
      have hb := (h.live.book.observeResult j r).2.1
      unfold updateResult at heq
      split at heq
      · simp at heq
      · rename_i s2 heq2
        rw [heq2] at hb
        have : s1 = (recompute sem s2).1 := by rw [heq]
        rw [this]
        exact hb
    have lk := fun i p => update_look heq (i := i) (p := p)
    split at hu
    · simp only [Prod.mk.injEq, and_true] at hu
      subst hu
      refine ⟨⟨l1.attempt _, ?_⟩, e1, fun i p hp => by rw [attempt_look]; exact lk i p hp⟩
      exact r1.step l1.book (op := .attempt (sem.id j)) trivial
    · simp only [Prod.mk.injEq, and_true] at hu
      subst hu
      exact ⟨⟨l1, r1⟩, e1, lk⟩

theorem rule_not_none {sem : Sem J I E R} {lk : I → Option (J × Outcome)} {j : J}
    {hs : List (Inhibitor J E)} {o : Outcome} (h : CannotStartRule sem lk j hs o) :
    o ≠ .none := by
  rcases h with ⟨_, _, rfl⟩ | ⟨_, ⟨_, rfl⟩ | ⟨_, rfl⟩⟩ <;> simp

theorem consider_spec {sem : Sem J I E R} {b : Bool} {out : Session J I E R → J → Result R}
    (hout : ∀ s j, (out s j).outcome ≠ .none) {s s' : Session J I E R} {j : J}
    (h : LoopInv sem s) (hj : j ∈ s.runList)
    (hu : considerJob sem b out s j = (s', none)) :
    LoopInv sem s' ∧ s'.runList = s.runList ∧
    (∀ i p, look s.states i = some p → i ≠ sem.id j → look s'.states i = some p) ∧
    (∃ k o, look s'.states (sem.id j) = some (k, o) ∧ o ≠ .none) := by
  obtain ⟨q, hq, _⟩ := h.live.book.lookup_some (h.live.runSub j hj)
  unfold considerJob at hu
  simp only [hq] at hu
  have hl : look s.states (sem.id j) = some (q.job, q.result.outcome) :=
    look_some.mpr ⟨q, hq, rfl, rfl⟩
  have main : ∀ r : Result R, r.outcome ≠ .none → useJobResult sem b s j r = (s', none) →
      LoopInv sem s' ∧ s'.runList = s.runList ∧
      (∀ i p, look s.states i = some p → i ≠ sem.id j → look s'.states i = some p) ∧
      (∃ k o, look s'.states (sem.id j) = some (k, o) ∧ o ≠ .none) := by
    intro r hr hu
    obtain ⟨a1, a2, a3⟩ := use_spec h (h.live.runSub j hj) hu
    refine ⟨a1, a2, ?_, ?_⟩
    · intro i p hp hi
      have := a3 i p hp
      rwa [if_neg hi] at this
    · have := a3 _ _ hl
      rw [if_pos rfl] at this
      exact ⟨_, _, this, hr⟩
  split at hu
  · exact main _ (hout _ _) hu
  · obtain ⟨o, ho, hr, _⟩ := C08_cannot_start sem (look s.states) j q.inhib
      (live_related h.live hq)
    rw [ho] at hu
    exact main _ (rule_not_none hr) hu

theorem runJobs_spec {sem : Sem J I E R} {b : Bool} {out : Session J I E R → J → Result R}
    (hout : ∀ s j, (out s j).outcome ≠ .none) : ∀ (js : List J) {s s' : Session J I E R},
    LoopInv sem s → (∀ j ∈ js, j ∈ s.runList) → (js.map sem.id).Nodup →
    runJobs sem b out s js = (s', none) →
    LoopInv sem s' ∧ s'.runList = s.runList ∧
    (∀ i p, look s.states i = some p → i ∉ js.map sem.id → look s'.states i = some p) ∧
    (∀ j ∈ js, ∃ k o, look s'.states (sem.id j) = some (k, o) ∧ o ≠ .none) := by
  intro js
  induction js with
  | nil =>
    intro s s' h _ _ hr
    simp only [runJobs, Prod.mk.injEq, and_true] at hr
    subst hr
    exact ⟨h, rfl, fun _ _ h _ => h, by simp⟩
  | cons j js ih =>
    intro s s' h hsub hnd hr
    simp only [runJobs] at hr
    split at hr
    · simp at hr
    · rename_i s1 heq
      obtain ⟨a1, a2, a3, k, o, hk, ho⟩ := consider_spec hout h (hsub j (by simp)) heq
      simp only [List.map_cons, List.nodup_cons] at hnd
      obtain ⟨b1, b2, b3, b4⟩ := ih a1 (by
        intro x hx; rw [a2]; exact hsub x (by simp [hx])) hnd.2 hr
      refine ⟨b1, b2.trans a2, ?_, ?_⟩
      · intro i p hp hi
        simp only [List.map_cons, List.mem_cons, not_or] at hi
        exact b3 i p (a3 i p hp hi.1) hi.2
      · intro x hx
        rcases List.mem_cons.mp hx with rfl | hx
        · exact ⟨k, o, b3 _ _ hk hnd.1, ho⟩
        · exact b4 x hx

/-- No dependency of the job is still to be done. -/
def NothingPending (l : List (Inhibitor J E)) : Prop :=
  ∀ x ∈ l, x.cause = .failedDep ∨ x.cause = .failedResource

theorem nothing_pending {sem : Sem J I E R} (hwf : sem.WF) {s : Session J I E R}
    (h : LoopInv sem s) {j : J} (hj : j ∈ s.runList)
    (hdone : ∀ d ∈ sem.depOrder j, ∃ q, s.states.lookup d.2 = some q ∧ q.result.outcome ≠ .none)
    (hkind : RefersToResources sem s j) {q : JobState J E R}
    (hq : s.states.lookup (sem.id j) = some q) : NothingPending q.inhib := by
  intro x hx
  have hf := (h.live.fresh _ q hq).2 j hj rfl
  obtain ⟨a, b, c, ha, hb, hc, hl⟩ := inhibitorList_split hf
  rw [hl, List.mem_append, List.mem_append] at hx
  rcases hx with (hx | hx) | hx
  · obtain ⟨es, hp, ⟨e, i0, he, i, hi, k, o, hlk, ho, rfl⟩ | ⟨e, _, i', _, k, o, _, rfl⟩⟩ :=
      (resourcePart_mem ha x).mp hx
    · exfalso
      obtain ⟨h1, h2, h3⟩ := (Resource.C18_program sem.expr s.resources es).2.2.1 e i0 he
      have hmem : i0 ∈ sem.resDeps j := by
        simp only [Sem.resDeps, hp, List.mem_flatMap]
        exact ⟨e, h1, h2⟩
      obtain ⟨q', hq', ho'⟩ := hdone (.resource, i0) ((hwf j _ _).mpr (.inr (.inl ⟨rfl, hmem⟩)))
      obtain ⟨g1, g2⟩ := h.live.book.lookup_job hq'
      have := h.res i0 q' hq' (hkind q'.job g1 (by rw [g2]; exact hmem)) ho'
      rw [h3] at this
      simp at this
    · exact .inr rfl
  · rw [directLoop_eq] at hb
    obtain ⟨i, hi, k, o, hlk, hxf⟩ := (genLoop_mem hb x).mp hx
    obtain ⟨q', hq', ho'⟩ := hdone (.direct, i) ((hwf j _ _).mpr (.inl ⟨rfl, hi⟩))
    have : o = q'.result.outcome := by
      simp only [look] at hlk
      simp only at hq'
      rw [hq'] at hlk
      simp only [Option.map_some, Option.some.injEq, Prod.mk.injEq] at hlk
      exact hlk.2.symm
    rw [if_neg (this ▸ ho')] at hxf
    split at hxf
    · simp at hxf; rw [hxf]; exact .inl rfl
    · simp at hxf
  · exfalso
    rw [afterLoop_eq] at hc
    obtain ⟨i, hi, k, o, hlk, hxf⟩ := (genLoop_mem hc x).mp hx
    obtain ⟨q', hq', ho'⟩ := hdone (.ordering, i) ((hwf j _ _).mpr (.inr (.inr ⟨rfl, hi⟩)))
    have : o = q'.result.outcome := by
      simp only [look] at hlk
      simp only at hq'
      rw [hq'] at hlk
      simp only [Option.map_some, Option.some.injEq, Prod.mk.injEq] at hlk
      exact hlk.2.symm
    rw [if_neg (this ▸ ho')] at hxf
    simp at hxf

/-- **C07**.  Take a session reached by calls that return normally, and consider the jobs of its run list in order, running each one
that can start with an arbitrary outcome (`out`) and recording the not-started outcome otherwise.
Whenever a job is about to be considered:
every dependency of it has an outcome, its inhibitors mention failures only (when its requirements
refer to resource jobs, as they should), it can start only if all its direct dependencies passed, and otherwise the not-started outcome is
defined.  When the loop has come to its end every job of the run list has an outcome. -/
theorem C07_run_in_order {sem : Sem J I E R} (hwf : sem.WF) {s0 : Session J I E R}
    (h0 : Reachable sem s0) (autoRetry : Bool) (out : Session J I E R → J → Result R)
    (hout : ∀ s j, (out s j).outcome ≠ .none) :
    (∀ pre j post s, s0.runList = pre ++ j :: post →
      runJobs sem autoRetry out s0 pre = (s, none) →
      (∀ d ∈ sem.depOrder j, ∃ q, s.states.lookup d.2 = some q ∧ q.result.outcome ≠ .none) ∧
      ∃ q, s.states.lookup (sem.id j) = some q ∧
        ((∀ k ∈ s0.runList, sem.id k ∈ sem.resDeps j → sem.isResource k = true) →
          NothingPending q.inhib) ∧
        (q.canStart = true →
          ∀ i ∈ sem.direct j, ∃ p, s.states.lookup i = some p ∧ p.result.outcome = .pass) ∧
        (q.canStart = false →
          ∃ o, cannotStartOutcome sem (look s.states) j q.inhib = .ok o ∧
            CannotStartRule sem (look s.states) j q.inhib o)) ∧
    (∀ s, runJobs sem autoRetry out s0 s0.runList = (s, none) →
      ∀ j ∈ s0.runList, ∃ q, s.states.lookup (sem.id j) = some q ∧ q.result.outcome ≠ .none) := by
  have hi0 : LoopInv sem s0 := ⟨h0.live hwf, h0.resInv hwf⟩
  constructor
  · intro pre j post s heq hr
    have hnd := hi0.live.runNodup
    rw [heq, List.map_append, List.nodup_append] at hnd
    obtain ⟨a1, a2, a3, a4⟩ := runJobs_spec hout pre hi0 (by
      intro x hx; rw [heq]; simp [hx]) hnd.1 hr
    have hj : j ∈ s.runList := by rw [a2, heq]; simp
    have hdone : ∀ d ∈ sem.depOrder j,
        ∃ q, s.states.lookup d.2 = some q ∧ q.result.outcome ≠ .none := by
      intro d hd
      have := hi0.live.order pre j post heq d hd
      obtain ⟨x, hx, hxi⟩ := List.mem_map.mp this
      obtain ⟨k, o, hk, ho⟩ := a4 x hx
      have hxi' : sem.id x = d.2 := hxi
      rw [hxi'] at hk
      obtain ⟨q, hq, _, hqo⟩ := look_some.mp hk
      exact ⟨q, hq, hqo ▸ ho⟩
    have hrk : (∀ k ∈ s0.runList, sem.id k ∈ sem.resDeps j → sem.isResource k = true) →
        RefersToResources sem s j := by
      intro hkind k hk hki
      have hmem := (dep_in_run hwf a1.live.order hj).2.2 _ hki
      obtain ⟨x, hx, hxi⟩ := List.mem_map.mp hmem
      have : x = k := eq_of_id (g := sem.graph) a1.live.book.nodup (a1.live.runSub x hx) hk hxi
      subst this
      rw [a2] at hx hj
      exact hkind x hx hki
    obtain ⟨q, hq, _⟩ := a1.live.book.lookup_some (a1.live.runSub j hj)
    refine ⟨hdone, q, hq, fun hk => nothing_pending hwf a1 hj hdone (hrk hk) hq, ?_, ?_⟩
    · intro hcs i hi
      have hf := (a1.live.fresh _ q hq).2 j hj rfl
      have hnil : q.inhib = [] := by
        simp only [JobState.canStart, Bool.and_eq_true, List.isEmpty_iff] at hcs
        exact hcs.1
      obtain ⟨a, b, c, ha, hb, hc, hl⟩ := inhibitorList_split hf
      rw [hnil] at hl
      have : b = [] := by
        have := hl.symm
        simp only [List.append_eq_nil_iff] at this
        exact this.1.2
      rw [this] at hb
      obtain ⟨k, hk⟩ := direct_nil.mp hb i hi
      obtain ⟨p, hp, _, hpo⟩ := look_some.mp hk
      exact ⟨p, hp, hpo⟩
    · intro _
      obtain ⟨o, ho, hrule, _⟩ := C08_cannot_start sem (look s.states) j q.inhib
        (live_related a1.live hq)
      exact ⟨o, ho, hrule⟩
  · intro s hr j hj
    obtain ⟨_, _, _, a4⟩ := runJobs_spec hout s0.runList hi0 (fun _ h => h) hi0.live.runNodup hr
    obtain ⟨k, o, hk, ho⟩ := a4 j hj
    obtain ⟨q, hq, _, hqo⟩ := look_some.mp hk
    exact ⟨q, hq, hqo ▸ ho⟩

/-! ## Concrete case -/

def loopStart : Session XJob Nat (Nat × Nat) Nat :=
  (runOps exSem emptySession [.add x1, .add x2, .add x3, .add x4, .desired [x4, x2] true]).1

theorem loopStart_reachable : Reachable exSem loopStart := by
  apply runOps_reachable [.add x1, .add x2, .add x3, .add x4, .desired [x4, x2] true]
    (s := emptySession)
  · exact .start (units := []) (by decide)
  · decide
  · decide

/-- Job 3 fails, so job 2 is not started, and job 4 still runs. -/
def exOut (_ : Session XJob Nat (Nat × Nat) Nat) (j : XJob) : Result Nat :=
  if j.id = 3 then ⟨.fail, [], 0⟩ else ⟨.pass, [5], 0⟩

example : (∀ s j, (exOut s j).outcome ≠ .none) ∧
    (∀ j ∈ loopStart.runList, ∀ k ∈ loopStart.runList, exSem.id k ∈ exSem.resDeps j →
      exSem.isResource k = true) := by
  refine ⟨?_, by decide⟩
  intro s j
  unfold exOut
  split <;> simp

example : loopStart.runList = [x3, x1, x2, x4] ∧
    (runJobs exSem true exOut loopStart loopStart.runList).2 = none ∧
    (runJobs exSem true exOut loopStart loopStart.runList).1.states.map
      (fun p => (p.1, p.2.result.outcome, p.2.attempts)) =
      [(1, .pass, 2), (2, .notSupported, 2), (3, .fail, 2), (4, .pass, 2)] := by decide

end Verif.Session
