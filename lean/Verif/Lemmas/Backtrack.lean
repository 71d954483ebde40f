import Verif.Model.Backtrack
import Verif.Props.RunLoop

/-! # Lemmas about the run loop of `plainbox run` -/

set_option linter.unusedSectionVars false

namespace Verif.Session

open Verif.DepMgr (Graph DepType DepsFirst Reach eq_of_id DependsOn)

variable {J I E R : Type} [DecidableEq J] [DecidableEq I] [DecidableEq E] [DecidableEq R]

/-- What is assumed of the selection: it picks known jobs, and knowing more jobs does not lose any. -/
structure SelOK (sel : List J → List J) : Prop where
  sub : ∀ jobs, ∀ j ∈ sel jobs, j ∈ jobs
  mono : ∀ a b : List J, (∀ x ∈ a, x ∈ b) → ∀ x ∈ sel a, x ∈ sel b

/-- The run list is that of the selection, and the session is in order except for readiness. -/
structure Plan (sem : Sem J I E R) (sel : List J → List J) (s : Session J I E R) : Prop where
  book : Book sem s
  mand : ∀ v ∈ s.mandatory, v ∈ s.jobs
  res : ResInv sem s
  rep : ∃ problems, RepOK sem.graph s.jobs (s.mandatory ++ sel s.jobs) s.desired s.runList problems

/-- What adding jobs does to a session. -/
structure Ext (sem : Sem J I E R) (N : J → Prop) (s s' : Session J I E R) (added : Bool) : Prop where
  jobs : ∀ j ∈ s.jobs, j ∈ s'.jobs
  run : ∀ j ∈ s.runList, j ∈ s'.runList
  keeps : ∀ i p, look s.states i = some p → look s'.states i = some p
  quiet : added = false → s'.jobs = s.jobs ∧ s'.runList = s.runList
  loud : added = true → s.jobs.length < s'.jobs.length
  len : s.jobs.length ≤ s'.jobs.length
  new : ∀ j ∈ s'.jobs, j ∈ s.jobs ∨ N j

theorem Ext.refl {sem : Sem J I E R} {N : J → Prop} (s : Session J I E R) : Ext sem N s s false :=
  ⟨fun _ h => h, fun _ h => h, fun _ _ h => h, fun _ => ⟨rfl, rfl⟩, by simp, Nat.le_refl _, fun _ h => .inl h⟩

theorem Ext.trans {sem : Sem J I E R} {N : J → Prop} {s s' s'' : Session J I E R} {a b : Bool}
    (h : Ext sem N s s' a) (h' : Ext sem N s' s'' b) : Ext sem N s s'' (a || b) := by
  refine ⟨fun j hj => h'.jobs j (h.jobs j hj), fun j hj => h'.run j (h.run j hj),
    fun i p hp => h'.keeps i p (h.keeps i p hp), ?_, ?_, Nat.le_trans h.len h'.len, ?_⟩
  · intro hab
    simp only [Bool.or_eq_false_iff] at hab
    obtain ⟨a1, a2⟩ := h.quiet hab.1
    obtain ⟨b1, b2⟩ := h'.quiet hab.2
    exact ⟨b1.trans a1, b2.trans a2⟩
  · intro hab
    simp only [Bool.or_eq_true] at hab
    have l1 := h.len
    have l2 := h'.len
    rcases hab with hab | hab
    · have := h.loud hab; omega
    · have := h'.loud hab; omega
  · intro j hj
    rcases h'.new j hj with hj | hj
    · exact h.new j hj
    · exact .inr hj

theorem Ext.weaken {sem : Sem J I E R} {N M : J → Prop} {s s' : Session J I E R} {a : Bool}
    (h : Ext sem N s s' a) (hnm : ∀ j, N j → M j) : Ext sem M s s' a :=
  ⟨h.jobs, h.run, h.keeps, h.quiet, h.loud, h.len, fun j hj => (h.new j hj).imp id (hnm j)⟩

theorem Ext.recompute {sem : Sem J I E R} {N : J → Prop} {s s' : Session J I E R} {a : Bool}
    (h : Ext sem N s s' a) : Ext sem N s (recompute sem s').1 a :=
  ⟨h.jobs, h.run, fun i p hp => by rw [recompute_look]; exact h.keeps i p hp, h.quiet, h.loud, h.len, h.new⟩

theorem Plan.recompute {sem : Sem J I E R} {sel : List J → List J} {s : Session J I E R} (h : Plan sem sel s) :
    Plan sem sel (recompute sem s).1 :=
  ⟨h.book.recompute, h.mand, h.res.recompute, h.rep⟩

theorem Plan.live {sem : Sem J I E R} {sel : List J → List J} {s : Session J I E R} (h : Plan sem sel s)
    (he : (Session.recompute sem s).2 = none) : Live sem (Session.recompute sem s).1 := by
  obtain ⟨p, hr⟩ := h.rep
  exact Live.of_recompute h.book (fun j hj => (hr.sub j hj).1) hr.nodup hr.order (Prod.ext rfl he)

theorem schedulable_mono {g : Graph J I} {jobs jobs' : List J} (h : ∀ x ∈ jobs, x ∈ jobs') {i : I}
    (hs : Schedulable g jobs i) : Schedulable g jobs' i := by
  induction hs with
  | mk j hj _ ih => exact .mk j (h j hj) ih

/-- Run lists grow with the selection. -/
theorem run_mono {g : Graph J I} {jobs jobs' want want' d d' run run' : List J} {p p' : List (DepMgr.Err J I)}
    (h : RepOK g jobs want d run p) (h' : RepOK g jobs' want' d' run' p')
    (hnd : (jobs'.map g.id).Nodup) (hj : ∀ x ∈ jobs, x ∈ jobs') (hw : ∀ x ∈ want, x ∈ want') :
    ∀ x ∈ run, x ∈ run' := by
  have hd : ∀ x ∈ d, x ∈ d' := by
    intro x hx
    rw [h.desired_eq, mem_survivors] at hx
    rw [h'.desired_eq, mem_survivors]
    exact ⟨hw x hx.1, schedulable_mono hj hx.2⟩
  intro x hx
  have hr := (h.sub x hx).2
  clear hx
  induction hr with
  | base hv => exact h'.all _ (hd _ hv)
  | step _ hdep ih =>
    rename_i a b _
    obtain ⟨hb, ty, hty⟩ := hdep
    obtain ⟨pre, post, he⟩ := List.append_of_mem ih
    have := h'.order pre a post he _ hty
    obtain ⟨c, hc, hci⟩ := List.mem_map.mp this
    have hcr : c ∈ run' := by rw [he]; exact List.mem_append_left _ hc
    have := eq_of_id hnd (h'.sub c hcr).1 (hj b hb) hci
    rw [← this]
    exact hcr

theorem addOneH_spec {sem : Sem J I E R} {sel : List J → List J} (hsel : SelOK sel) {s : Session J I E R}
    (h : Plan sem sel s) (j : J) (he : (addOneH sem sel s j).err = none) :
    Plan sem sel (addOneH sem sel s j).s ∧
    Ext sem (fun k => k = j) s (addOneH sem sel s j).s (addOneH sem sel s j).added := by
  unfold addOneH at he ⊢
  cases hl : s.states.lookup (sem.id j) with
  | some q =>
    rw [hl] at he
    dsimp only at he ⊢
    by_cases hq : j = q.job
    · rw [if_neg (not_not_intro hq)]
      exact ⟨h, Ext.refl s⟩
    · rw [if_pos hq] at he
      cases he
  | none =>
    rw [hl] at he
    dsimp only at he ⊢
    have hb := (h.book.addOne j)
    have ha : addOne sem s j = (⟨s.jobs ++ [j], s.units ++ [j], s.states ++ [(sem.id j, JobState.new j)], s.desired,
        s.mandatory, s.runList, s.resources⟩, none) := by
      unfold addOne; rw [hl]
    rw [ha] at he hb ⊢
    dsimp only at he hb ⊢
    obtain ⟨hb, -, -⟩ := hb
    obtain ⟨d, run, problems, hr, hu⟩ := updateDesired_spec hb (sel (s.jobs ++ [j])) true (by
      intro v hv _
      rcases List.mem_append.mp hv with hv | hv
      · exact List.mem_append_left _ (h.mand v hv)
      · exact hsel.sub _ v hv)
    rw [hu] at he ⊢
    dsimp only at he ⊢
    have hplan : Plan sem sel ⟨s.jobs ++ [j], s.units ++ [j], s.states ++ [(sem.id j, JobState.new j)], d,
        s.mandatory, run, s.resources⟩ := by
      refine ⟨⟨hb.nodup, hb.states, hb.res⟩, fun v hv => List.mem_append_left _ (h.mand v hv), ?_, problems, hr⟩
      intro i q hq hres ho
      dsimp only at hq ⊢
      rw [lookup_append_if] at hq
      cases hq' : s.states.lookup i with
      | some q' =>
        rw [hq'] at hq
        dsimp only at hq
        cases hq
        exact h.res i q hq' hres ho
      | none =>
        rw [hq'] at hq
        dsimp only at hq
        split at hq
        · cases hq
          exact absurd rfl ho
        · cases hq
    refine ⟨hplan.recompute, ?_⟩
    obtain ⟨p, hr0⟩ := h.rep
    have hext : Ext sem (fun k => k = j) s ⟨s.jobs ++ [j], s.units ++ [j], s.states ++ [(sem.id j, JobState.new j)], d,
        s.mandatory, run, s.resources⟩ true := by
      refine ⟨fun k hk => List.mem_append_left _ hk, ?_, ?_, by simp, by simp, by simp, ?_⟩
      · refine run_mono hr0 hr hb.nodup (fun k hk => List.mem_append_left _ hk) ?_
        intro v hv
        rcases List.mem_append.mp hv with hv | hv
        · exact List.mem_append_left _ hv
        · exact List.mem_append_right _ (hsel.mono _ _ (fun k hk => List.mem_append_left _ hk) v hv)
      · intro i p hp
        have := addOne_keeps (sem := sem) s j hp
        rw [ha] at this
        exact this
      · intro k hk
        simpa using hk
    exact hext.recompute

theorem addManyH_spec {sem : Sem J I E R} {sel : List J → List J} (hsel : SelOK sel) : ∀ (js : List J)
    {s : Session J I E R}, Plan sem sel s → (addManyH sem sel s js).err = none →
    Plan sem sel (addManyH sem sel s js).s ∧
    Ext sem (fun k => k ∈ js) s (addManyH sem sel s js).s (addManyH sem sel s js).added := by
  intro js
  induction js with
  | nil => intro s h _; exact ⟨h, Ext.refl s⟩
  | cons j js ih =>
    intro s h he
    rw [addManyH] at he ⊢
    dsimp only at he ⊢
    cases h1 : (addOneH sem sel s j).err with
    | some x => rw [h1] at he; cases he
    | none =>
      rw [h1] at he
      dsimp only at he ⊢
      obtain ⟨p1, e1⟩ := addOneH_spec hsel h j h1
      obtain ⟨p2, e2⟩ := ih p1 he
      exact ⟨p2, (e1.weaken (by intro k hk; rw [hk]; exact List.mem_cons_self)).trans
        (e2.weaken (fun k hk => List.mem_cons_of_mem _ hk))⟩

theorem addUnitH_spec {sem : Sem J I E R} {sel : List J → List J} (hsel : SelOK sel) {s : Session J I E R}
    (h : Plan sem sel s) (j : J) (he : (addUnitH sem sel s j).err = none) :
    Plan sem sel (addUnitH sem sel s j).s ∧
    Ext sem (fun k => k ∈ j :: sem.family j) s (addUnitH sem sel s j).s (addUnitH sem sel s j).added := by
  unfold addUnitH at he ⊢
  dsimp only at he ⊢
  cases h1 : (addManyH sem sel s (j :: sem.family j)).err with
  | some x => rw [h1] at he; cases he
  | none =>
    obtain ⟨p, e⟩ := addManyH_spec hsel _ h h1
    exact ⟨p.recompute, e.recompute⟩

theorem addGeneratedH_spec {sem : Sem J I E R} {sel : List J → List J} (hsel : SelOK sel) : ∀ (js : List J)
    {s : Session J I E R}, Plan sem sel s → (addGeneratedH sem sel s js).err = none →
    Plan sem sel (addGeneratedH sem sel s js).s ∧
    Ext sem (fun k => ∃ j ∈ js, k ∈ j :: sem.family j) s (addGeneratedH sem sel s js).s
      (addGeneratedH sem sel s js).added := by
  intro js
  induction js with
  | nil => intro s h _; exact ⟨h, Ext.refl s⟩
  | cons j js ih =>
    intro s h he
    rw [addGeneratedH] at he ⊢
    dsimp only at he ⊢
    cases h1 : (addUnitH sem sel s j).err with
    | some x => rw [h1] at he; cases he
    | none =>
      rw [h1] at he
      dsimp only at he ⊢
      obtain ⟨p1, e1⟩ := addUnitH_spec hsel h j h1
      obtain ⟨p2, e2⟩ := ih p1 he
      exact ⟨p2, (e1.weaken (fun k hk => ⟨j, List.mem_cons_self, hk⟩)).trans
        (e2.weaken (fun k ⟨x, hx, hk⟩ => ⟨x, List.mem_cons_of_mem _ hx, hk⟩))⟩

/-- A job made by a template or as a sibling of such a job. -/
def Made (sem : Sem J I E R) (k : J) : Prop := ∃ j res, ∃ t ∈ sem.gen j res, k ∈ t :: sem.family t

/-- What recording a result does. -/
structure Upd (sem : Sem J I E R) (j : J) (o : Outcome) (s s' : Session J I E R) (added : Bool) : Prop where
  jobs : ∀ k ∈ s.jobs, k ∈ s'.jobs
  run : ∀ k ∈ s.runList, k ∈ s'.runList
  sets : ∀ i p, look s.states i = some p → look s'.states i = some (if i = sem.id j then (p.1, o) else p)
  quiet : added = false → s'.jobs = s.jobs ∧ s'.runList = s.runList
  loud : added = true → s.jobs.length < s'.jobs.length
  len : s.jobs.length ≤ s'.jobs.length
  new : ∀ k ∈ s'.jobs, k ∈ s.jobs ∨ Made sem k

/-- Without templates. -/
def plainSem (sem : Sem J I E R) : Sem J I E R := { sem with gen := fun _ _ => [] }

/-- The session right after the result was stored. -/
theorem record_spec {sem : Sem J I E R} {sel : List J → List J} {s : Session J I E R} (h : Plan sem sel s) (j : J)
    (hj : j ∈ s.jobs) (r : Result R) :
    Plan sem sel (observeResult (plainSem sem) s j r).1 ∧
    (observeResult (plainSem sem) s j r).1.jobs = s.jobs ∧
    (observeResult (plainSem sem) s j r).1.runList = s.runList ∧
    (∀ i p, look s.states i = some p → look (observeResult (plainSem sem) s j r).1.states i =
      some (if i = sem.id j then (p.1, r.outcome) else p)) := by
  have hb : Book (plainSem sem) s := ⟨h.book.nodup, h.book.states, h.book.res⟩
  obtain ⟨b1, b2, _⟩ := hb.observeResult j r
  have hr := ResInv.observe (sem := plainSem sem) (r := r) h.res hb (j := j) (fun _ => hj)
  have fields : (observeResult (plainSem sem) s j r).1.jobs = s.jobs ∧
      (observeResult (plainSem sem) s j r).1.mandatory = s.mandatory ∧
      (observeResult (plainSem sem) s j r).1.desired = s.desired := by
    unfold observeResult storeResource
    split
    · exact ⟨rfl, rfl, rfl⟩
    · split
      · split
        · exact ⟨rfl, rfl, rfl⟩
        · exact ⟨rfl, rfl, rfl⟩
      · exact ⟨rfl, rfl, rfl⟩
  obtain ⟨f1, f2, f3⟩ := fields
  refine ⟨⟨⟨b1.nodup, b1.states, b1.res⟩, ?_, hr, ?_⟩, f1, b2, fun i p hp => observe_look s j r hp⟩
  · rw [f1, f2]; exact h.mand
  · rw [f1, f2, f3, b2]; exact h.rep

theorem observeResultH_spec {sem : Sem J I E R} {sel : List J → List J} (hsel : SelOK sel) {s : Session J I E R}
    (h : Plan sem sel s) (j : J) (hj : j ∈ s.jobs) (r : Result R) (he : (observeResultH sem sel s j r).err = none) :
    Plan sem sel (observeResultH sem sel s j r).s ∧
    Upd sem j r.outcome s (observeResultH sem sel s j r).s (observeResultH sem sel s j r).added := by
  obtain ⟨p, f1, f2, lk⟩ := record_spec h j hj r
  have plain : ∀ h' : Hooked J I E R, h' = ⟨(observeResult (plainSem sem) s j r).1, false, none⟩ →
      Plan sem sel h'.s ∧ Upd sem j r.outcome s h'.s h'.added := by
    rintro _ rfl
    exact ⟨p, by rw [f1]; exact fun _ h => h, by rw [f2]; exact fun _ h => h, lk, fun _ => ⟨f1, f2⟩,
      by simp, by rw [f1]; exact Nat.le_refl _, by rw [f1]; exact fun _ h => .inl h⟩
  unfold observeResultH at he ⊢
  unfold observeResult at p f1 f2 lk plain
  have e1 : (plainSem sem).isResource j = sem.isResource j := rfl
  have e2 : (plainSem sem).id j = sem.id j := rfl
  rw [e1, e2] at p f1 f2 lk plain
  by_cases hn : (s.states.lookup (sem.id j)).isNone = true
  · rw [if_pos hn] at he; cases he
  · rw [if_neg hn] at he p f1 f2 lk plain ⊢
    dsimp only at he p f1 f2 lk plain ⊢
    by_cases hres : sem.isResource j = true
    · rw [if_pos hres] at he p f1 f2 lk plain ⊢
      by_cases ho : r.outcome = .none
      · rw [if_pos ho] at plain ⊢
        exact plain _ rfl
      · rw [if_neg ho] at he p f1 f2 lk ⊢
        have e3 : (addGenerated (plainSem sem)
            (storeResource (plainSem sem) { s with states := modify s.states (sem.id j) (setResult r) } j r)
            ((plainSem sem).gen j (((storeResource (plainSem sem)
              { s with states := modify s.states (sem.id j) (setResult r) } j r).resources.lookup (sem.id j)).getD []))).1 =
            storeResource sem { s with states := modify s.states (sem.id j) (setResult r) } j r := rfl
        rw [e3] at p f1 f2 lk
        obtain ⟨p', e⟩ := addGeneratedH_spec hsel _ p he
        refine ⟨p', ?_, ?_, ?_, ?_, ?_, ?_, ?_⟩
        · intro k hk; exact e.jobs k (by rw [f1]; exact hk)
        · intro k hk; exact e.run k (by rw [f2]; exact hk)
        · intro i q hq; exact e.keeps i _ (lk i q hq)
        · intro ha
          obtain ⟨a1, a2⟩ := e.quiet ha
          exact ⟨a1.trans f1, a2.trans f2⟩
        · intro ha; have := e.loud ha; rw [f1] at this; exact this
        · have := e.len; rw [f1] at this; exact this
        · intro k hk
          rcases e.new k hk with hk | ⟨t, ht, hk⟩
          · rw [f1] at hk; exact .inl hk
          · exact .inr ⟨j, _, t, ht, hk⟩
    · rw [if_neg hres] at plain ⊢
      exact plain _ rfl

theorem updateResultH_spec {sem : Sem J I E R} {sel : List J → List J} (hsel : SelOK sel) {s : Session J I E R}
    (h : Plan sem sel s) (j : J) (hj : j ∈ s.jobs) (r : Result R) (he : (updateResultH sem sel s j r).err = none) :
    Plan sem sel (updateResultH sem sel s j r).s ∧ Live sem (updateResultH sem sel s j r).s ∧
    Upd sem j r.outcome s (updateResultH sem sel s j r).s (updateResultH sem sel s j r).added := by
  unfold updateResultH at he ⊢
  dsimp only at he ⊢
  cases h1 : (observeResultH sem sel s j r).err with
  | some x => rw [h1] at he; cases he
  | none =>
    rw [h1] at he
    dsimp only at he ⊢
    obtain ⟨p, u⟩ := observeResultH_spec hsel h j hj r h1
    refine ⟨p.recompute, p.live he, u.jobs, u.run, ?_, u.quiet, u.loud, u.len, u.new⟩
    intro i q hq
    rw [recompute_look]
    exact u.sets i q hq

/-! ## Jobs, rounds, the loop -/

/-- A state of the loop without an exception. -/
structure Sound (sem : Sem J I E R) (sel : List J → List J) (b : Round J I E R) : Prop where
  plan : Plan sem sel b.s
  live : Live sem b.s
  err : b.err = none

theorem runSingle_spec {sem : Sem J I E R} {sel : List J → List J} (hsel : SelOK sel)
    {out : Session J I E R → J → Result R} (hout : ∀ s j, (out s j).outcome ≠ .none) {b : Round J I E R}
    (h : Sound sem sel b) {j : J} (hj : j ∈ b.s.runList) (he : (runSingle sem sel out b j).err = none) :
    Sound sem sel (runSingle sem sel out b j) ∧
    ∃ o added, o ≠ .none ∧ Upd sem j o b.s (runSingle sem sel out b j).s added ∧
      (runSingle sem sel out b j).flag = (b.flag || added) ∧
      ((runSingle sem sel out b j).started = b.started ∨ (runSingle sem sel out b j).started = b.started ++ [j]) := by
  have hjj := h.live.runSub j hj
  obtain ⟨q, hq, _⟩ := h.live.book.lookup_some hjj
  unfold runSingle at he ⊢
  rw [hq] at he ⊢
  dsimp only at he ⊢
  by_cases hc : q.canStart = true
  · rw [if_pos hc] at he ⊢
    obtain ⟨p, l, u⟩ := updateResultH_spec hsel h.plan j hjj _ he
    exact ⟨⟨p, l, he⟩, _, _, hout _ _, u, rfl, .inr rfl⟩
  · rw [if_neg hc] at he ⊢
    obtain ⟨o, ho, hr, _⟩ := C08_cannot_start sem (look b.s.states) j q.inhib (live_related h.live hq)
    rw [ho] at he ⊢
    dsimp only at he ⊢
    obtain ⟨p, l, u⟩ := updateResultH_spec hsel h.plan j hjj _ he
    exact ⟨⟨p, l, he⟩, _, _, rule_not_none hr, u, rfl, .inl rfl⟩

/-- What running a list of jobs does. -/
structure Batch (sem : Sem J I E R) (js : List J) (b b' : Round J I E R) : Prop where
  jobs : ∀ k ∈ b.s.jobs, k ∈ b'.s.jobs
  run : ∀ k ∈ b.s.runList, k ∈ b'.s.runList
  keeps : ∀ i p, look b.s.states i = some p → i ∉ js.map sem.id → look b'.s.states i = some p
  done : ∀ j ∈ js, ∃ k o, look b'.s.states (sem.id j) = some (k, o) ∧ o ≠ .none
  never : ∀ i k o, look b.s.states i = some (k, o) → o ≠ .none → ∃ o', look b'.s.states i = some (k, o') ∧ o' ≠ .none
  quiet : b'.flag = false → b.flag = false ∧ b'.s.jobs = b.s.jobs ∧ b'.s.runList = b.s.runList
  loud : b'.flag = true → b.flag = true ∨ b.s.jobs.length < b'.s.jobs.length
  len : b.s.jobs.length ≤ b'.s.jobs.length
  new : ∀ k ∈ b'.s.jobs, k ∈ b.s.jobs ∨ Made sem k
  started : ∃ l, b'.started = b.started ++ l ∧ l.Sublist js

theorem runBatch_spec {sem : Sem J I E R} {sel : List J → List J} (hsel : SelOK sel)
    {out : Session J I E R → J → Result R} (hout : ∀ s j, (out s j).outcome ≠ .none) : ∀ (js : List J)
    {b : Round J I E R}, Sound sem sel b → (∀ j ∈ js, j ∈ b.s.runList) →
    (runBatch sem sel out b js).err = none →
    Sound sem sel (runBatch sem sel out b js) ∧ Batch sem js b (runBatch sem sel out b js) := by
  intro js
  induction js with
  | nil =>
    intro b h _ _
    refine ⟨h, fun _ h => h, fun _ h => h, fun _ _ h _ => h, by simp, fun i k o h1 h2 => ⟨o, h1, h2⟩,
      fun h => ⟨h, rfl, rfl⟩, fun h => .inl h, Nat.le_refl _, fun _ h => .inl h, [], by simp [runBatch], by simp⟩
  | cons j js ih =>
    intro b h hsub he
    rw [runBatch] at he ⊢
    by_cases hb : (runSingle sem sel out b j).err.isSome = true
    · rw [if_pos hb] at he
      rw [he] at hb
      cases hb
    · rw [if_neg hb] at he ⊢
      have he1 : (runSingle sem sel out b j).err = none := by simpa using hb
      obtain ⟨h1, o, added, ho, u, hf, hst⟩ := runSingle_spec hsel hout h (hsub j List.mem_cons_self) he1
      obtain ⟨h2, t⟩ := ih h1 (fun k hk => u.run k (hsub k (List.mem_cons_of_mem _ hk))) he
      refine ⟨h2, fun k hk => t.jobs k (u.jobs k hk), fun k hk => t.run k (u.run k hk), ?_, ?_, ?_, ?_, ?_,
        Nat.le_trans u.len t.len, ?_, ?_⟩
      · intro i p hp hi
        simp only [List.map_cons, List.mem_cons, not_or] at hi
        have := u.sets i p hp
        rw [if_neg hi.1] at this
        exact t.keeps i p this hi.2
      · intro k hk
        rcases List.mem_cons.mp hk with rfl | hk
        · obtain ⟨q, hq, _⟩ := h.live.book.lookup_some (h.live.runSub k (hsub k List.mem_cons_self))
          have hl : look b.s.states (sem.id k) = some (q.job, q.result.outcome) := look_some.mpr ⟨q, hq, rfl, rfl⟩
          have := u.sets _ _ hl
          rw [if_pos rfl] at this
          obtain ⟨o', ho1, ho2⟩ := t.never _ _ _ this ho
          exact ⟨_, o', ho1, ho2⟩
        · exact t.done k hk
      · intro i k o1 h1 h2
        have := u.sets i _ h1
        by_cases hi : i = sem.id j
        · rw [if_pos hi] at this
          exact t.never i _ _ this ho
        · rw [if_neg hi] at this
          exact t.never i _ _ this h2
      · intro hfl
        obtain ⟨a1, a2, a3⟩ := t.quiet hfl
        rw [hf, Bool.or_eq_false_iff] at a1
        obtain ⟨b1, b2⟩ := u.quiet a1.2
        exact ⟨a1.1, a2.trans b1, a3.trans b2⟩
      · intro hfl
        have l1 := u.len
        have l2 := t.len
        rcases t.loud hfl with hfl | hfl
        · rw [hf, Bool.or_eq_true] at hfl
          rcases hfl with hfl | hfl
          · exact .inl hfl
          · have := u.loud hfl
            exact .inr (by omega)
        · exact .inr (by omega)
      · intro k hk
        rcases t.new k hk with hk | hk
        · exact u.new k hk
        · exact .inr hk
      · obtain ⟨l, hl, hs⟩ := t.started
        rcases hst with hst | hst
        · exact ⟨l, by rw [hl, hst], hs.cons _⟩
        · exact ⟨j :: l, by rw [hl, hst]; simp, hs.cons_cons _⟩

theorem gather_spec {sem : Sem J I E R} {s : Session J I E R} : ∀ (js : List J) {l : List J},
    gather sem s js = .ok l → l.Sublist js ∧
    (∀ j ∈ l, ∃ q, s.states.lookup (sem.id j) = some q ∧ q.result.outcome = .none) ∧
    (∀ j ∈ js, j ∉ l → ∃ q, s.states.lookup (sem.id j) = some q ∧ q.result.outcome ≠ .none) := by
  intro js
  induction js with
  | nil => intro l h; cases h; exact ⟨.slnil, by simp, by simp⟩
  | cons j js ih =>
    intro l h
    rw [gather] at h
    cases hq : s.states.lookup (sem.id j) with
    | none => rw [hq] at h; cases h
    | some q =>
      rw [hq] at h
      dsimp only at h
      cases hg : gather sem s js with
      | error x => rw [hg] at h; cases h
      | ok l' =>
        rw [hg] at h
        dsimp only at h
        obtain ⟨a1, a2, a3⟩ := ih hg
        by_cases ho : q.result.outcome = .none
        · rw [if_pos ho] at h
          cases h
          refine ⟨a1.cons_cons _, ?_, ?_⟩
          · intro k hk
            rcases List.mem_cons.mp hk with rfl | hk
            · exact ⟨q, hq, ho⟩
            · exact a2 k hk
          · intro k hk hn
            rw [List.mem_cons, not_or] at hn
            rcases List.mem_cons.mp hk with hk | hk
            · exact absurd hk hn.1
            · exact a3 k hk hn.2
        · rw [if_neg ho] at h
          cases h
          refine ⟨a1.cons _, a2, ?_⟩
          intro k hk hn
          rcases List.mem_cons.mp hk with rfl | hk
          · exact ⟨q, hq, ho⟩
          · exact a3 k hk hn

/-- The state between rounds. -/
structure Between (sem : Sem J I E R) (sel : List J → List J) (b : Round J I E R) : Prop where
  sound : Sound sem sel b
  nodup : (b.started.map sem.id).Nodup
  done : ∀ j ∈ b.started, ∃ k o, look b.s.states (sem.id j) = some (k, o) ∧ o ≠ .none

theorem runRound_spec {sem : Sem J I E R} {sel : List J → List J} (hsel : SelOK sel)
    {out : Session J I E R → J → Result R} (hout : ∀ s j, (out s j).outcome ≠ .none)
    {b : Round J I E R} (h : Between sem sel b) (he : (runRound sem sel out b).err = none) :
    Between sem sel (runRound sem sel out b) ∧
    ∃ l, gather sem b.s b.s.runList = .ok l ∧ Batch sem l { b with flag := false } (runRound sem sel out b) := by
  unfold runRound at he ⊢
  cases hg : gather sem b.s b.s.runList with
  | error x => rw [hg] at he; cases he
  | ok l =>
    rw [hg] at he
    dsimp only at he ⊢
    obtain ⟨g1, g2, g3⟩ := gather_spec _ hg
    have hs : Sound sem sel { b with flag := false } := ⟨h.sound.plan, h.sound.live, h.sound.err⟩
    obtain ⟨s', t⟩ := runBatch_spec hsel hout l hs (fun j hj => g1.subset hj) he
    obtain ⟨m, hm, hsub⟩ := t.started
    have hln : (l.map sem.id).Nodup := h.sound.live.runNodup.sublist (g1.map _)
    refine ⟨⟨s', ?_, ?_⟩, l, rfl, t⟩
    · rw [hm, List.map_append, List.nodup_append]
      refine ⟨h.nodup, hln.sublist (hsub.map _), ?_⟩
      intro x hx y hy hxy
      obtain ⟨j, hj, rfl⟩ := List.mem_map.mp hx
      obtain ⟨k, hk, rfl⟩ := List.mem_map.mp hy
      obtain ⟨q, hq, ho⟩ := g2 k (hsub.subset hk)
      obtain ⟨k', o, hl, ho'⟩ := h.done j hj
      obtain ⟨q', hq', _, rfl⟩ := look_some.mp hl
      rw [hxy, hq] at hq'
      cases hq'
      exact ho' ho
    · intro j hj
      rw [hm] at hj
      rcases List.mem_append.mp hj with hj | hj
      · obtain ⟨k, o, hl, ho⟩ := h.done j hj
        obtain ⟨o', h1, h2⟩ := t.never _ _ _ hl ho
        exact ⟨k, o', h1, h2⟩
      · exact t.done j (hsub.subset hj)

/-- The rounds made. -/
inductive Rounds (sem : Sem J I E R) (sel : List J → List J) (out : Session J I E R → J → Result R)
    (s0 : Session J I E R) : Round J I E R → Prop
  | start : Rounds sem sel out s0 (Round.start s0)
  | next {b} : Rounds sem sel out s0 b → (runRound sem sel out b).err = none →
      (runRound sem sel out b).flag = true → Rounds sem sel out s0 (runRound sem sel out b)

theorem Rounds.between {sem : Sem J I E R} {sel : List J → List J} (hsel : SelOK sel)
    {out : Session J I E R → J → Result R} (hout : ∀ s j, (out s j).outcome ≠ .none) {s0 : Session J I E R}
    (hp : Plan sem sel s0) (hl : Live sem s0) {b : Round J I E R} (h : Rounds sem sel out s0 b) :
    Between sem sel b ∧ (∀ k ∈ s0.jobs, k ∈ b.s.jobs) ∧ (∀ k ∈ b.s.jobs, k ∈ s0.jobs ∨ Made sem k) := by
  induction h with
  | start =>
    exact ⟨⟨⟨hp, hl, rfl⟩, by simp [Round.start], by simp [Round.start]⟩, fun _ h => h, fun _ h => .inl h⟩
  | next _ he _ ih =>
    obtain ⟨h1, h2, h3⟩ := ih
    obtain ⟨b1, l, _, t⟩ := runRound_spec hsel hout h1 he
    refine ⟨b1, fun k hk => t.jobs k (h2 k hk), ?_⟩
    intro k hk
    rcases t.new k hk with hk | hk
    · exact h3 k hk
    · exact .inr hk

/-- The loop ends after a round that set no flag or raised. -/
theorem runAll_last {sem : Sem J I E R} {sel : List J → List J} {out : Session J I E R → J → Result R}
    {s0 : Session J I E R} : ∀ (n : Nat) {b b' : Round J I E R}, Rounds sem sel out s0 b →
    runAll sem sel out n b = some b' → ∃ a, Rounds sem sel out s0 a ∧ b' = runRound sem sel out a ∧
      (b'.err = none → b'.flag = false) := by
  intro n
  induction n with
  | zero => intro b b' _ h; cases h
  | succ n ih =>
    intro b b' hr h
    rw [runAll] at h
    by_cases he : (runRound sem sel out b).err.isSome = true
    · rw [if_pos he] at h
      cases h
      exact ⟨b, hr, rfl, fun h => by rw [h] at he; cases he⟩
    · rw [if_neg he] at h
      have he' : (runRound sem sel out b).err = none := by simpa using he
      by_cases hf : (runRound sem sel out b).flag = true
      · rw [if_pos hf] at h
        exact ih (.next hr he' hf) h
      · rw [if_neg hf] at h
        cases h
        exact ⟨b, hr, rfl, fun _ => by simpa using hf⟩

end Verif.Session
