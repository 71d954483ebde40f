import Verif.Lemmas.SuspendOk

/-!
# One cycle of suspend and resume
-/

set_option linter.unusedSectionVars false
set_option linter.unusedSimpArgs false
set_option linter.unnecessarySeqFocus false

namespace Verif.Suspend

open Verif.Session
open Verif.DepMgr (eq_of_id resolve resolve_congr resolve_repeat resolve_spec)

variable {J I E R C W : Type} [DecidableEq J] [DecidableEq I] [DecidableEq E] [DecidableEq R]
  [DecidableEq C]

/-! ## Histories without hollow results -/

/-- Every result differs from the one before it (`prev` before the first) and is not hollow. -/
def Alt (prev : Result R) : List (Result R) → Prop
  | [] => True
  | r :: rs => r ≠ prev ∧ r.isHollow = false ∧ Alt r rs

/-- The last result is the last one of the history and the history has no repetition. -/
def HistOK (q : JobState J E R) : Prop :=
  Alt .empty q.history ∧ q.result = q.history.getLastD .empty

/-- Sessions reached by calls that return normally and never report a hollow result. -/
inductive ReachableReal (sem : Sem J I E R) : Session J I E R → Prop where
  | start {units s} : construct sem units = .ok s → ReachableReal sem s
  | step {s op s'} : ReachableReal sem s → OpOK sem s op →
      (∀ j r, op = .result j r → r.isHollow = false) → step sem s op = (s', none) →
      ReachableReal sem s'

theorem ReachableReal.reachable {sem : Sem J I E R} {s : Session J I E R}
    (h : ReachableReal sem s) : Reachable sem s := by
  induction h with
  | start h => exact .start h
  | step _ hok _ hs ih => exact .step ih hok hs

theorem foldl_alt : ∀ (l : List (Result R)) (r : Result R) (h : List (Result R)), Alt r l →
    l.foldl setR (r, h) = (l.getLastD r, h ++ l) := by
  intro l
  induction l with
  | nil => intro r h _; simp
  | cons x xs ih =>
    intro r h ha
    obtain ⟨h1, h2, h3⟩ := ha
    have : setR (r, h) x = (x, h ++ [x]) := by
      simp [setR, h1, h2]
    rw [List.foldl_cons, this, ih x _ h3, List.getLastD_cons, List.append_assoc]
    rfl

theorem alt_snoc : ∀ (l : List (Result R)) (r x : Result R), Alt r l → x ≠ l.getLastD r →
    x.isHollow = false → Alt r (l ++ [x]) := by
  intro l
  induction l with
  | nil => intro r x _ h1 h2; exact ⟨by simpa using h1, h2, trivial⟩
  | cons y ys ih =>
    intro r x ha h1 h2
    exact ⟨ha.1, ha.2.1, ih y x ha.2.2 (by rwa [List.getLastD_cons] at h1) h2⟩

/-- The last three components that `HistOK` looks at. -/
def HistOK' (p : Result R × List (Result R)) : Prop := Alt .empty p.2 ∧ p.1 = p.2.getLastD .empty

theorem HistOK'.setR {p : Result R × List (Result R)} (h : HistOK' p) {r : Result R}
    (hr : r.isHollow = false) : HistOK' (setR p r) := by
  unfold Suspend.setR
  split
  · exact h
  · rename_i hne
    rw [hr]
    exact ⟨alt_snoc _ _ _ h.1 (by rw [← h.2]; exact hne) hr, by simp⟩

/-- All states of a session are in order. -/
def AllHist (s : Session J I E R) : Prop :=
  ∀ i v, view s.states i = some v → HistOK' v.2

theorem histOK_iff (s : Session J I E R) :
    AllHist s ↔ ∀ i q, s.states.lookup i = some q → HistOK q := by
  constructor
  · intro h i q hq
    exact h i (q.job, q.result, q.history) (by simp [view, hq])
  · intro h i v hv
    simp only [view] at hv
    cases hq : s.states.lookup i with
    | none => simp [hq] at hv
    | some q =>
      simp only [hq, Option.map_some, Option.some.injEq] at hv
      rw [← hv]
      exact h i q hq

theorem empty_hist : HistOK' ((.empty, []) : Result R × List (Result R)) := ⟨trivial, rfl⟩

theorem AllHist.grow {s : Session J I E R} {st : List (I × JobState J E R)} (h : AllHist s)
    (hg : Grow s.states st) : ∀ i v, view st i = some v → HistOK' v.2 := by
  intro i v hv
  cases ho : view s.states i with
  | none => rw [(hg i).2 ho v hv]; exact empty_hist
  | some w =>
    have h1 := (hg i).1 w ho
    rw [h1] at hv
    simp only [Option.some.injEq] at hv
    rw [← hv]; exact h i w ho

theorem AllHist.step {sem : Sem J I E R} {s s' : Session J I E R} (hb : Book sem s)
    (h : AllHist s) {op : Op J I R} (hop : ∀ j r, op = .result j r → r.isHollow = false)
    (hs : step sem s op = (s', none)) : AllHist s' := by
  have hs1 : s' = (Session.step sem s op).1 := by rw [hs]
  cases op with
  | add j =>
    rw [hs1]
    exact h.grow (grow_addUnit sem s j).1
  | remove j =>
    simp only [Session.step] at hs
    unfold removeUnit at hs
    split at hs
    · simp at hs
    · split at hs
      · simp at hs
      · split at hs
        · simp at hs
        · have := congrArg Prod.fst hs
          simp only at this
          intro i v hv
          rw [← this, recompute_view] at hv
          simp only [view, lookup_delKey] at hv
          split at hv
          · simp at hv
          · exact h i v hv
  | trim d =>
    rcases trim_spec hb d with ⟨h1, _⟩ | ⟨t, h1, _, _, _, _, h6, _, _⟩
    · simp only [Session.step] at hs; rw [h1] at hs; simp at hs
    · simp only [Session.step] at hs
      rw [h1] at hs
      simp only [Prod.mk.injEq, and_true] at hs
      subst hs
      intro i v hv
      simp only [view, h6] at hv
      split at hv
      · simp at hv
      · exact h i v hv
  | mandatory l => rw [hs1]; exact h
  | desired l b =>
    rw [hs1]
    simp only [Session.step]
    unfold updateDesired
    simp only
    split
    · exact h
    · intro i v hv
      simp only [recompute_view] at hv
      exact h i v hv
  | result j r =>
    have hr := hop j r rfl
    simp only [Session.step] at hs1 hs
    cases hv : view s.states (sem.id j) with
    | none =>
      exfalso
      have hn : s.states.lookup (sem.id j) = none := by
        cases hq : s.states.lookup (sem.id j) with
        | none => rfl
        | some q => simp [view, hq] at hv
      simp [updateResult, observeResult, hn] at hs
    | some v =>
      obtain ⟨u1, u2, _⟩ := updateResult_view sem r (k := v.1) (p := v.2) hv
      rw [hs1]
      intro i w hw
      by_cases hi : i = sem.id j
      · subst hi
        rw [u1] at hw
        simp only [Option.some.injEq] at hw
        rw [← hw]
        exact (h _ _ hv).setR hr
      · cases ho : view s.states i with
        | none => rw [(u2 i hi).2 ho w hw]; exact empty_hist
        | some x =>
          have := (u2 i hi).1 x ho
          rw [this] at hw
          simp only [Option.some.injEq] at hw
          rw [← hw]; exact h i x ho
  | attempt i =>
    rw [hs1]
    intro k v hv
    simp only [Session.step, useAttempt, view, lookup_modify] at hv
    apply h k v
    simp only [view]
    rw [← hv]
    split
    · cases s.states.lookup k <;> rfl
    · rfl

theorem ReachableReal.hist {sem : Sem J I E R} (hwf : sem.WF) {s : Session J I E R}
    (h : ReachableReal sem s) : AllHist s := by
  induction h with
  | start h =>
    intro i v hv
    rw [(construct_proc (f := (⟨fun _ => (), fun _ => (), fun _ => none⟩ : Fmt J R Unit Unit))
      (d := ⟨[], [], [], []⟩) h).undone i v (by simp) hv]
    exact empty_hist
  | step hr _ hop hs ih => exact ih.step (hr.reachable.live hwf).book hop hs

/-! ## The selection of a session -/

/-- The run list is the solution for the desired jobs; it does not depend on other jobs. -/
def SelOK (sem : Sem J I E R) (s : Session J I E R) : Prop :=
  resolve sem.graph s.runList (some s.desired) = .ok s.runList ∧ ∀ v ∈ s.desired, v ∈ s.runList

theorem resolve_self {g : DepMgr.Graph J I} {jobs desired run : List J}
    (hc : ∀ v ∈ desired, g.id v ∈ jobs.map g.id → v ∈ jobs)
    (h : resolve g jobs (some desired) = .ok run) :
    resolve g run (some desired) = .ok run ∧ ∀ v ∈ desired, v ∈ run := by
  have hs := resolve_spec g jobs (some desired) hc
  rw [h] at hs
  obtain ⟨_, h1, h2, _, h4⟩ := hs
  exact ⟨resolve_congr (fun v hv => (h4 v (h1 v hv)).1) h (fun x hx => hx) h2, h1⟩

theorem repairLoop_sel (g : DepMgr.Graph J I) : ∀ (n : Nat) (jobs desired : List J)
    (problems : List (DepMgr.Err J I)) (r : Repair J I), (jobs.map g.id).Nodup →
    (∀ v ∈ desired, g.id v ∈ jobs.map g.id → v ∈ jobs) →
    repairLoop g n jobs desired problems = .ok r →
    resolve g r.runList (some r.desired) = .ok r.runList ∧ ∀ v ∈ r.desired, v ∈ r.runList := by
  intro n
  induction n with
  | zero => intro jobs desired problems r _ _ h; simp [repairLoop] at h
  | succ n ih =>
    intro jobs desired problems r hnd hc h
    simp only [repairLoop] at h
    by_cases hd : desired = []
    · rw [if_pos hd] at h
      simp only [Except.ok.injEq] at h
      subst h
      exact ⟨rfl, by simp⟩
    · rw [if_neg hd] at h
      cases hr : resolve g jobs (some desired) with
      | ok run =>
        rw [hr] at h
        simp only [Except.ok.injEq] at h
        subst h
        exact resolve_self hc hr
      | error e =>
        rw [hr] at h
        simp only at h
        split at h
        · rename_i j _
          refine ih (jobs.erase j) (desired.erase j) _ r (hnd.sublist (List.erase_sublist.map _)) ?_ h
          intro v hv hvi
          obtain ⟨k, hk, hki⟩ := List.mem_map.mp hvi
          have hkj := List.mem_of_mem_erase hk
          have := hc v (List.mem_of_mem_erase hv) (List.mem_map.mpr ⟨k, hkj, hki⟩)
          rw [← eq_of_id hnd hkj this hki]
          exact hk
        · simp at h

theorem SelOK.of_eq {sem : Sem J I E R} {s s' : Session J I E R} (h : SelOK sem s)
    (h1 : s'.runList = s.runList) (h2 : s'.desired = s.desired) : SelOK sem s' := by
  unfold SelOK; rw [h1, h2]; exact h

theorem reachable_sel {sem : Sem J I E R} (hwf : sem.WF) {s : Session J I E R}
    (h : Reachable sem s) : SelOK sem s := by
  induction h with
  | start h =>
    unfold construct at h
    split at h
    · simp at h
    · simp only [Except.ok.injEq] at h
      subst h
      exact ⟨rfl, by simp⟩
  | @step s op s' hr hok hs ih =>
    have hb := (hr.live hwf).book
    have hs1 : s' = (Session.step sem s op).1 := by rw [hs]
    cases op with
    | add j => rw [hs1]; exact ih.of_eq (addUnit_sel sem s j).1 (addUnit_sel sem s j).2.1
    | remove j =>
      simp only [Session.step] at hs
      unfold removeUnit at hs
      split at hs
      · simp at hs
      · split at hs
        · simp at hs
        · split at hs
          · simp at hs
          · have := congrArg Prod.fst hs
            simp only at this
            rw [← this]
            exact ih.of_eq rfl rfl
    | trim d =>
      rcases trim_spec hb d with ⟨h1, _⟩ | ⟨t, h1, _, h3, _⟩
      · simp only [Session.step] at hs; rw [h1] at hs; simp at hs
      · simp only [Session.step] at hs
        rw [h1] at hs
        simp only [Prod.mk.injEq, and_true] at hs
        subst hs
        rw [h3]
        exact ih.of_eq rfl rfl
    | mandatory l => rw [hs1]; exact ih.of_eq rfl rfl
    | desired l b =>
      simp only [Session.step, Prod.mk.injEq] at hs
      unfold updateDesired at hs
      simp only at hs
      split at hs
      · simp at hs
      · rename_i r hrep
        rw [← hs.1]
        exact repairLoop_sel sem.graph _ _ _ _ r hb.nodup hok hrep
    | result j r =>
      rw [hs1]
      exact ih.of_eq (updateResult_sel sem s j r).1 (updateResult_sel sem s j r).2.1
    | attempt i => rw [hs1]; exact ih.of_eq rfl rfl

/-! ## The document -/

theorem lookup_filter_map {V V' : Type} (m : List (I × V)) (hnd : (m.map Prod.fst).Nodup)
    (p : I × V → Bool) (g : V → V') (i : I) :
    ((m.filter p).map fun x => (x.1, g x.2)).lookup i =
      match m.lookup i with
      | none => none
      | some v => if p (i, v) then some (g v) else none := by
  induction m with
  | nil => rfl
  | cons x m ih =>
    simp only [List.map_cons, List.nodup_cons] at hnd
    rw [lookup_cons_if]
    by_cases hi : i = x.1
    · subst hi
      simp only [if_true]
      have hno : m.lookup x.1 = none := by rw [lookup_eq_none_iff']; exact hnd.1
      by_cases hp : p x = true
      · rw [List.filter_cons_of_pos hp, List.map_cons, lookup_cons_if]
        simp [hp]
      · rw [List.filter_cons_of_neg hp, ih hnd.2, hno]
        have : p (x.1, x.2) = false := by simpa using hp
        simp [this]
    · simp only [hi, if_false]
      by_cases hp : p x = true
      · rw [List.filter_cons_of_pos hp, List.map_cons, lookup_cons_if]
        simp only [hi, if_false]
        exact ih hnd.2
      · rw [List.filter_cons_of_neg hp]
        exact ih hnd.2

theorem book_ids {sem : Sem J I E R} {s : Session J I E R} (hb : Book sem s) :
    ∀ p ∈ s.states, sem.id p.2.job = p.1 := by
  intro p hp
  have h1 : (p.1, p.2.job) ∈ s.jobs.map (fun j => (sem.id j, j)) := by
    rw [← hb.states]
    exact List.mem_map.mpr ⟨p, hp, rfl⟩
  obtain ⟨j, _, hj⟩ := List.mem_map.mp h1
  simp only [Prod.mk.injEq] at hj
  rw [← hj.2, ← hj.1]

theorem suspend_jobs {f : Fmt J R C W} {sem : Sem J I E R} {s : Session J I E R} (hb : Book sem s)
    (i : I) : (suspend f sem s).jobs.lookup i =
      match s.states.lookup i with
      | none => none
      | some q => if (!q.result.isHollow || decide (i ∈ s.runList.map sem.id)) = true
          then some (f.cks q.job) else none := by
  have hnd : (s.states.map Prod.fst).Nodup := by rw [hb.keys]; exact hb.nodup
  have h1 : (suspend f sem s).jobs =
      (s.states.filter fun p => !p.2.result.isHollow || decide (p.1 ∈ s.runList.map sem.id)).map
        fun p => (p.1, f.cks p.2.job) := by
    simp only [suspend]
    have e1 : (s.states.filter fun p =>
        !p.2.result.isHollow || decide (sem.id p.2.job ∈ s.runList.map sem.id)) =
        (s.states.filter fun p => !p.2.result.isHollow || decide (p.1 ∈ s.runList.map sem.id)) := by
      apply List.filter_congr
      intro p hp
      rw [book_ids hb p hp]
    rw [e1]
    apply List.map_congr_left
    intro p hp
    rw [book_ids hb p (List.mem_filter.mp hp).1]
  rw [h1, lookup_filter_map s.states hnd _ (fun q => f.cks q.job) i]
  cases s.states.lookup i with
  | none => rfl
  | some q => rfl

theorem suspend_results {f : Fmt J R C W} {sem : Sem J I E R} {s : Session J I E R}
    (hb : Book sem s) (i : I) : (suspend f sem s).results.lookup i =
      match s.states.lookup i with
      | none => none
      | some q => if 0 < q.history.length then some (q.history.map f.write) else none := by
  have hnd : (s.states.map Prod.fst).Nodup := by rw [hb.keys]; exact hb.nodup
  have h1 : (suspend f sem s).results =
      (s.states.filter fun p => decide (0 < p.2.history.length)).map
        fun p => (p.1, p.2.history.map f.write) := by
    simp only [suspend]
    apply List.map_congr_left
    intro p hp
    rw [book_ids hb p (List.mem_filter.mp hp).1]
  rw [h1, lookup_filter_map s.states hnd _ (fun q => q.history.map f.write) i]
  cases s.states.lookup i with
  | none => rfl
  | some q =>
    simp only [decide_eq_true_eq]

theorem mem_keys_iff {V : Type} (m : List (I × V)) (i : I) :
    i ∈ m.map Prod.fst ↔ ∃ v, m.lookup i = some v := by
  rw [← lookup_isSome_iff]
  exact Option.isSome_iff_exists

/-- Results of the session survive the conversion to the document and back. -/
def Readable (f : Fmt J R C W) (s : Session J I E R) : Prop :=
  ∀ i q, s.states.lookup i = some q → ∀ r ∈ q.history, f.read (f.write r) = some r

theorem readAll_write {f : Fmt J R C W} : ∀ (l : List (Result R)),
    (∀ r ∈ l, f.read (f.write r) = some r) → readAll f (l.map f.write) = some l := by
  intro l
  induction l with
  | nil => intro _; rfl
  | cons r l ih =>
    intro h
    simp only [List.map_cons, readAll, h r (by simp), ih (fun x hx => h x (by simp [hx]))]

theorem lookupJobs_mem {s : Session J I E R} : ∀ (is : List I) (l : List J),
    lookupJobs s is = some l → ∀ j ∈ l, ∃ i q, s.states.lookup i = some q ∧ q.job = j := by
  intro is
  induction is with
  | nil => intro l h; simp only [lookupJobs, Option.some.injEq] at h; subst h; simp
  | cons i is ih =>
    intro l h j hj
    simp only [lookupJobs] at h
    split at h
    · simp at h
    · rename_i q hq
      split at h
      · simp at h
      · rename_i l' hl'
        simp only [Option.some.injEq] at h
        subst h
        rcases List.mem_cons.mp hj with rfl | hj
        · exact ⟨i, q, hq, rfl⟩
        · exact ih l' hl' j hj

/-- The stages of a successful resume. -/
theorem resume_stages {f : Fmt J R C W} {sem : Sem J I E R}
    {sortIds : List I → List I} (hsort : SortOK sortIds) {base : List J} {d : Doc I C W}
    {s' : Session J I E R} (h : resume f sem sortIds base d = .ok s') :
    ∃ s1 mand des s3,
      Proc f sem d (fun i => i ∈ d.jobs.map Prod.fst ++ d.results.map Prod.fst) s1 ∧
      lookupJobs s1 d.mandatory = some mand ∧ lookupJobs s1 d.desired = some des ∧
      step sem { s1 with mandatory := mand } (.desired des true) = (s3, none) ∧
      OpOK sem { s1 with mandatory := mand } (.desired des true) ∧
      Reachable sem s3 ∧ Book sem s3 ∧
      step sem s3 (.trim fun j => decide (sem.id j ∉ s3.runList.map sem.id ++ d.jobs.map Prod.fst)) =
        (s', none) ∧ Reachable sem s' := by
  unfold resume at h
  split at h
  · simp at h
  · rename_i s0 h0
    split at h
    · simp at h
    · rename_i s1 h1
      have hp := restoreResults_spec hsort h0 h1
      split at h
      · simp at h
      · rename_i s2 h2
        unfold restoreMandatory at h2
        split at h2
        · simp at h2
        · rename_i mand hm
          simp only [Except.ok.injEq] at h2
          subst h2
          have hr2 : Reachable sem (updateMandatory s1 mand) :=
            .step (op := .mandatory mand) hp.reach trivial rfl
          have hb2 : Book sem (updateMandatory s1 mand) := hp.book.step (.mandatory mand)
          split at h
          · simp at h
          · rename_i s3 h3
            unfold restoreDesired at h3
            split at h3
            · simp at h3
            · rename_i des hd
              have hd' : lookupJobs s1 d.desired = some des := by
                rw [← hd]
                have : ∀ is : List I, lookupJobs (updateMandatory s1 mand) is = lookupJobs s1 is := by
                  intro is
                  induction is with
                  | nil => rfl
                  | cons i is ih =>
                    simp only [lookupJobs, ih]
                    rfl
                rw [this]
              simp only at h3
              split at h3
              · rename_i hnone
                simp only [Except.ok.injEq] at h3
                have hstep : step sem (updateMandatory s1 mand) (.desired des true) = (s3, none) := by
                  simp only [Session.step, Prod.mk.injEq]
                  exact ⟨h3, hnone⟩
                have hok : OpOK sem (updateMandatory s1 mand) (.desired des true) := by
                  intro v hv _
                  have hv' : v ∈ mand ++ des := hv
                  rcases List.mem_append.mp hv' with hv' | hv'
                  · obtain ⟨i, q, hq, rfl⟩ := lookupJobs_mem _ _ hm v hv'
                    exact (hp.book.lookup_job hq).1
                  · obtain ⟨i, q, hq, rfl⟩ := lookupJobs_mem _ _ hd' v hv'
                    exact (hp.book.lookup_job hq).1
                have hr3 := Reachable.step hr2 hok hstep
                have hb3 : Book sem s3 := by
                  have := hb2.step (.desired des true)
                  rw [hstep] at this
                  exact this
                unfold restoreJobList at h
                simp only at h
                split at h
                · rename_i s4 h4
                  simp only [Except.ok.injEq] at h
                  subst h
                  exact ⟨s1, mand, des, s3, hp, hm, hd', hstep, hok, hr3, hb3, h4,
                    .step (op := .trim _) hr3 trivial h4⟩
                · simp at h
              · simp at h3
              · simp at h3

theorem stages_view {sem : Sem J I E R} {s1 s3 s' : Session J I E R} {mand des : List J}
    {keys : List I} (hb3 : Book sem s3)
    (h3 : step sem { s1 with mandatory := mand } (.desired des true) = (s3, none))
    (h4 : step sem s3 (.trim fun j => decide (sem.id j ∉ s3.runList.map sem.id ++ keys)) =
      (s', none)) :
    (∀ i, i ∈ keys → view s'.states i = view s1.states i) ∧
    (∀ i v, view s'.states i = some v → view s1.states i = some v) ∧
    s'.runList = s3.runList ∧ s'.desired = s3.desired ∧ s'.mandatory = s3.mandatory := by
  have hv3 : view s3.states = view s1.states := by
    have : s3 = (step sem { s1 with mandatory := mand } (.desired des true)).1 := by rw [h3]
    rw [this]
    simp only [Session.step]
    unfold updateDesired
    simp only
    split
    · rfl
    · rw [recompute_view]
  simp only [Session.step] at h4
  rcases trim_spec hb3 (fun j => decide (sem.id j ∉ s3.runList.map sem.id ++ keys)) with
    ⟨h1, _⟩ | ⟨t, h1, _, ht, _, _, h6, _, _⟩
  · rw [h1] at h4; simp at h4
  · rw [h1] at h4
    simp only [Prod.mk.injEq, and_true] at h4
    subst h4
    refine ⟨?_, ?_, ?_⟩
    · intro i hi
      rw [← hv3]
      simp only [view, h6]
      rw [if_neg]
      intro hc
      obtain ⟨j, hj, hji⟩ := List.mem_map.mp hc
      rw [List.mem_filter] at hj
      have := hj.2
      simp only [decide_eq_true_eq, List.mem_append, not_or] at this
      rw [hji] at this
      exact this.2 hi
    · intro i v hv
      rw [← hv3]
      simp only [view, h6] at hv ⊢
      split at hv
      · simp at hv
      · exact hv
    · rw [ht]; exact ⟨rfl, rfl, rfl⟩

/-- One cycle of suspend and resume keeps results and histories. -/
theorem cycle_view {f : Fmt J R C W} (hinj : Function.Injective f.cks) {sem : Sem J I E R}
    (hwf : sem.WF) {sortIds : List I → List I} (hsort : SortOK sortIds) {base : List J}
    {s s' : Session J I E R} (hr : Reachable sem s) (hh : AllHist s) (hread : Readable f s)
    (h : resume f sem sortIds base (suspend f sem s) = .ok s') :
    Reachable sem s' ∧
    (∀ i j p, view s.states i = some (j, p) → p.2 ≠ [] → view s'.states i = some (j, p)) ∧
    (∀ i j p, view s'.states i = some (j, p) → p.2 ≠ [] → view s.states i = some (j, p)) ∧
    AllHist s' ∧ Readable f s' := by
  have hb := (hr.live hwf).book
  obtain ⟨s1, mand, des, s3, hp, hm, hd, h3, _, _, hb3, h4, hr'⟩ := resume_stages hsort h
  obtain ⟨v1, v2, _⟩ := stages_view hb3 h3 h4
  have key : ∀ i q, s.states.lookup i = some q → q.history ≠ [] →
      view s1.states i = some (q.job, q.result, q.history) ∧
      i ∈ (suspend f sem s).jobs.map Prod.fst := by
    intro i q hq hne
    have hlen : 0 < q.history.length := List.length_pos_iff.mpr hne
    have hres : (suspend f sem s).results.lookup i = some (q.history.map f.write) := by
      rw [suspend_results hb, hq]
      simp only
      rw [if_pos hlen]
    have hhist := hh i (q.job, q.result, q.history) (by simp [view, hq])
    obtain ⟨j, p, c, hv, hc, hck, hdone⟩ := hp.done i (by
      rw [List.mem_append]
      exact .inr ((mem_keys_iff _ _).mpr ⟨_, hres⟩))
    have hkey : i ∈ (suspend f sem s).jobs.map Prod.fst := (mem_keys_iff _ _).mpr ⟨_, hc⟩
    rw [suspend_jobs hb, hq] at hc
    simp only at hc
    split at hc
    · simp only [Option.some.injEq] at hc
      have hj : j = q.job := hinj (hck.trans hc.symm)
      subst hj
      rcases hdone with ⟨hn, _⟩ | ⟨ws, rs, hws, hrs, hpp⟩
      · rw [hres] at hn; simp at hn
      · rw [hres] at hws
        simp only [Option.some.injEq] at hws
        subst hws
        rw [readAll_write _ (fun r hr => hread i q hq r hr)] at hrs
        simp only [Option.some.injEq] at hrs
        subst hrs
        rw [foldl_alt _ _ _ hhist.1] at hpp
        have h2 : q.result = q.history.getLastD .empty := hhist.2
        refine ⟨?_, hkey⟩
        rw [hv, hpp, h2]
        simp
    · simp at hc
  have back : ∀ i j p, view s'.states i = some (j, p) → p.2 ≠ [] →
      view s.states i = some (j, p) := by
    intro i j p hv hne
    have hv1 := v2 i _ hv
    by_cases hP : i ∈ (suspend f sem s).jobs.map Prod.fst ++ (suspend f sem s).results.map Prod.fst
    · obtain ⟨j', p', c, hv', hc, hck, hdone⟩ := hp.done i hP
      rw [hv1] at hv'
      simp only [Option.some.injEq, Prod.mk.injEq] at hv'
      obtain ⟨rfl, rfl⟩ := hv'
      rcases hdone with ⟨_, hpe⟩ | ⟨ws, rs, hws, _, _⟩
      · rw [hpe] at hne; simp at hne
      · rw [suspend_results hb] at hws
        cases hq : s.states.lookup i with
        | none => rw [hq] at hws; simp at hws
        | some q =>
          rw [hq] at hws
          simp only at hws
          split at hws
          · rename_i hlen
            have := (key i q hq (List.length_pos_iff.mp hlen)).1
            rw [hv1] at this
            rw [this]
            simp [view, hq]
          · simp at hws
    · have := hp.undone i _ hP hv1
      simp only at this
      rw [this] at hne
      simp at hne
  refine ⟨hr', ?_, back, ?_, ?_⟩
  · intro i j p hv hne
    simp only [view] at hv
    cases hq : s.states.lookup i with
    | none => simp [hq] at hv
    | some q =>
      simp only [hq, Option.map_some, Option.some.injEq, Prod.mk.injEq] at hv
      obtain ⟨rfl, rfl⟩ := hv
      obtain ⟨k1, k2⟩ := key i q hq hne
      rw [v1 i k2, k1]
  · intro i v hv
    by_cases hne : v.2.2 = []
    · have hv1 := v2 i _ hv
      by_cases hP : i ∈ (suspend f sem s).jobs.map Prod.fst ++ (suspend f sem s).results.map Prod.fst
      · obtain ⟨j', p', c, hv', hc, hck, hdone⟩ := hp.done i hP
        rw [hv1] at hv'
        simp only [Option.some.injEq] at hv'
        subst hv'
        rcases hdone with ⟨_, hpe⟩ | ⟨ws, rs, hws, hrs, hpp⟩
        · simp only [hpe]; exact empty_hist
        · rw [suspend_results hb] at hws
          cases hq : s.states.lookup i with
          | none => rw [hq] at hws; simp at hws
          | some q =>
            rw [hq] at hws
            simp only at hws
            split at hws
            · rename_i hlen
              have := (key i q hq (List.length_pos_iff.mp hlen)).1
              rw [hv1] at this
              simp only [Option.some.injEq, Prod.mk.injEq] at this
              simp only [this.2] at hne
              simp [hne] at hlen
            · simp at hws
      · rw [hp.undone i _ hP hv1]; exact empty_hist
    · exact hh i v (back i v.1 v.2 hv hne)
  · intro i q hq r hrh
    have hv : view s'.states i = some (q.job, q.result, q.history) := by simp [view, hq]
    have hne : q.history ≠ [] := by intro hc; rw [hc] at hrh; simp at hrh
    have := back i _ _ hv hne
    simp only [view] at this
    cases hq0 : s.states.lookup i with
    | none => rw [hq0] at this; simp at this
    | some q0 =>
      rw [hq0] at this
      simp only [Option.map_some, Option.some.injEq, Prod.mk.injEq] at this
      exact hread i q0 hq0 r (by rw [this.2.2]; exact hrh)

theorem hist_nonhollow {q : JobState J E R} (h : HistOK q) :
    q.history ≠ [] ↔ q.result.isHollow = false := by
  obtain ⟨h1, h2⟩ := h
  have hlast : ∀ (l : List (Result R)) (p : Result R), Alt p l → l ≠ [] →
      (l.getLastD p).isHollow = false := by
    intro l
    induction l with
    | nil => intro p _ h; exact absurd rfl h
    | cons a l ih =>
      intro p ha _
      rw [List.getLastD_cons]
      by_cases hl : l = []
      · subst hl; exact ha.2.1
      · exact ih a ha.2.2 hl
  constructor
  · intro hne; rw [h2]; exact hlast _ _ h1 hne
  · intro hnh hemp
    rw [hemp] at h2
    rw [h2] at hnh
    simp [Result.empty, Result.isHollow] at hnh

/-! ## C20 -/

theorem lookupJobs_of {f : Fmt J R C W} (hinj : Function.Injective f.cks) {sem : Sem J I E R}
    {s s1 : Session J I E R} (hb : Book sem s)
    (hp : Proc f sem (suspend f sem s)
      (fun i => i ∈ (suspend f sem s).jobs.map Prod.fst ++ (suspend f sem s).results.map Prod.fst) s1)
    (hsub : ∀ j ∈ s.runList, j ∈ s.jobs) : ∀ l : List J, (∀ v ∈ l, v ∈ s.runList) →
    lookupJobs s1 (l.map sem.id) = some l := by
  intro l
  induction l with
  | nil => intro _; rfl
  | cons v l ih =>
    intro h
    have hv := h v (by simp)
    obtain ⟨q, hq, hqv⟩ := hb.lookup_some (hsub v hv)
    have hrun : sem.id v ∈ s.runList.map sem.id := List.mem_map.mpr ⟨v, hv, rfl⟩
    have hj : (suspend f sem s).jobs.lookup (sem.id v) = some (f.cks v) := by
      rw [suspend_jobs hb, hq]
      simp only [hrun, decide_true, Bool.or_true, if_true, hqv]
    obtain ⟨j, p, c, hview, hc, hck, _⟩ := hp.done (sem.id v) (by
      rw [List.mem_append]; exact .inl ((mem_keys_iff _ _).mpr ⟨_, hj⟩))
    rw [hj] at hc
    simp only [Option.some.injEq] at hc
    have hjv : j = v := hinj (hck.trans hc.symm)
    subst hjv
    simp only [view] at hview
    cases hq1 : s1.states.lookup (sem.id j) with
    | none => rw [hq1] at hview; simp at hview
    | some q1 =>
      rw [hq1] at hview
      simp only [Option.map_some, Option.some.injEq, Prod.mk.injEq] at hview
      simp only [List.map_cons, lookupJobs, hq1, ih (fun x hx => h x (by simp [hx])), hview.1]

theorem run_sub_of {f : Fmt J R C W} (hinj : Function.Injective f.cks) {sem : Sem J I E R}
    {s s1 : Session J I E R} (hb : Book sem s)
    (hp : Proc f sem (suspend f sem s)
      (fun i => i ∈ (suspend f sem s).jobs.map Prod.fst ++ (suspend f sem s).results.map Prod.fst) s1)
    (hsub : ∀ j ∈ s.runList, j ∈ s.jobs) : ∀ j ∈ s.runList, j ∈ s1.jobs := by
  intro j hj
  have h := lookupJobs_of hinj hb hp hsub [j] (by simpa using hj)
  obtain ⟨i, q, hq, rfl⟩ := lookupJobs_mem _ _ h j (by simp)
  exact (hp.book.lookup_job hq).1

theorem updateDesired_direct {sem : Sem J I E R} {s : Session J I E R} {des run : List J}
    (h : resolve sem.graph s.jobs (some (s.mandatory ++ des)) = .ok run)
    (he : s.mandatory ++ des = [] → run = []) :
    (updateDesired sem s des true).1.desired = s.mandatory ++ des ∧
    (updateDesired sem s des true).1.runList = run ∧
    (updateDesired sem s des true).1.mandatory = s.mandatory := by
  unfold updateDesired
  simp only [if_true]
  rw [show s.jobs.length + (s.mandatory ++ des).length + 1 =
    (s.jobs.length + (s.mandatory ++ des).length) + 1 from rfl]
  simp only [repairLoop]
  by_cases hd : s.mandatory ++ des = []
  · rw [if_pos hd]
    simp only [recompute, hd]
    exact ⟨trivial, (he hd).symm, trivial⟩
  · rw [if_neg hd, h]
    simp only [recompute]
    exact ⟨trivial, trivial, trivial⟩

theorem cycle_sel {f : Fmt J R C W} (hinj : Function.Injective f.cks) {sem : Sem J I E R}
    (hwf : sem.WF) {sortIds : List I → List I} (hsort : SortOK sortIds) {base : List J}
    {s s' : Session J I E R} (hr : Reachable sem s) (hm : s.mandatory <+: s.desired)
    (h : resume f sem sortIds base (suspend f sem s) = .ok s') :
    Reachable sem s' ∧ s'.runList = s.runList ∧ s'.desired = s.mandatory ++ s.desired ∧
    s'.mandatory = s.mandatory := by
  have hl := hr.live hwf
  obtain ⟨s1, mand, des, s3, hp, hmand, hdes, h3, _, _, hb3, h4, hr'⟩ := resume_stages hsort h
  obtain ⟨_, _, e1, e2, e3⟩ := stages_view hb3 h3 h4
  obtain ⟨hsel, hdsub⟩ := reachable_sel hwf hr
  obtain ⟨req, hreq⟩ := hm
  have hmsub : ∀ v ∈ s.mandatory, v ∈ s.runList := fun v hv => hdsub v (by rw [← hreq]; simp [hv])
  have hm' : mand = s.mandatory := by
    have := lookupJobs_of hinj hl.book hp hl.runSub s.mandatory hmsub
    rw [show (suspend f sem s).mandatory = s.mandatory.map sem.id from rfl, this] at hmand
    simpa using hmand.symm
  have hd' : des = s.desired := by
    have := lookupJobs_of hinj hl.book hp hl.runSub s.desired hdsub
    rw [show (suspend f sem s).desired = s.desired.map sem.id from rfl, this] at hdes
    simpa using hdes.symm
  subst hm' hd'
  have hrep : resolve sem.graph s.runList (some (s.mandatory ++ s.desired)) = .ok s.runList := by
    rw [← hreq] at hsel ⊢
    exact resolve_repeat (fun v hv => hdsub v (by rw [← hreq]; exact hv)) hsel
  have hres : resolve sem.graph s1.jobs (some (s.mandatory ++ s.desired)) = .ok s.runList :=
    resolve_congr (A := s.runList) (by
      intro v hv
      rcases List.mem_append.mp hv with hv | hv
      · exact hmsub v hv
      · exact hdsub v hv) hrep (run_sub_of hinj hl.book hp hl.runSub) hp.book.nodup
  obtain ⟨u1, u2, u3⟩ := updateDesired_direct (s := { s1 with mandatory := s.mandatory })
    (des := s.desired) hres (by
      intro he
      have hde : s.desired = [] := (List.append_eq_nil_iff.mp he).2
      rw [hde] at hsel
      have : resolve sem.graph s.runList (some []) = .ok [] := by
        unfold resolve
        obtain ⟨m, hm⟩ := DepMgr.getJobMap_of_nodup (g := sem.graph) hl.runNodup
        simp only [hm, Option.getD_some, DepMgr.solveLoop, DepMgr.initSt]
      rw [this] at hsel
      simpa using hsel.symm)
  have h3' : s3 = (updateDesired sem { s1 with mandatory := s.mandatory } s.desired true).1 := by
    have := congrArg Prod.fst h3
    exact this.symm
  rw [← h3'] at u1 u2 u3
  exact ⟨hr', e1.trans u2, e2.trans u1, e3.trans u3⟩

/-! ## Resuming succeeds -/

/-- Jobs that can be had again: the given jobs, their siblings, and what templates make from the
recorded results of such jobs. -/
inductive Produced (sem : Sem J I E R) (base : List J) (s : Session J I E R) : J → Prop where
  | base {k} : k ∈ withFamily sem base → Produced sem base s k
  | gen {j q r k} : Produced sem base s j → s.states.lookup (sem.id j) = some q → q.job = j →
      r ∈ q.history → k ∈ withFamily sem (genOf sem j r) → Produced sem base s k

/-- The session fits the jobs `base` that resume is called with: no two different jobs share an id
(`U` lists all jobs that can occur), and every job that has a result or is on the run list is among
`base` or comes from it. -/
structure Resumable (sem : Sem J I E R) (base U : List J) (s : Session J I E R) : Prop where
  uniq : (U.map sem.id).Nodup
  baseSub : ∀ j ∈ base, j ∈ U
  fam : ∀ j ∈ U, ∀ k ∈ sem.family j, k ∈ U
  gens : ∀ i q, s.states.lookup i = some q → ∀ r ∈ q.history, ∀ k ∈ genOf sem q.job r, k ∈ U
  saved : ∀ i q, s.states.lookup i = some q → (q.history ≠ [] ∨ q.job ∈ s.runList) →
    Produced sem base s q.job

theorem withFamily_sub {sem : Sem J I E R} {U l : List J} (hF : ∀ j ∈ U, ∀ k ∈ sem.family j, k ∈ U)
    (hl : ∀ j ∈ l, j ∈ U) : ∀ k ∈ withFamily sem l, k ∈ U := by
  intro k hk
  obtain ⟨j, hj, hkj⟩ := List.mem_flatMap.mp hk
  rcases List.mem_cons.mp hkj with rfl | hkj
  · exact hl _ hj
  · exact hF j (hl j hj) k hkj

theorem Resumable.in_U {sem : Sem J I E R} {base U : List J} {s : Session J I E R}
    (h : Resumable sem base U s) {j : J} (hp : Produced sem base s j) : j ∈ U := by
  induction hp with
  | base hk => exact withFamily_sub h.fam h.baseSub _ hk
  | gen _ hq hj hr hk _ =>
    refine withFamily_sub h.fam ?_ _ hk
    intro x hx
    rw [← hj] at hx
    exact h.gens _ _ hq _ hr x hx

theorem Produced.dprod {f : Fmt J R C W} {sem : Sem J I E R} {base : List J} {s : Session J I E R}
    (hb : Book sem s) (hread : Readable f s) {j : J} (hp : Produced sem base s j) :
    DProd f sem base (suspend f sem s) j := by
  induction hp with
  | base hk => exact .base hk
  | @gen j q r k _ hq hj hr hk ih =>
    refine .gen ih (ws := q.history.map f.write) (rs := q.history) ?_ ?_ hr hk
    · rw [suspend_results hb, hq]
      simp only
      rw [if_pos (List.length_pos_of_mem hr)]
    · exact readAll_write _ (hread _ q hq)

theorem Resumable.env {f : Fmt J R C W} {sem : Sem J I E R} {base U : List J} {s : Session J I E R}
    (h : Resumable sem base U s) (hb : Book sem s) (hsub : ∀ j ∈ s.runList, j ∈ s.jobs)
    (hread : Readable f s) (hh : AllHist s) :
    Env f sem base U (suspend f sem s) := by
  refine ⟨h.uniq, h.baseSub, h.fam, ?_⟩
  intro i hi
  have hq : ∃ q, s.states.lookup i = some q ∧ (q.history ≠ [] ∨ q.job ∈ s.runList) ∧
      (suspend f sem s).jobs.lookup i = some (f.cks q.job) := by
    rcases List.mem_append.mp hi with hi | hi
    · obtain ⟨c, hc⟩ := (mem_keys_iff _ _).mp hi
      have hc0 := hc
      rw [suspend_jobs hb] at hc
      cases hq : s.states.lookup i with
      | none => rw [hq] at hc; simp at hc
      | some q =>
        rw [hq] at hc
        simp only at hc
        split at hc
        · rename_i hcond
          simp only [Option.some.injEq] at hc
          refine ⟨q, rfl, ?_, by rw [hc0, hc]⟩
          simp only [Bool.or_eq_true, Bool.not_eq_true', decide_eq_true_eq] at hcond
          rcases hcond with hcond | hcond
          · exact .inl ((hist_nonhollow ((histOK_iff s).mp hh i q hq)).mpr hcond)
          · right
            obtain ⟨a, b⟩ := hb.lookup_job hq
            obtain ⟨j, hj, hji⟩ := List.mem_map.mp hcond
            rw [eq_of_id (g := sem.graph) hb.nodup a (hsub j hj) (b.trans hji.symm)]
            exact hj
        · simp at hc
    · obtain ⟨w, hw⟩ := (mem_keys_iff _ _).mp hi
      rw [suspend_results hb] at hw
      cases hq : s.states.lookup i with
      | none => rw [hq] at hw; simp at hw
      | some q =>
        rw [hq] at hw
        simp only at hw
        split at hw
        · rename_i hlen
          have hne := List.length_pos_iff.mp hlen
          refine ⟨q, rfl, .inl hne, ?_⟩
          rw [suspend_jobs hb, hq]
          simp only [(hist_nonhollow ((histOK_iff s).mp hh i q hq)).mp hne, Bool.not_false,
            Bool.true_or, if_true]
        · simp at hw
  obtain ⟨q, hq, hsv, hjd⟩ := hq
  have hp := h.saved i q hq hsv
  refine ⟨q.job, h.in_U hp, (hb.lookup_job hq).2, hjd, hp.dprod hb hread, ?_⟩
  intro ws hws
  rw [suspend_results hb, hq] at hws
  simp only at hws
  split at hws
  · simp only [Option.some.injEq] at hws
    subst hws
    exact ⟨q.history, readAll_write _ (hread i q hq), h.gens i q hq⟩
  · simp at hws

theorem resume_ok {f : Fmt J R C W} (hinj : Function.Injective f.cks) {sem : Sem J I E R}
    (hwf : sem.WF) {sortIds : List I → List I} (hsort : SortOK sortIds) {base U : List J}
    {s : Session J I E R} (hr : Reachable sem s) (hh : AllHist s) (hread : Readable f s)
    (hR : Resumable sem base U s) (hm : s.mandatory <+: s.desired) :
    ∃ s', resume f sem sortIds base (suspend f sem s) = .ok s' := by
  have hl := hr.live hwf
  obtain ⟨s0, s1, h0, h1⟩ := restoreResults_in (hR.env hl.book hl.runSub hread hh) hsort
  have hp := restoreResults_spec hsort h0 h1
  obtain ⟨hsel, hdsub⟩ := reachable_sel hwf hr
  obtain ⟨req, hreq⟩ := hm
  have hmsub : ∀ v ∈ s.mandatory, v ∈ s.runList := fun v hv => hdsub v (by rw [← hreq]; simp [hv])
  have hmand := lookupJobs_of hinj hl.book hp hl.runSub s.mandatory hmsub
  have hdes := lookupJobs_of hinj hl.book hp hl.runSub s.desired hdsub
  have h2 : restoreMandatory (suspend f sem s) s1 = .ok { s1 with mandatory := s.mandatory } := by
    simp only [restoreMandatory]
    rw [show (suspend f sem s).mandatory = s.mandatory.map sem.id from rfl, hmand]
    rfl
  have hrep : resolve sem.graph s.runList (some (s.mandatory ++ s.desired)) = .ok s.runList := by
    rw [← hreq] at hsel ⊢
    exact resolve_repeat (fun v hv => hdsub v (by rw [← hreq]; exact hv)) hsel
  have hsub1 := run_sub_of hinj hl.book hp hl.runSub
  have hres : resolve sem.graph s1.jobs (some (s.mandatory ++ s.desired)) = .ok s.runList :=
    resolve_congr (A := s.runList) (by
      intro v hv
      rcases List.mem_append.mp hv with hv | hv
      · exact hmsub v hv
      · exact hdsub v hv) hrep hsub1 hp.book.nodup
  have hempty : s.mandatory ++ s.desired = [] → s.runList = [] := by
    intro he
    have hde : s.desired = [] := (List.append_eq_nil_iff.mp he).2
    rw [hde] at hsel
    have : resolve sem.graph s.runList (some []) = .ok [] := by
      unfold resolve
      obtain ⟨m, hm⟩ := DepMgr.getJobMap_of_nodup (g := sem.graph) hl.runNodup
      simp only [hm, Option.getD_some, DepMgr.solveLoop, DepMgr.initSt]
    rw [this] at hsel
    simpa using hsel.symm
  have hbad : ∀ j ∈ s.runList, sem.prog j ≠ .bad := by
    intro j hj hc
    obtain ⟨q, hq, _⟩ := hl.book.lookup_some (hl.runSub j hj)
    have := (hl.fresh _ q hq).2 j hj rfl
    simp [inhibitorList, resourcePart, hc] at this
  have hrec : ∀ d, (recompute sem
      { s1 with mandatory := s.mandatory, desired := d, runList := s.runList }).2 = none := by
    intro d
    exact recompute_total hwf ⟨hp.book.nodup, hp.book.states, hp.book.res⟩ hsub1 hl.runNodup
      hl.order hbad
  have hnone : (updateDesired sem { s1 with mandatory := s.mandatory } s.desired true).2.2 = none := by
    unfold updateDesired
    simp only [if_true]
    rw [show s1.jobs.length + (s.mandatory ++ s.desired).length + 1 =
      (s1.jobs.length + (s.mandatory ++ s.desired).length) + 1 from rfl]
    simp only [repairLoop]
    by_cases hd : s.mandatory ++ s.desired = []
    · rw [if_pos hd]
      have := hrec []
      rw [hempty hd] at this
      exact this
    · rw [if_neg hd, hres]
      exact hrec _
  have h3 : restoreDesired sem (suspend f sem s) { s1 with mandatory := s.mandatory } =
      .ok (updateDesired sem { s1 with mandatory := s.mandatory } s.desired true).1 := by
    have e : lookupJobs { s1 with mandatory := s.mandatory } (suspend f sem s).desired =
        some s.desired := by
      rw [show (suspend f sem s).desired = s.desired.map sem.id from rfl, ← hdes]
      have : ∀ is : List I, lookupJobs { s1 with mandatory := s.mandatory } is = lookupJobs s1 is := by
        intro is
        induction is with
        | nil => rfl
        | cons i is ih => simp only [lookupJobs, ih]
      exact this _
    simp only [restoreDesired, e, hnone]
  have hb3 : Book sem (updateDesired sem { s1 with mandatory := s.mandatory } s.desired true).1 :=
    Book.updateDesired (s := { s1 with mandatory := s.mandatory })
      ⟨hp.book.nodup, hp.book.states, hp.book.res⟩ _ _
  generalize (updateDesired sem { s1 with mandatory := s.mandatory } s.desired true).1 = s3 at h3 hb3
  rcases trim_spec hb3 (fun j => decide (sem.id j ∉ s3.runList.map sem.id ++
    (suspend f sem s).jobs.map Prod.fst)) with ⟨_, j, _, hj, hjr⟩ | ⟨t, ht, _⟩
  · exfalso
    simp only [decide_eq_true_eq, List.mem_append, not_or] at hj
    exact hj.1 hjr
  · refine ⟨t, ?_⟩
    simp only [resume, h0, h1, h2, h3, restoreJobList, ht]

theorem Produced.mono {sem : Sem J I E R} {base : List J} {s s' : Session J I E R}
    (h : ∀ i j p, view s.states i = some (j, p) → p.2 ≠ [] → view s'.states i = some (j, p)) {j : J}
    (hp : Produced sem base s j) : Produced sem base s' j := by
  induction hp with
  | base hk => exact .base hk
  | @gen j q r k _ hq hj hr hk ih =>
    have hv := h (sem.id j) q.job (q.result, q.history) (by simp [view, hq]) (by
      intro hc; simp only at hc; rw [hc] at hr; simp at hr)
    simp only [view] at hv
    cases hq' : s'.states.lookup (sem.id j) with
    | none => rw [hq'] at hv; simp at hv
    | some q' =>
      rw [hq'] at hv
      simp only [Option.map_some, Option.some.injEq, Prod.mk.injEq] at hv
      exact .gen ih hq' (hv.1.trans hj) (by rw [hv.2.2]; exact hr) hk

end Verif.Suspend
