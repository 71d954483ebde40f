import Verif.Lemmas.SuspendCycle
import Mathlib.Data.List.Dedup

/-!
# C19, C20: suspend and resume
-/

set_option linter.unusedSectionVars false
set_option linter.unusedSimpArgs false
set_option linter.unnecessarySeqFocus false

namespace Verif.Suspend

open Verif.Session
open Verif.DepMgr (eq_of_id resolve resolve_congr resolve_repeat resolve_spec)

variable {J I E R C W : Type} [DecidableEq J] [DecidableEq I] [DecidableEq E] [DecidableEq R]
  [DecidableEq C]

/-! ## C19 -/

/-- **C19** for sessions to which no hollow result was ever reported.  After any number of
suspend/resume cycles that return normally, a job has a result exactly if it had one, and then it is
the same job with the same last result and the same history.  Missing: sessions in which a hollow
result replaced a real one (`C19_violated`), and that resuming does return (`C19_resume_succeeds`
gives sufficient conditions). -/
theorem C19_results_partial {f : Fmt J R C W} (hinj : Function.Injective f.cks)
    {sem : Sem J I E R} (hwf : sem.WF) {sortIds : List I → List I} (hsort : SortOK sortIds)
    {base : List J} {s s' : Session J I E R} (hr : ReachableReal sem s) (hread : Readable f s)
    (n : Nat) (h : cycles f sem sortIds base n s = .ok s') :
    (∀ i q, s.states.lookup i = some q → q.history ≠ [] →
      ∃ q', s'.states.lookup i = some q' ∧ q'.job = q.job ∧ q'.result = q.result ∧
        q'.history = q.history) ∧
    (∀ i q', s'.states.lookup i = some q' → q'.history ≠ [] →
      ∃ q, s.states.lookup i = some q ∧ q.job = q'.job ∧ q.result = q'.result ∧
        q.history = q'.history) ∧
    (∀ i q, s.states.lookup i = some q → (q.history ≠ [] ↔ q.result.isHollow = false)) := by
  have main : ∀ (n : Nat) (s : Session J I E R), Reachable sem s → AllHist s → Readable f s →
      cycles f sem sortIds base n s = .ok s' →
      (∀ i j p, view s.states i = some (j, p) → p.2 ≠ [] → view s'.states i = some (j, p)) ∧
      (∀ i j p, view s'.states i = some (j, p) → p.2 ≠ [] → view s.states i = some (j, p)) := by
    intro n
    induction n with
    | zero =>
      intro s _ _ _ h
      simp only [cycles, Except.ok.injEq] at h
      subst h
      exact ⟨fun i j p h _ => h, fun i j p h _ => h⟩
    | succ n ih =>
      intro s hr hh hread h
      simp only [cycles] at h
      split at h
      · simp at h
      · rename_i s1 h1
        obtain ⟨a, b, c, d, e⟩ := cycle_view hinj hwf hsort hr hh hread h1
        obtain ⟨x, y⟩ := ih s1 a d e h
        exact ⟨fun i j p hv hne => x i j p (b i j p hv hne) hne,
          fun i j p hv hne => c i j p (y i j p hv hne) hne⟩
  have conv : ∀ (a b : Session J I E R), (∀ i j p, view a.states i = some (j, p) → p.2 ≠ [] →
      view b.states i = some (j, p)) → ∀ i q, a.states.lookup i = some q → q.history ≠ [] →
      ∃ q', b.states.lookup i = some q' ∧ q'.job = q.job ∧ q'.result = q.result ∧
        q'.history = q.history := by
    intro a b hab i q hq hne
    have := hab i q.job (q.result, q.history) (by simp [view, hq]) hne
    simp only [view] at this
    cases hq' : b.states.lookup i with
    | none => rw [hq'] at this; simp at this
    | some q' =>
      rw [hq'] at this
      simp only [Option.map_some, Option.some.injEq, Prod.mk.injEq] at this
      exact ⟨q', rfl, this.1, this.2.1, this.2.2⟩
  obtain ⟨x, y⟩ := main n s hr.reachable (hr.hist hwf) hread h
  refine ⟨conv s s' x, ?_, ?_⟩
  · intro i q' hq' hne
    obtain ⟨q, h1, h2⟩ := conv s' s y i q' hq' hne
    exact ⟨q, h1, h2⟩
  · intro i q hq
    exact hist_nonhollow ((histOK_iff s).mp (hr.hist hwf) i q hq)

/-! ## C20 -/

/-- **C20** for a selection in which the desired jobs start with the mandatory ones (as
`update_desired_job_list` leaves it when it drops no mandatory job).  After any number of
suspend/resume cycles that return normally the run list and the mandatory list are unchanged; the
desired list names the same jobs but has one more copy of the mandatory jobs per cycle.  Missing:
selections made without the mandatory jobs (`C20_run_list_violated`); the desired list is not equal
(`C20_desired_violated`). -/
theorem C20_selection_partial {f : Fmt J R C W} (hinj : Function.Injective f.cks)
    {sem : Sem J I E R} (hwf : sem.WF) {sortIds : List I → List I} (hsort : SortOK sortIds)
    {base : List J} {s s' : Session J I E R} (hr : Reachable sem s)
    (hm : s.mandatory <+: s.desired) (n : Nat)
    (h : cycles f sem sortIds base n s = .ok s') :
    s'.runList = s.runList ∧ s'.mandatory = s.mandatory ∧
    s'.desired = (List.replicate n s.mandatory).flatten ++ s.desired ∧
    (∀ v, v ∈ s'.desired ↔ v ∈ s.desired) := by
  have main : ∀ (n : Nat) (s : Session J I E R), Reachable sem s → s.mandatory <+: s.desired →
      cycles f sem sortIds base n s = .ok s' →
      s'.runList = s.runList ∧ s'.mandatory = s.mandatory ∧
      s'.desired = (List.replicate n s.mandatory).flatten ++ s.desired := by
    intro n
    induction n with
    | zero =>
      intro s _ _ h
      simp only [cycles, Except.ok.injEq] at h
      subst h
      simp
    | succ n ih =>
      intro s hr hm h
      simp only [cycles] at h
      split at h
      · simp at h
      · rename_i s1 h1
        obtain ⟨a, b, c, d⟩ := cycle_sel hinj hwf hsort hr hm h1
        obtain ⟨x, y, z⟩ := ih s1 a (by rw [c, d]; exact List.prefix_append _ _) h
        refine ⟨x.trans b, y.trans d, ?_⟩
        rw [z, c, d]
        rw [List.replicate_succ', List.flatten_append]
        simp
  obtain ⟨x, y, z⟩ := main n s hr hm h
  refine ⟨x, y, z, ?_⟩
  intro v
  rw [z]
  simp only [List.mem_append, List.mem_flatten, List.mem_replicate]
  constructor
  · rintro (⟨l, ⟨_, rfl⟩, hv⟩ | hv)
    · exact hm.subset hv
    · exact hv
  · exact fun hv => .inr hv

/-! ## Resuming succeeds -/

/-- **C19, C20**: resuming succeeds.  If no hollow result was ever reported, the results can be read
back, and every job that has a result or is on the run list is among the jobs given to resume or
comes from them (siblings, templates), then any number of suspend/resume cycles returns normally;
the session afterwards satisfies the same conditions. -/
theorem C19_C20_cycles_succeed {f : Fmt J R C W} (hinj : Function.Injective f.cks)
    {sem : Sem J I E R} (hwf : sem.WF) {sortIds : List I → List I} (hsort : SortOK sortIds)
    {base U : List J} {s : Session J I E R} (hr : ReachableReal sem s) (hread : Readable f s)
    (hR : Resumable sem base U s) (hm : s.mandatory <+: s.desired) (n : Nat) :
    ∃ s', cycles f sem sortIds base n s = .ok s' ∧ Resumable sem base U s' := by
  have main : ∀ (n : Nat) (s : Session J I E R), Reachable sem s → AllHist s → Readable f s →
      Resumable sem base U s → s.mandatory <+: s.desired →
      ∃ s', cycles f sem sortIds base n s = .ok s' ∧ Resumable sem base U s' := by
    intro n
    induction n with
    | zero => intro s _ _ _ hR _; exact ⟨s, rfl, hR⟩
    | succ n ih =>
      intro s hr hh hread hR hm
      obtain ⟨s1, h1⟩ := resume_ok hinj hwf hsort hr hh hread hR hm
      obtain ⟨a, b, c, d, e⟩ := cycle_view hinj hwf hsort hr hh hread h1
      obtain ⟨_, b2, c2, d2⟩ := cycle_sel hinj hwf hsort hr hm h1
      have hl := hr.live hwf
      have hback : ∀ i q, s1.states.lookup i = some q → q.history ≠ [] →
          ∃ q0, s.states.lookup i = some q0 ∧ q0.job = q.job ∧ q0.history = q.history := by
        intro i q hq hne
        have := c i q.job (q.result, q.history) (by simp [view, hq]) hne
        simp only [view] at this
        cases hq0 : s.states.lookup i with
        | none => rw [hq0] at this; simp at this
        | some q0 =>
          rw [hq0] at this
          simp only [Option.map_some, Option.some.injEq, Prod.mk.injEq] at this
          exact ⟨q0, rfl, this.1, this.2.2⟩
      have hR1 : Resumable sem base U s1 := by
        refine ⟨hR.uniq, hR.baseSub, hR.fam, ?_, ?_⟩
        · intro i q hq r hrr k hk
          obtain ⟨q0, h0, hj, hhist⟩ := hback i q hq (by intro hc; rw [hc] at hrr; simp at hrr)
          rw [← hhist] at hrr
          rw [← hj] at hk
          exact hR.gens i q0 h0 r hrr k hk
        · intro i q hq hcase
          refine Produced.mono b ?_
          rcases hcase with hne | hrun
          · obtain ⟨q0, h0, hj, hhist⟩ := hback i q hq hne
            rw [← hj]
            exact hR.saved i q0 h0 (.inl (by rw [hhist]; exact hne))
          · rw [b2] at hrun
            obtain ⟨q0, h0, hj⟩ := hl.book.lookup_some (hl.runSub _ hrun)
            rw [← hj]
            exact hR.saved _ q0 h0 (.inr (by rw [hj]; exact hrun))
      obtain ⟨s', h2, hR2⟩ := ih s1 a d e hR1 (by rw [c2, d2]; exact List.prefix_append _ _)
      exact ⟨s', by simp only [cycles, h1, h2], hR2⟩
  exact main n s hr.reachable (hr.hist hwf) hread hR hm

/-! ## Examples -/

/-- A format that writes results and jobs as they are. -/
def exFmt : Fmt XJob Nat XJob (Result Nat) := ⟨id, id, some⟩

def exBase : List XJob := [x1, x2, x3, x4, x7]

def x8 : XJob := { id := 8, direct := [7] }
def x100 : XJob := { id := 100 }

theorem dedup_sort : SortOK (List.dedup : List Nat → List Nat) :=
  fun l => ⟨List.nodup_dedup l, fun _ => List.mem_dedup⟩

theorem runOps_real {sem : Sem J I E R} : ∀ (ops : List (Op J I R)) {s s' : Session J I E R},
    ReachableReal sem s → OpsOK sem s ops →
    (∀ op ∈ ops, ∀ j r, op = .result j r → r.isHollow = false) → runOps sem s ops = (s', none) →
    ReachableReal sem s' := by
  intro ops
  induction ops with
  | nil =>
    intro s s' h _ _ hr
    simp only [runOps, Prod.mk.injEq, and_true] at hr
    exact hr ▸ h
  | cons op ops ih =>
    intro s s' h hok hop hr
    simp only [runOps] at hr
    split at hr
    · simp at hr
    · rename_i s1 heq
      have hok2 := hok.2
      rw [heq] at hok2
      exact ih (.step h hok.1 (hop op (by simp)) heq) hok2 (fun o ho => hop o (by simp [ho])) hr

/-- A session with a mandatory job, a sibling, a job generated from a resource (number 100), and a
job that ran twice. -/
def susOps : List (Op XJob Nat Nat) :=
  [.add x1, .add x2, .add x3, .add x4, .add x7, .mandatory [x3], .desired [x1] true,
   .result x1 ⟨.pass, [5, 100], 0⟩, .desired [x4, x2, x100] true, .result x3 ⟨.fail, [], 1⟩,
   .result x3 ⟨.pass, [], 2⟩, .result x100 ⟨.crash, [], 3⟩]

def susFinal : Session XJob Nat (Nat × Nat) Nat := (runOps exSem emptySession susOps).1

theorem susFinal_real : ReachableReal exSem susFinal := by
  apply runOps_real susOps (s := emptySession)
  · exact .start (units := []) (by decide)
  · decide
  · intro op hop j r he
    subst he
    simp [susOps, x1, x3, x100] at hop
    rcases hop with ⟨_, rfl⟩ | ⟨_, rfl⟩ | ⟨_, rfl⟩ | ⟨_, rfl⟩ <;> rfl
  · decide

theorem susFinal_read : Readable exFmt susFinal := fun _ _ _ _ _ => rfl

theorem susFinal_resumable : Resumable exSem exBase (exBase ++ [x8, x100]) susFinal := by
  have hmem : ∀ p ∈ susFinal.states, (p.2.job ∈ exBase ∨ p.2.job = x8 ∨ p.2.job = x100) ∧
      ∀ r ∈ p.2.history, ∀ k ∈ genOf exSem p.2.job r, k ∈ exBase ++ [x8, x100] := by decide
  have h1 : Produced exSem exBase susFinal x1 := .base (by decide)
  refine ⟨by decide, by decide, by decide, ?_, ?_⟩
  · intro i q hq
    exact (hmem _ (lookup_mem hq)).2
  · intro i q hq _
    rcases (hmem _ (lookup_mem hq)).1 with h | h | h
    · exact .base (List.mem_flatMap.mpr ⟨_, h, by simp⟩)
    · simp only at h; rw [h]; exact .base (by decide)
    · simp only at h
      rw [h]
      refine .gen h1 (q := ⟨x1, [], ⟨.pass, [5, 100], 0⟩, [⟨.pass, [5, 100], 0⟩], 3⟩)
        (r := ⟨.pass, [5, 100], 0⟩) (by decide) rfl (by decide) (by decide)

/-- The hypotheses of `C19_results_partial`, `C20_selection_partial` and `C19_C20_cycles_succeed`
are met, and the conclusions say something: four jobs have results, one of them two. -/
example : (∀ n, ∃ s', cycles exFmt exSem List.dedup exBase n susFinal = .ok s' ∧
      s'.runList = [x3, x1, x2, x4, x100] ∧
      ∃ q, s'.states.lookup 3 = some q ∧ q.result = ⟨.pass, [], 2⟩ ∧
        q.history = [⟨.fail, [], 1⟩, ⟨.pass, [], 2⟩]) := by
  intro n
  have hinj : Function.Injective exFmt.cks := fun _ _ h => h
  have hm : susFinal.mandatory <+: susFinal.desired := by decide
  obtain ⟨s', h, _⟩ := C19_C20_cycles_succeed hinj exSem_wf dedup_sort susFinal_real susFinal_read
    susFinal_resumable hm n
  refine ⟨s', h, ?_, ?_⟩
  · rw [(C20_selection_partial hinj exSem_wf dedup_sort susFinal_real.reachable hm n h).1]; decide
  · obtain ⟨q', a, _, b, c⟩ := (C19_results_partial hinj exSem_wf dedup_sort susFinal_real
      susFinal_read n h).1 3 ⟨x3, [], ⟨.pass, [], 2⟩, [⟨.fail, [], 1⟩, ⟨.pass, [], 2⟩], 3⟩
      (by decide) (by decide)
    exact ⟨q', a, b, c⟩

/-! ## Violations -/

/-- The session after some calls, resumed once against the same jobs. -/
def onceResumed (ops : List (Op XJob Nat Nat)) :
    Except (Err XJob Nat) (Session XJob Nat (Nat × Nat) Nat) :=
  resume exFmt exSem List.dedup exBase (suspend exFmt exSem (runOps exSem emptySession ops).1)

/-- **C19 is violated** when a hollow result is reported after a real one for a job that is not
selected: the document has results for a job whose checksum it lacks, and resume refuses it. -/
theorem C19_hollow_violated :
    (runOps exSem emptySession [.add x3, .result x3 ⟨.pass, [], 0⟩, .result x3 .empty]).2 = none ∧
    onceResumed [.add x3, .result x3 ⟨.pass, [], 0⟩, .result x3 .empty] = .error .corrupted := by
  decide

/-- **C19 is violated** when a hollow result comes between two equal ones: the history has both
before and one after. -/
theorem C19_history_violated :
    ((runOps exSem emptySession [.add x3, .result x3 ⟨.pass, [], 0⟩, .result x3 .empty,
      .result x3 ⟨.pass, [], 0⟩]).1.states.lookup 3).map (·.history.length) = some 2 ∧
    (onceResumed [.add x3, .result x3 ⟨.pass, [], 0⟩, .result x3 .empty,
      .result x3 ⟨.pass, [], 0⟩]).toOption.bind (fun s => (s.states.lookup 3).map (·.history.length)) =
        some 1 := by decide

/-- **C19 is violated** when a hollow result is the last one of a selected job: after resuming the
last result is the one before. -/
theorem C19_result_violated :
    ((runOps exSem emptySession [.add x3, .desired [x3] true, .result x3 ⟨.fail, [], 0⟩,
      .result x3 .empty]).1.states.lookup 3).map (·.result.outcome) = some .none ∧
    (onceResumed [.add x3, .desired [x3] true, .result x3 ⟨.fail, [], 0⟩,
      .result x3 .empty]).toOption.bind (fun s => (s.states.lookup 3).map (·.result.outcome)) =
        some .fail := by decide

/-- **C20 is violated**: the desired list grows by the mandatory jobs. -/
theorem C20_desired_violated :
    (runOps exSem emptySession [.add x3, .add x7, .mandatory [x3], .desired [x7] true]).1.desired =
      [x3, x7] ∧
    (onceResumed [.add x3, .add x7, .mandatory [x3], .desired [x7] true]).toOption.map
      (·.desired) = some [x3, x3, x7] := by decide

/-- **C20 is violated** for a selection made without the mandatory jobs (as bootstrapping does,
session/assistant.py:859, 930): after resuming they are on the run list. -/
theorem C20_run_list_violated :
    (runOps exSem emptySession [.add x3, .add x7, .mandatory [x3], .desired [x7] false]).1.runList =
      [x7] ∧
    (onceResumed [.add x3, .add x7, .mandatory [x3], .desired [x7] false]).toOption.map
      (·.runList) = some [x3, x7] := by decide

/-- **C23**, termination: restoring the results of jobs ends, whatever the document: the loop over the
jobs that could not be restored yet never runs out of rounds. -/
theorem C23_results_terminate (f : Fmt J R C W) (sem : Sem J I E R) (sortIds : List I → List I)
    (base : List J) (d : Doc I C W) (s : Session J I E R) :
    restoreResults f sem sortIds base d s ≠ .error .diverges := by
  have hbase : ∀ (js : List J) (s : Session J I E R), addBase sem js s ≠ .error .diverges := by
    intro js
    induction js with
    | nil => intro s; simp [addBase]
    | cons j js ih =>
      intro s
      simp only [addBase]
      split
      · exact ih _
      · simp
  unfold restoreResults
  split
  · rename_i e he
    intro h
    simp only [Except.error.injEq] at h
    subst h
    exact hbase _ _ he
  · split
    · rename_i e he
      intro h
      simp only [Except.error.injEq] at h
      subst h
      exact pass_not_diverges _ _ he
    · rcases rounds_terminate (f := f) (sem := sem) (d := d) _ _ _ (Nat.le_refl _) with h | ⟨t, l, h⟩
      · exact h
      · exact absurd h (pass_not_diverges _ _)

end Verif.Suspend
