import Verif.Lemmas.Backtrack
import Mathlib.Data.List.Perm.Subperm

/-!
# C69: a finished `plainbox run` has a result for every job

The loop starts from a session reached by any calls, in which the jobs are selected with the same selection
that is used again when jobs are added (`Begins`).

* `C69_done`: when the loop returns, every job of the run list, and so every selected job that can be
  scheduled, has an outcome; jobs that came meanwhile are included.
* `C69_once`: no job was started twice.
* `C69_ready`: a job is considered only when its dependencies have outcomes.
* `C69_ends`: the loop ends if only finitely many ids can be made.
-/

set_option linter.unusedSectionVars false

namespace Verif.Session

open Verif.DepMgr (Graph DepType DepsFirst Reach eq_of_id DependsOn)

variable {J I E R : Type} [DecidableEq J] [DecidableEq I] [DecidableEq E] [DecidableEq R]

/-- The loop begins in `s0`: jobs were selected in a session reached by calls. -/
def Begins (sem : Sem J I E R) (sel : List J → List J) (s0 : Session J I E R) : Prop :=
  ∃ s, Reachable sem s ∧ (∀ v ∈ s.mandatory, v ∈ s.jobs) ∧
    (updateDesired sem s (sel s.jobs) true).2.2 = none ∧ s0 = (updateDesired sem s (sel s.jobs) true).1

theorem Begins.plan {sem : Sem J I E R} (hwf : sem.WF) {sel : List J → List J} (hsel : SelOK sel)
    {s0 : Session J I E R} (h : Begins sem sel s0) : Plan sem sel s0 ∧ Live sem s0 := by
  obtain ⟨s, hr, hm, he, rfl⟩ := h
  have hl := hr.live hwf
  obtain ⟨d, run, problems, hrep, hu⟩ := updateDesired_spec hl.book (sel s.jobs) true (by
    intro v hv _
    rcases List.mem_append.mp hv with hv | hv
    · exact hm v hv
    · exact hsel.sub _ v hv)
  rw [hu] at he ⊢
  dsimp only at he ⊢
  have hp : Plan sem sel { s with desired := d, runList := run } :=
    ⟨⟨hl.book.nodup, hl.book.states, hl.book.res⟩, hm, hr.resInv hwf, problems, hrep⟩
  exact ⟨hp.recompute, hp.live he⟩

/-- A job has an outcome. -/
def HasOutcome (sem : Sem J I E R) (s : Session J I E R) (j : J) : Prop :=
  ∃ q, s.states.lookup (sem.id j) = some q ∧ q.result.outcome ≠ .none

/-- When the loop returns, every job of the run list has an outcome.  The run list holds every mandatory or
selected job, among all jobs known by then, that can be scheduled. -/
theorem C69_done {sem : Sem J I E R} (hwf : sem.WF) {sel : List J → List J} (hsel : SelOK sel)
    {out : Session J I E R → J → Result R} (hout : ∀ s j, (out s j).outcome ≠ .none) {s0 : Session J I E R}
    (h0 : Begins sem sel s0) {n : Nat} {b : Round J I E R}
    (h : runAll sem sel out n (Round.start s0) = some b) (he : b.err = none) :
    (∀ j ∈ b.s.runList, HasOutcome sem b.s j) ∧
    (∀ j ∈ b.s.mandatory ++ sel b.s.jobs, Schedulable sem.graph b.s.jobs (sem.id j) →
      j ∈ b.s.runList ∧ HasOutcome sem b.s j) ∧
    (∀ k ∈ s0.jobs, k ∈ b.s.jobs) ∧ (∀ k ∈ s0.runList, k ∈ b.s.runList) := by
  obtain ⟨hp, hl⟩ := h0.plan hwf hsel
  obtain ⟨a, ha, rfl, hf⟩ := runAll_last n .start h
  obtain ⟨hb, hj0, _⟩ := ha.between hsel hout hp hl
  obtain ⟨hb', l, hg, t⟩ := runRound_spec hsel hout hb he
  obtain ⟨_, q2, q3⟩ := t.quiet (hf he)
  dsimp only at q2 q3
  obtain ⟨g1, g2, g3⟩ := gather_spec _ hg
  have main : ∀ j ∈ (runRound sem sel out a).s.runList, HasOutcome sem (runRound sem sel out a).s j := by
    intro j hj
    rw [q3] at hj
    by_cases hjl : j ∈ l
    · obtain ⟨k, o, hlk, ho⟩ := t.done j hjl
      obtain ⟨q, hq, _, rfl⟩ := look_some.mp hlk
      exact ⟨q, hq, ho⟩
    · obtain ⟨q, hq, ho⟩ := g3 j hj hjl
      obtain ⟨o', h1, h2⟩ := t.never (sem.id j) q.job q.result.outcome (look_some.mpr ⟨q, hq, rfl, rfl⟩) ho
      obtain ⟨q', hq', _, rfl⟩ := look_some.mp h1
      exact ⟨q', hq', h2⟩
  refine ⟨main, ?_, fun k hk => t.jobs k (hj0 k hk), ?_⟩
  · intro j hj hs
    obtain ⟨p, hr⟩ := hb'.sound.plan.rep
    have hd : j ∈ (runRound sem sel out a).s.desired := by
      rw [hr.desired_eq, mem_survivors]
      exact ⟨hj, hs⟩
    exact ⟨hr.all j hd, main j (hr.all j hd)⟩
  · have hrun : ∀ {b : Round J I E R}, Rounds sem sel out s0 b → ∀ k ∈ s0.runList, k ∈ b.s.runList := by
      intro b hb
      induction hb with
      | start => exact fun _ h => h
      | next hr he' _ ih =>
        intro k hk
        obtain ⟨hb1, _, _⟩ := hr.between hsel hout hp hl
        obtain ⟨_, l, _, t⟩ := runRound_spec hsel hout hb1 he'
        exact t.run k (ih k hk)
    exact fun k hk => t.run k (hrun ha k hk)

/-- No job was started twice, and only jobs of the run list were. -/
theorem C69_once {sem : Sem J I E R} (hwf : sem.WF) {sel : List J → List J} (hsel : SelOK sel)
    {out : Session J I E R → J → Result R} (hout : ∀ s j, (out s j).outcome ≠ .none) {s0 : Session J I E R}
    (h0 : Begins sem sel s0) {n : Nat} {b : Round J I E R}
    (h : runAll sem sel out n (Round.start s0) = some b) (he : b.err = none) :
    (b.started.map sem.id).Nodup ∧ ∀ j ∈ b.started, HasOutcome sem b.s j := by
  obtain ⟨hp, hl⟩ := h0.plan hwf hsel
  obtain ⟨a, ha, rfl, _⟩ := runAll_last n .start h
  obtain ⟨hb, _, _⟩ := ha.between hsel hout hp hl
  obtain ⟨hb', _, _, _⟩ := runRound_spec hsel hout hb he
  refine ⟨hb'.nodup, ?_⟩
  intro j hj
  obtain ⟨k, o, hlk, ho⟩ := hb'.done j hj
  obtain ⟨q, hq, _, rfl⟩ := look_some.mp hlk
  exact ⟨q, hq, ho⟩

/-- Whenever a job is about to be considered, in any round, all its dependencies have outcomes, and what keeps
it from starting is failures only (when requirements refer to resource jobs), although jobs may have been added
since the jobs of this round were gathered. -/
theorem C69_ready {sem : Sem J I E R} (hwf : sem.WF) {sel : List J → List J} (hsel : SelOK sel)
    {out : Session J I E R → J → Result R} (hout : ∀ s j, (out s j).outcome ≠ .none) {s0 : Session J I E R}
    (h0 : Begins sem sel s0) {b : Round J I E R} (hb : Rounds sem sel out s0 b) {l pre post : List J} {j : J}
    (hg : gather sem b.s b.s.runList = .ok l) (hl : l = pre ++ j :: post)
    (he : (runBatch sem sel out { b with flag := false } pre).err = none) :
    j ∈ (runBatch sem sel out { b with flag := false } pre).s.runList ∧
    (∀ d ∈ sem.depOrder j, ∃ q,
      (runBatch sem sel out { b with flag := false } pre).s.states.lookup d.2 = some q ∧ q.result.outcome ≠ .none) ∧
    (RefersToResources sem (runBatch sem sel out { b with flag := false } pre).s j → ∀ q,
      (runBatch sem sel out { b with flag := false } pre).s.states.lookup (sem.id j) = some q →
      NothingPending q.inhib) := by
  obtain ⟨hp, hlv⟩ := h0.plan hwf hsel
  obtain ⟨hbt, _, _⟩ := hb.between hsel hout hp hlv
  obtain ⟨g1, g2, g3⟩ := gather_spec _ hg
  have hs : Sound sem sel { b with flag := false } := ⟨hbt.sound.plan, hbt.sound.live, hbt.sound.err⟩
  have hpre : ∀ k ∈ pre, k ∈ b.s.runList := by
    intro k hk; apply g1.subset; rw [hl]; exact List.mem_append_left _ hk
  have hjr : j ∈ b.s.runList := g1.subset (by rw [hl]; simp)
  obtain ⟨s', t⟩ := runBatch_spec hsel hout pre hs hpre he
  have hj' := t.run j hjr
  have hdone : ∀ d ∈ sem.depOrder j, ∃ q,
      (runBatch sem sel out { b with flag := false } pre).s.states.lookup d.2 = some q ∧ q.result.outcome ≠ .none := by
    intro d hd
    obtain ⟨A, B, hAB⟩ := List.append_of_mem hjr
    have hord := hbt.sound.live.order A j B hAB d hd
    obtain ⟨x, hx, hxi⟩ := List.mem_map.mp hord
    have hxi : sem.id x = d.2 := hxi
    have hxr : x ∈ b.s.runList := by rw [hAB]; exact List.mem_append_left _ hx
    rw [← hxi]
    by_cases hxl : x ∈ l
    · -- gathered: it comes before j there too
      have hxp : x ∈ pre := by
        rw [hl] at hxl
        rcases List.mem_append.mp hxl with hxl | hxl
        · exact hxl
        · exfalso
          have hnd := hbt.sound.live.runNodup
          have hnd' : b.s.runList.Nodup := List.Pairwise.of_map sem.id (fun _ _ h e => h (by rw [e])) hnd
          have hsub2 : [j, x].Sublist b.s.runList := by
            rcases List.mem_cons.mp hxl with rfl | hxl
            · rw [hAB, List.nodup_append] at hnd'
              exact absurd rfl (hnd'.2.2 x hx x List.mem_cons_self)
            · refine List.Sublist.trans ?_ g1
              rw [hl]
              exact ((List.singleton_sublist.mpr hxl).cons_cons j).trans (List.sublist_append_right pre _)
          rw [hAB] at hsub2 hnd'
          rw [List.nodup_append] at hnd'
          obtain ⟨l1, l2, e, s1, s2⟩ := List.sublist_append_iff.mp hsub2
          cases l1 with
          | nil =>
            rw [List.nil_append] at e
            rw [← e] at s2
            have : x ∈ j :: B := s2.subset (by simp)
            exact hnd'.2.2 x hx x this rfl
          | cons y l1 =>
            rw [List.cons_append] at e
            injection e with e1 e2
            have : j ∈ A := s1.subset (by rw [← e1]; exact List.mem_cons_self)
            exact hnd'.2.2 j this j List.mem_cons_self rfl
      obtain ⟨k, o, hlk, ho⟩ := t.done x hxp
      obtain ⟨q, hq, _, rfl⟩ := look_some.mp hlk
      exact ⟨q, hq, ho⟩
    · obtain ⟨q, hq, ho⟩ := g3 x hxr hxl
      obtain ⟨o', h1, h2⟩ := t.never (sem.id x) q.job q.result.outcome (look_some.mpr ⟨q, hq, rfl, rfl⟩) ho
      obtain ⟨q', hq', _, rfl⟩ := look_some.mp h1
      exact ⟨q', hq', h2⟩
  refine ⟨hj', hdone, fun hk q hq => ?_⟩
  exact nothing_pending hwf ⟨s'.live, s'.plan.res⟩ hj' hdone hk hq

/-- If the ids of all jobs that exist or can be made are in a finite list, the loop ends. -/
theorem C69_ends {sem : Sem J I E R} (hwf : sem.WF) {sel : List J → List J} (hsel : SelOK sel)
    {out : Session J I E R → J → Result R} (hout : ∀ s j, (out s j).outcome ≠ .none) {s0 : Session J I E R}
    (h0 : Begins sem sel s0) (U : List I) (hU : ∀ k, k ∈ s0.jobs ∨ Made sem k → sem.id k ∈ U) :
    ∃ b, runAll sem sel out (U.length + 1) (Round.start s0) = some b := by
  obtain ⟨hp, hl⟩ := h0.plan hwf hsel
  have main : ∀ (n : Nat) (b : Round J I E R), Rounds sem sel out s0 b → U.length + 1 ≤ n + b.s.jobs.length →
      1 ≤ n → ∃ b', runAll sem sel out n b = some b' := by
    intro n
    induction n with
    | zero => intro b _ _ h; omega
    | succ n ih =>
      intro b hb hle _
      rw [runAll]
      by_cases he : (runRound sem sel out b).err.isSome = true
      · rw [if_pos he]; exact ⟨_, rfl⟩
      · rw [if_neg he]
        have he' : (runRound sem sel out b).err = none := by simpa using he
        by_cases hf : (runRound sem sel out b).flag = true
        · rw [if_pos hf]
          have hb' : Rounds sem sel out s0 (runRound sem sel out b) := .next hb he' hf
          obtain ⟨h1, _, h3⟩ := hb'.between hsel hout hp hl
          obtain ⟨h1b, _, _⟩ := hb.between hsel hout hp hl
          obtain ⟨_, l, _, t⟩ := runRound_spec hsel hout h1b he'
          have hlt : b.s.jobs.length < (runRound sem sel out b).s.jobs.length := by
            rcases t.loud hf with h | h
            · cases h
            · exact h
          have hcard : (runRound sem sel out b).s.jobs.length ≤ U.length := by
            have := (List.subperm_of_subset h1.sound.live.book.nodup (l₂ := U) (by
              intro i hi
              obtain ⟨k, hk, rfl⟩ := List.mem_map.mp hi
              exact hU k (h3 k hk))).length_le
            rwa [List.length_map] at this
          exact ih _ hb' (by omega) (by omega)
        · rw [if_neg hf]; exact ⟨_, rfl⟩
  exact main _ _ .start (by simp) (by omega)

/-! ## Example -/

/-- A job that depends on one made by a template. -/
def x5 : XJob := { id := 5, direct := [100] }

def backOps : List (Op XJob Nat Nat) := [.add x1, .add x5, .add x3]

def backSession : Session XJob Nat (Nat × Nat) Nat := (runOps exSem emptySession backOps).1

/-- All jobs are selected. -/
def backStart : Session XJob Nat (Nat × Nat) Nat := (updateDesired exSem backSession backSession.jobs true).1

/-- Job 1 gives the record 100, all pass. -/
def backOut (_ : Session XJob Nat (Nat × Nat) Nat) (j : XJob) : Result Nat :=
  ⟨.pass, if j.id = 1 then [100] else [], 0⟩

example : SelOK (fun l : List XJob => l) := ⟨fun _ _ h => h, fun _ _ h => h⟩

example : Begins exSem (fun l => l) backStart :=
  ⟨backSession, runOps_reachable backOps (s := emptySession) (.start (units := []) (by decide)) (by decide) (by decide),
    by decide, by decide, rfl⟩

/-- Job 5 cannot be scheduled at first; it is run after the job made by job 1, in a second round. -/
example : backStart.runList = [x1, x3] ∧
    (runAll exSem (fun l => l) backOut 5 (Round.start backStart)).map
      (fun b => (b.started.map XJob.id, b.s.runList.map XJob.id, b.err.isNone, b.s.states.map
        fun p => (p.1, p.2.result.outcome))) =
      some ([1, 3, 100, 5], [1, 100, 5, 3], true, [(1, .pass), (5, .pass), (3, .pass), (100, .pass)]) := by
  decide +kernel

/-- The ids of that run. -/
example : ∀ k, k ∈ backStart.jobs ∨ Made { exSem with gen := fun j rs => if j.id = 1 then (rs.filter (· = 100)).map fun r => { id := r } else [] } k →
    k.id ∈ [1, 3, 5, 100] := by
  rintro k (hk | ⟨j, rs, t, ht, hk⟩)
  · revert k; decide
  · dsimp only at ht
    split at ht
    · obtain ⟨r, hr, rfl⟩ := List.mem_map.mp ht
      have : r = 100 := by simpa using (List.mem_filter.mp hr).2
      subst this
      simp [exSem] at hk
      subst hk
      decide
    · cases ht

end Verif.Session
