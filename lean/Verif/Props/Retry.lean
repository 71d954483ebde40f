import Verif.Model.Retry
import Verif.Model.Suspend
import Verif.Props.RunLoop

/-! # C90: running jobs more than once -/

namespace Verif.Retry

open Verif.Session

set_option linter.unusedSectionVars false
set_option linter.unnecessarySeqFocus false

variable {J I E R : Type} [DecidableEq J] [DecidableEq I] [DecidableEq E] [DecidableEq R]

/-! ## Specification -/

/-- What the session knows of the runs of a job: last result, all results, tries left. -/
structure Known (R : Type) where
  result : Result R
  history : List (Result R)
  left : Int
deriving DecidableEq

/-- `job_state_map[i]`. -/
def known (s : Session J I E R) (i : I) : Option (Known R) :=
  (s.states.lookup i).map fun q => ⟨q.result, q.history, q.attempts⟩

/-- How often the job was considered. -/
def times (sem : Sem J I E R) (i : I) (js : List J) : Nat := (js.filter fun j => decide (sem.id j = i)).length

/-- How often its command ran. -/
def runs (sem : Sem J I E R) (i : I) (l : List (J × Bool × Option (Result R))) : Nat :=
  (l.filter fun x => decide (sem.id x.1 = i) && x.2.1).length

/-- Its results, in the order in which they came. -/
def results (sem : Sem J I E R) (i : I) (l : List (J × Bool × Option (Result R))) : List (Result R) :=
  l.filterMap fun x => if sem.id x.1 = i then x.2.2 else none

/-- Nothing inhibits the job. -/
def Ready (sem : Sem J I E R) (s : Session J I E R) (j : J) : Prop :=
  ∃ q, s.states.lookup (sem.id j) = some q ∧ q.inhib = []

/-! ## Lemmas -/

theorem known_core {st st' : List (I × JobState J E R)} (h : st.map core = st'.map core) (i : I) :
    (st.lookup i).map (fun q => (⟨q.result, q.history, q.attempts⟩ : Known R)) =
      (st'.lookup i).map fun q => ⟨q.result, q.history, q.attempts⟩ := by
  induction st generalizing st' with
  | nil =>
    cases st' with
    | nil => rfl
    | cons _ _ => simp at h
  | cons p st ih =>
    cases st' with
    | nil => simp at h
    | cons p' st' =>
      simp only [List.map_cons, List.cons.injEq, core, Prod.mk.injEq] at h
      obtain ⟨⟨h1, -, h2, h3, h4⟩, h5⟩ := h
      rw [lookup_cons_if, lookup_cons_if, h1]
      split
      · simp [h2, h3, h4]
      · exact ih h5

theorem known_recompute (sem : Sem J I E R) (s : Session J I E R) (i : I) :
    known (recompute sem s).1 i = known s i := known_core (recompute_core sem s) i

theorem known_addOne {sem : Sem J I E R} (s : Session J I E R) (j : J) {i : I} {k : Known R}
    (h : known s i = some k) : known (addOne sem s j).1 i = some k := by
  unfold addOne
  split
  · simp only [known, lookup_append_if] at h ⊢
    cases hq : s.states.lookup i with
    | none => simp [hq] at h
    | some q => simpa [hq] using h
  · split <;> exact h

theorem known_addMany {sem : Sem J I E R} : ∀ (js : List J) (s : Session J I E R) {i : I} {k : Known R},
    known s i = some k → known (addMany sem s js).1 i = some k
  | [], _, _, _, h => h
  | j :: js, s, i, k, h => by
    have h1 := known_addOne (sem := sem) s j h
    simp only [addMany]
    split
    · rename_i heq; rw [heq] at h1; exact h1
    · rename_i heq; rw [heq] at h1; exact known_addMany js _ h1

theorem known_addGenerated {sem : Sem J I E R} : ∀ (js : List J) (s : Session J I E R) {i : I} {k : Known R},
    known s i = some k → known (addGenerated sem s js).1 i = some k
  | [], _, _, _, h => h
  | j :: js, s, i, k, h => by
    have h1 : known (addUnit sem s j).1 i = some k := by
      simp only [addUnit]
      rw [known_recompute]
      exact known_addMany _ _ h
    simp only [addGenerated]
    split
    · rename_i heq; rw [heq] at h1; exact h1
    · rename_i heq; rw [heq] at h1; exact known_addGenerated js _ h1

/-- What a new result does to what is known. -/
def note (r : Result R) (k : Known R) : Known R :=
  if r = k.result then k else ⟨r, if r.isHollow then k.history else k.history ++ [r], k.left⟩

theorem known_observe {sem : Sem J I E R} (s : Session J I E R) (j : J) (r : Result R) {i : I} {k : Known R}
    (h : known s i = some k) :
    known (observeResult sem s j r).1 i = some (if sem.id j = i then note r k else k) := by
  have hm : known { s with states := modify s.states (sem.id j) (setResult r) } i =
      some (if sem.id j = i then note r k else k) := by
    simp only [known, lookup_modify] at h ⊢
    cases hq : s.states.lookup i with
    | none => simp [hq] at h
    | some q =>
      rw [hq] at h
      simp only [Option.map_some, Option.some.injEq] at h
      subst h
      by_cases hi : i = sem.id j
      · simp only [hi, if_true, Option.map_some, note, setResult]
        split <;> rfl
      · rw [if_neg hi, if_neg (Ne.symm hi)]
        rfl
  unfold observeResult
  split
  · rename_i hn
    rw [h]
    have hne : sem.id j ≠ i := by
      rintro rfl
      simp only [Option.isNone_iff_eq_none] at hn
      simp [known, hn] at h
    simp [hne]
  · split
    · have hst : ∀ s1 : Session J I E R, known (storeResource sem s1 j r) i = known s1 i := by
        intro s1; unfold storeResource known; split <;> rfl
      split
      · exact (hst _).trans hm
      · exact known_addGenerated _ _ ((hst _).trans hm)
    · exact hm

theorem known_use {sem : Sem J I E R} {b : Bool} {s s' : Session J I E R} {j : J} {r : Result R}
    (hu : useJobResult sem b s j r = (s', none)) {i : I} {k : Known R} (h : known s i = some k) :
    known s' i = some (if sem.id j = i then { note r k with left := if b then k.left - 1 else k.left } else k) := by
  have ho := known_observe (sem := sem) s j r h
  have hleft : (note r k).left = k.left := by unfold note; split <;> rfl
  unfold useJobResult at hu
  split at hu
  · simp at hu
  · rename_i s1 heq
    have h1 : known s1 i = some (if sem.id j = i then note r k else k) := by
      unfold updateResult at heq
      split at heq
      · simp at heq
      · rename_i s2 heq2
        rw [heq2] at ho
        have : s1 = (recompute sem s2).1 := by rw [heq]
        rw [this, known_recompute]
        exact ho
    split at hu
    · next hb =>
      simp only [Prod.mk.injEq, and_true] at hu
      subst hu
      simp only [known, useAttempt, lookup_modify] at h1 ⊢
      cases hq : s1.states.lookup i with
      | none => simp [hq] at h1
      | some q =>
        rw [hq] at h1
        simp only [Option.map_some, Option.some.injEq] at h1
        by_cases hi : i = sem.id j
        · rw [if_pos hi, if_pos hi.symm] at *
          simp only [Option.map_some, hb, if_true, Option.some.injEq]
          rw [← hleft, ← h1]
        · rw [if_neg hi, if_neg (Ne.symm hi)] at *
          simp only [Option.map_some, Option.some.injEq]
          exact h1
    · next hb =>
      simp only [Prod.mk.injEq, and_true] at hu
      subst hu
      rw [h1]
      simp only [hb, if_false, Bool.false_eq_true]
      rw [← hleft]

theorem known_consider {sem : Sem J I E R} {b : Bool} {out : Session J I E R → J → Result R} {s s' : Session J I E R}
    {j : J} (hu : considerJob sem b out s j = (s', none)) :
    ∃ r, outcomeOf sem out s j = some r ∧ ∀ {i : I} {k : Known R}, known s i = some k →
      known s' i = some (if sem.id j = i then { note r k with left := if b then k.left - 1 else k.left } else k) := by
  unfold considerJob at hu
  unfold outcomeOf
  split at hu
  · simp at hu
  · next q hq =>
    split at hu
    · next hc => exact ⟨out s j, by rw [hq]; exact if_pos hc, fun h => known_use hu h⟩
    · next hc =>
      split at hu
      · simp at hu
      · next o ho => exact ⟨⟨o, [], 1⟩, by rw [hq]; simp only [hc, ho]; rfl, fun h => known_use hu h⟩

theorem started_known {sem : Sem J I E R} {s : Session J I E R} {j : J} {k : Known R} (h : known s (sem.id j) = some k) :
    started sem s j = true ↔ Ready sem s j ∧ 0 < k.left := by
  unfold started Ready
  simp only [known] at h
  cases hq : s.states.lookup (sem.id j) with
  | none => simp [hq] at h
  | some q =>
    rw [hq] at h
    simp only [Option.map_some, Option.some.injEq] at h
    subst h
    simp [JobState.canStart]

theorem times_cons (sem : Sem J I E R) (i : I) (j : J) (js : List J) :
    times sem i (j :: js) = (if sem.id j = i then 1 else 0) + times sem i js := by
  unfold times
  by_cases h : sem.id j = i <;> simp [h] <;> omega

theorem trace_cons (sem : Sem J I E R) (b : Bool) (out : Session J I E R → J → Result R) {s s' : Session J I E R} {j : J}
    (js : List J) (h : considerJob sem b out s j = (s', none)) :
    trace sem b out s (j :: js) = (j, started sem s j, outcomeOf sem out s j) :: trace sem b out s' js := by
  rw [trace, h]

theorem runs_cons (sem : Sem J I E R) (i : I) (x : J × Bool × Option (Result R)) (l : List (J × Bool × Option (Result R))) :
    runs sem i (x :: l) = (if sem.id x.1 = i ∧ x.2.1 = true then 1 else 0) + runs sem i l := by
  unfold runs
  by_cases h : sem.id x.1 = i ∧ x.2.1 = true
  · simp [h.1, h.2]; omega
  · rw [List.filter_cons_of_neg (by simpa using h), if_neg h]; omega

/-! ## Theorems -/

/-- In auto-retry mode every consideration of a job takes one of its tries, otherwise none is taken. -/
theorem C90_tries (sem : Sem J I E R) (b : Bool) (out : Session J I E R → J → Result R) (js : List J)
    {s s' : Session J I E R} (hr : runJobs sem b out s js = (s', none)) {i : I} {k : Known R} (h : known s i = some k) :
    ∃ k', known s' i = some k' ∧ k'.left = if b then k.left - times sem i js else k.left := by
  induction js generalizing s k with
  | nil =>
    simp only [runJobs, Prod.mk.injEq, and_true] at hr
    subst hr
    exact ⟨k, h, by simp [times]⟩
  | cons j js ih =>
    simp only [runJobs] at hr
    split at hr
    · simp at hr
    · next s1 heq =>
      obtain ⟨r, -, hk⟩ := known_consider heq
      obtain ⟨k', h1, h2⟩ := ih hr (hk h)
      refine ⟨k', h1, ?_⟩
      rw [h2, times_cons]
      by_cases hi : sem.id j = i <;> cases b <;> simp [hi] <;> omega

/-- In auto-retry mode a job is started only while it has tries left: never more than three times in all. -/
theorem C90_limit (sem : Sem J I E R) (out : Session J I E R → J → Result R) (js : List J) {s : Session J I E R}
    {i : I} {k : Known R} (h : known s i = some k) : (runs sem i (trace sem true out s js) : Int) ≤ max k.left 0 := by
  induction js generalizing s k with
  | nil => simp [trace, runs]; omega
  | cons j js ih =>
    have hst : sem.id j = i → started sem s j = true → 0 < k.left := by
      rintro rfl hs
      exact ((started_known h).1 hs).2
    cases hc : considerJob sem true out s j with
    | mk s' e =>
      cases e with
      | some x =>
        rw [trace, hc]
        dsimp only
        rw [runs_cons]
        have : runs sem i ([] : List (J × Bool × Option (Result R))) = 0 := rfl
        rw [this]
        split
        · next hx => have := hst hx.1 hx.2; omega
        · omega
      | none =>
        rw [trace_cons _ _ _ _ hc, runs_cons]
        obtain ⟨r, -, hk⟩ := known_consider hc
        have h2 := ih (hk h)
        by_cases hi : sem.id j = i
        · rw [if_pos hi] at h2
          simp only [if_true] at h2
          by_cases hs : started sem s j = true
          · have := hst hi hs
            rw [if_pos ⟨hi, hs⟩]
            omega
          · rw [if_neg (by simp [hs])]
            omega
        · rw [if_neg hi] at h2
          rw [if_neg (by simp [hi])]
          omega

/-- A job that the session does not know is not started, nor is any job after it: there is an exception, and the session
stays as it is. -/
theorem C90_unknown (sem : Sem J I E R) (b : Bool) (out : Session J I E R → J → Result R) (s : Session J I E R) (j : J)
    (js : List J) (h : known s (sem.id j) = none) :
    runJobs sem b out s (j :: js) = (s, some (.keyError (sem.id j))) ∧
      ∀ i, runs sem i (trace sem b out s (j :: js)) = 0 := by
  have hq : s.states.lookup (sem.id j) = none := by
    simpa [known] using h
  have hc : considerJob sem b out s j = (s, some (.keyError (sem.id j))) := by rw [considerJob.eq_def, hq]
  refine ⟨by rw [runJobs, hc], fun i => ?_⟩
  rw [trace, hc, runs_cons]
  simp [started, hq, runs]

/-- Whether a job is started: nothing inhibits it and, in auto-retry mode, it was considered fewer than three times. -/
theorem C90_started (sem : Sem J I E R) (b : Bool) (out : Session J I E R → J → Result R) (pre : List J)
    {s s' : Session J I E R} (hr : runJobs sem b out s pre = (s', none)) (j : J) {k : Known R}
    (h : known s (sem.id j) = some k) (h3 : k.left = 3) :
    started sem s' j = true ↔ Ready sem s' j ∧ (b = true → times sem (sem.id j) pre < 3) := by
  obtain ⟨k', h1, h2⟩ := C90_tries sem b out pre hr h
  rw [started_known h1, h2, h3]
  cases b <;> simp
  omega

/-- Every result of a job is kept: those known before stay first, each new one is added in its turn (unless it equals
the one before it), and the last one is the result. -/
theorem C90_results (sem : Sem J I E R) (b : Bool) (out : Session J I E R → J → Result R) (js : List J)
    {s s' : Session J I E R} (hr : runJobs sem b out s js = (s', none)) {i : I} {k : Known R} (h : known s i = some k)
    (hk : k.result.isHollow = true ∨ k.result ∈ k.history) :
    ∃ k' new, known s' i = some k' ∧ k'.history = k.history ++ new ∧ new.Sublist (results sem i (trace sem b out s js)) ∧
      (∀ r ∈ results sem i (trace sem b out s js), r.isHollow = false → r ∈ k'.history) ∧
      k'.result = (results sem i (trace sem b out s js)).getLastD k.result ∧
      (results sem i (trace sem b out s js)).length = times sem i js := by
  induction js generalizing s k with
  | nil =>
    simp only [runJobs, Prod.mk.injEq, and_true] at hr
    subst hr
    exact ⟨k, [], h, by simp, by simp, by simp [results, trace], rfl, rfl⟩
  | cons j js ih =>
    simp only [runJobs] at hr
    split at hr
    · simp at hr
    · next s1 heq =>
      obtain ⟨r, hout, hkn⟩ := known_consider heq
      rw [trace_cons _ _ _ _ heq, times_cons]
      by_cases hi : sem.id j = i
      · have hres : results sem i ((j, started sem s j, outcomeOf sem out s j) :: trace sem b out s1 js) =
            r :: results sem i (trace sem b out s1 js) := by
          simp [results, hi, hout]
        have h1 := hkn h
        rw [if_pos hi] at h1
        have hinv : ({ note r k with left := if b then k.left - 1 else k.left } : Known R).result = r ∧
            (r.isHollow = true ∨
              r ∈ ({ note r k with left := if b then k.left - 1 else k.left } : Known R).history) ∧
            ∃ l, ({ note r k with left := if b then k.left - 1 else k.left } : Known R).history = k.history ++ l ∧
              l.Sublist [r] := by
          unfold note
          split
          · next he => subst he; exact ⟨rfl, hk, [], by simp, by simp⟩
          · by_cases hh : r.isHollow = true
            · exact ⟨rfl, .inl hh, [], by simp [hh], by simp⟩
            · exact ⟨rfl, .inr (by simp [hh]), [r], by simp [hh], by simp⟩
        obtain ⟨e1, e2, l, e3, e4⟩ := hinv
        obtain ⟨k', new, g1, g2, g3, g4, g5, g6⟩ := ih hr h1 (by rw [e1]; exact e2)
        refine ⟨k', l ++ new, g1, by rw [g2, e3, List.append_assoc], ?_, ?_, ?_, ?_⟩
        · rw [hres]
          exact e4.append g3
        · intro x hx hh
          rw [hres] at hx
          rcases List.mem_cons.1 hx with rfl | hx
          · rw [g2]
            rcases e2 with e2 | e2
            · rw [hh] at e2; cases e2
            · exact List.mem_append_left _ e2
          · exact g4 x hx hh
        · rw [hres, g5, e1, List.getLastD_cons]
        · rw [hres, List.length_cons, g6, if_pos hi]
          omega
      · have hres : results sem i ((j, started sem s j, outcomeOf sem out s j) :: trace sem b out s1 js) =
            results sem i (trace sem b out s1 js) := by
          simp [results, hi]
        have h1 := hkn h
        rw [if_neg hi] at h1
        obtain ⟨k', new, g⟩ := ih hr h1 hk
        refine ⟨k', new, ?_⟩
        rw [hres, if_neg hi, Nat.zero_add]
        exact g

theorem todo_step {sem : Sem J I E R} {b : Bool} {out : Session J I E R → J → Result R}
    (hout : ∀ s j, (out s j).outcome ≠ .none) {s s' : Session J I E R} (hi : LoopInv sem s) {j : J} {rest : List J}
    (ht : todo sem s = j :: rest) (hu : considerJob sem b out s j = (s', none)) :
    LoopInv sem s' ∧ todo sem s' = rest := by
  have hj : j ∈ s.runList := (List.mem_filter.1 (ht ▸ List.mem_cons_self : j ∈ todo sem s)).1
  obtain ⟨a1, a2, a3, k, o, hk, ho⟩ := consider_spec hout hi hj hu
  refine ⟨a1, ?_⟩
  have hnd : ((todo sem s).map sem.id).Nodup := hi.live.runNodup.sublist (List.filter_sublist.map _)
  have hrest : rest = (todo sem s).filter fun x => decide (sem.id x ≠ sem.id j) := by
    rw [ht] at hnd ⊢
    simp only [List.map_cons, List.nodup_cons] at hnd
    rw [List.filter_cons_of_neg (by simp), List.filter_eq_self.2]
    intro x hx
    have : sem.id x ≠ sem.id j := by
      intro he
      exact hnd.1 (he ▸ List.mem_map.2 ⟨x, hx, rfl⟩)
    simpa using this
  rw [hrest]
  unfold todo
  rw [a2, List.filter_filter]
  apply List.filter_congr
  intro x hx
  by_cases he : sem.id x = sem.id j
  · simp only [he, hk, ne_eq, not_true_eq_false, decide_false, Bool.false_and]
    cases o
    · exact absurd rfl ho
    all_goals rfl
  · obtain ⟨q, hq, _⟩ := hi.live.book.lookup_some (hi.live.runSub x hx)
    have hl : look s.states (sem.id x) = some (q.job, q.result.outcome) := look_some.mpr ⟨q, hq, rfl, rfl⟩
    rw [a3 _ _ hl he, hl]
    simp [he]

/-- Asking for the jobs to do again and again gives each of them once, in the order of the first answer, and ends. -/
theorem C90_todo {sem : Sem J I E R} (hwf : sem.WF) {s : Session J I E R} (hs : Reachable sem s) (b : Bool)
    {out : Session J I E R → J → Result R} (hout : ∀ s j, (out s j).outcome ≠ .none) (n : Nat)
    (hn : (todo sem s).length ≤ n) :
    drain sem b out n s = runJobs sem b out s (todo sem s) ∧
      ∀ s', drain sem b out n s = (s', none) → todo sem s' = [] := by
  have main : ∀ (n : Nat) (s : Session J I E R), LoopInv sem s → (todo sem s).length ≤ n →
      drain sem b out n s = runJobs sem b out s (todo sem s) ∧
        ∀ s', drain sem b out n s = (s', none) → todo sem s' = [] := by
    intro n
    induction n with
    | zero =>
      intro s _ hn
      have : todo sem s = [] := List.length_eq_zero_iff.1 (by omega)
      rw [this]
      refine ⟨rfl, fun s' h => ?_⟩
      simp only [drain, Prod.mk.injEq, and_true] at h
      exact h ▸ this
    | succ n ih =>
      intro s hi hn
      unfold drain
      cases ht : todo sem s with
      | nil =>
        refine ⟨rfl, fun s' h => ?_⟩
        simp only [Prod.mk.injEq, and_true] at h
        exact h ▸ ht
      | cons j rest =>
        dsimp only
        rw [runJobs]
        cases hc : considerJob sem b out s j with
        | mk s1 e =>
          cases e with
          | some x => exact ⟨rfl, nofun⟩
          | none =>
            obtain ⟨h1, h2⟩ := todo_step hout hi ht hc
            dsimp only
            rw [← h2]
            refine ih s1 h1 ?_
            rw [ht, List.length_cons] at hn
            rw [h2]
            omega
  exact main n s ⟨hs.live hwf, hs.resInv hwf⟩ hn

/-! ## Disagreements -/

/-- Commands that always pass. -/
def passes (_ : Session XJob Nat (Nat × Nat) Nat) (_ : XJob) : Result Nat := ⟨.pass, [5], 0⟩

/-- A job 5 that depends on job 3. -/
def y5 : XJob := { id := 5, direct := [3] }

/-- A session in which both are chosen. -/
def pair : Session XJob Nat (Nat × Nat) Nat :=
  (runOps exSem emptySession [.add x3, .add y5, .desired [y5] false]).1

theorem pair_reachable : Reachable exSem pair := by
  apply runOps_reachable [.add x3, .add y5, .desired [y5] false] (s := emptySession)
  · exact .start (units := []) (by decide)
  · decide
  · decide

/-- A job that passed, and that nothing inhibits, can lose that result: when it is considered a fourth time it is not
started, and "not supported" replaces the result. -/
theorem C90_result_violated : ¬ ∀ (s s' : Session XJob Nat (Nat × Nat) Nat) (js : List XJob) (k : Known Nat),
    Reachable exSem s → runJobs exSem true passes s js = (s', none) → (∃ j ∈ js, exSem.id j = 3) → Ready exSem s' x3 →
    known s' 3 = some k → k.result.outcome = .pass := by
  intro h
  have := h pair (runJobs exSem true passes pair [x3, x3, x3, x3]).1 [x3, x3, x3, x3]
    ⟨⟨.notSupported, [], 1⟩, [⟨.pass, [5], 0⟩, ⟨.notSupported, [], 1⟩], -1⟩ pair_reachable
    (Prod.ext rfl (by decide +kernel)) ⟨x3, by simp, rfl⟩ ?_ (by decide +kernel)
  · simp at this
  · cases hq : (runJobs exSem true passes pair [x3, x3, x3, x3]).1.states.lookup (exSem.id x3) with
    | none => exact absurd hq (by decide +kernel)
    | some q =>
      refine ⟨q, hq, ?_⟩
      have : ((runJobs exSem true passes pair [x3, x3, x3, x3]).1.states.lookup (exSem.id x3)).map (·.inhib) = some [] := by
        decide +kernel
      rw [hq] at this
      simpa using this

/-- A job that could not start uses its tries too: job 5 is considered three times before job 3 has passed, and then
never started. -/
theorem C90_blocked_violated : ¬ ∀ (s s' : Session XJob Nat (Nat × Nat) Nat) (js : List XJob) (j : XJob),
    Reachable exSem s → runJobs exSem true passes s js = (s', none) → Ready exSem s' j →
    runs exSem (exSem.id j) (trace exSem true passes s js) = 0 → started exSem s' j = true := by
  intro h
  have := h pair (runJobs exSem true passes pair [y5, y5, y5, x3]).1 [y5, y5, y5, x3] y5 pair_reachable
    (Prod.ext rfl (by decide +kernel)) ?_ (by decide +kernel)
  · exact absurd this (by decide +kernel)
  · cases hq : (runJobs exSem true passes pair [y5, y5, y5, x3]).1.states.lookup (exSem.id y5) with
    | none => exact absurd hq (by decide +kernel)
    | some q =>
      refine ⟨q, hq, ?_⟩
      have : ((runJobs exSem true passes pair [y5, y5, y5, x3]).1.states.lookup (exSem.id y5)).map (·.inhib) = some [] := by
        decide +kernel
      rw [hq] at this
      simpa using this

/-- The tries left are not saved with the session, so a resumed session starts again with three. -/
theorem C90_saved_violated : ¬ ∀ (f : Suspend.Fmt XJob Nat Nat (Result Nat)) (s s' : Session XJob Nat (Nat × Nat) Nat),
    Reachable exSem s → Reachable exSem s' → Suspend.suspend f exSem s = Suspend.suspend f exSem s' →
    ∀ i, (known s i).map Known.left = (known s' i).map Known.left := by
  intro h
  have := h ⟨XJob.id, id, some⟩ pair (useAttempt pair 3) pair_reachable
    (.step pair_reachable (op := .attempt 3) trivial rfl) (by decide +kernel) 3
  exact absurd this (by decide +kernel)

/-! ## The hypotheses are met -/

/-- Job 3 is considered three times, job 5 once before and once after it. -/
example : (runJobs exSem true passes pair [y5, x3, x3, y5, x3]).2 = none ∧
    (trace exSem true passes pair [y5, x3, x3, y5, x3]).map (fun x => (x.1.id, x.2.1)) =
      [(5, false), (3, true), (3, true), (5, true), (3, true)] ∧
    runs exSem 3 (trace exSem true passes pair [y5, x3, x3, y5, x3]) = 3 := by decide +kernel
example : (known pair 5).map Known.left = some 3 ∧ (known pair 5).map (fun k => k.result.isHollow) = some true := by
  decide +kernel
example : (runJobs exSem true passes pair [y5, x3, x3, y5, x3]).1.states.map
    (fun p => (p.1, p.2.history.map Result.outcome, p.2.attempts)) =
      [(3, [.pass], 0), (5, [.notSupported, .pass], 1)] := by decide +kernel
/-- Without auto-retry a job can be started any number of times. -/
example : runs exSem 3 (trace exSem false passes pair [x3, x3, x3, x3, x3]) = 5 := by decide +kernel
example : todo exSem pair = [x3, y5] ∧ (drain exSem true passes 2 pair).2 = none ∧
    todo exSem (drain exSem true passes 2 pair).1 = [] ∧ todo exSem (drain exSem true passes 1 pair).1 = [y5] := by
  decide +kernel
example : drain exSem true passes 7 pair = runJobs exSem true passes pair [x3, y5] :=
  (C90_todo exSem_wf pair_reachable true (out := passes) (by simp [passes]) 7 (by decide +kernel)).1
example : known pair (exSem.id x1) = none ∧ (runJobs exSem true passes pair [x3, x1, x3]).2 = some (.keyError 1) ∧
    runs exSem 3 (trace exSem true passes pair [x3, x1, x3]) = 1 := by decide +kernel

end Verif.Retry
