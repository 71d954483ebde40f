import Verif.Lemmas.Life

/-!
# C78: sessions survive interruptions

For every repository and every history of calls, checkpoints that fail and processes that die: which sessions
are offered for resuming and which are old, that sessions that are not finished stay resumable and finished
ones do not come back, and what is found when a session is resumed.
-/

set_option linter.unusedSectionVars false

namespace Verif.Life

open Verif.Assistant (put started resumed bootable normal ended)

variable {I A K O : Type} [DecidableEq I] [DecidableEq A] [DecidableEq K] [DecidableEq O]

/-- Any storages, and then anything that can happen. -/
inductive Reached (jobs : Jobs K O) : World I A K O → Prop
  | start {stores} : (stores.map (·.1)).Nodup → Reached jobs ⟨stores, none⟩
  | step {w} (a : Act I A K O) : Reached jobs w → Reached jobs (step jobs a w).1

theorem Reached.good {jobs : Jobs K O} {w : World I A K O} (h : Reached jobs w) : Good w := by
  induction h with
  | start h => exact ⟨h, fun p hp => by simp at hp, fun p hp => by simp at hp⟩
  | step a _ ih => exact ih.step a

theorem Reached.run {jobs : Jobs K O} : ∀ (l : List (Act I A K O)) {w : World I A K O}, Reached jobs w →
    Reached jobs (run jobs l w) := by
  intro l
  induction l with
  | nil => intro w h; exact h
  | cons a l ih => intro w h; exact ih (h.step a)

/-- Jobs for the examples: 1 and 2 may restart the machine, 2 is not expected to return. -/
def exJobs : Jobs Nat Bool := ⟨fun k => decide (k = 1 ∨ k = 2), fun k => decide (k = 2), true, false⟩

/-- A repository for the examples: sessions of application 0 that are unfinished (10, 15), finished and
submitted (11), still in preparation (14), a session of application 1 (12), and one that is not readable (13). -/
def exStores : List (Nat × Content Nat Nat Bool) :=
  [(10, .saved ⟨0, .ready, some 1, [(5, true)]⟩), (11, .saved ⟨0, ⟨false, false, true, false⟩, some 6, [(6, true)]⟩),
    (12, .saved ⟨1, .ready, none, []⟩), (13, .bad), (14, .saved ⟨0, .fresh, none, []⟩),
    (15, .saved ⟨0, .picked, none, [(6, false)]⟩)]

/-- Session 7 of application 0 was started and bootstrapped. -/
def exBegun : World Nat Nat Nat Bool :=
  run exJobs [.spawn 0, .startNew 7, .started true, .selectPlan true true, .bootstrap, .booted true] ⟨exStores, none⟩

theorem exBegun_reached : Reached exJobs exBegun := Reached.run _ (.start (by decide))

/-- The process and the session of `exBegun`. -/
def exProc : Proc Nat Nat Nat Bool := ⟨0, .free, normal, some (7, ⟨0, .ready, none, []⟩), [], []⟩

theorem exBegun_proc : exBegun.proc = some exProc := rfl


/-- The last result of a job. -/
def resultOf (s : Sess A K O) (k : K) : Option O :=
  ((s.results.filter fun r => decide (r.1 = k)).getLast?).map (·.2)

theorem resultOf_append (s : Sess A K O) (k k' : K) (o : O) (f : Flags) (r : Option K) (a : A) :
    resultOf (⟨a, f, r, s.results ++ [(k', o)]⟩ : Sess A K O) k = if k' = k then some o else resultOf s k := by
  unfold resultOf
  rw [List.filter_append]
  by_cases h : k' = k
  · simp [h]
  · simp [h]

/-! ## Listing -/

/-- `for candidate in get_resumable_sessions()`, without looking at the candidates. -/
def drain (jobs : Jobs K O) (g : Nat) : Nat → World I A K O → World I A K O × List I
  | 0, w => (w, [])
  | n + 1, w =>
    match step jobs (.next g) w with
    | (w', .found i) => ((drain jobs g n w').1, i :: (drain jobs g n w').2)
    | (w', _) => (w', [])

theorem scan_spec (stores : List (I × Content A K O)) (a : A) : ∀ l : List I, (∀ i ∈ l, (look stores i).isSome = true) →
    ∃ o l', scan stores a l = some (o, l') ∧ (∀ i ∈ l', (look stores i).isSome = true) ∧
      l.filter (fun i => (look stores i).any (resumable a)) =
        (match o with | none => [] | some i => i :: l'.filter fun i => (look stores i).any (resumable a)) ∧
      (o.isSome = true → l'.length < l.length) := by
  intro l
  induction l with
  | nil => intro _; exact ⟨none, [], rfl, by simp, rfl, by simp⟩
  | cons i l ih =>
    intro h
    obtain ⟨c, hc⟩ := Option.isSome_iff_exists.mp (h i (by simp))
    by_cases hr : resumable a c = true
    · refine ⟨some i, l, ?_, fun j hj => h j (by simp [hj]), ?_, by simp⟩
      · unfold scan; rw [hc]; dsimp only; rw [if_pos hr]
      · rw [List.filter_cons, if_pos (by rw [hc]; exact hr)]
    · obtain ⟨o, l', h1, h2, h3, h4⟩ := ih (fun j hj => h j (by simp [hj]))
      refine ⟨o, l', ?_, h2, ?_, fun ho => Nat.lt_succ_of_lt (h4 ho)⟩
      · unfold scan; rw [hc]; dsimp only; rw [if_neg hr]; exact h1
      · rw [List.filter_cons, if_neg (by rw [hc]; exact hr)]; exact h3

theorem next_some (jobs : Jobs K O) (w : World I A K O) (p : Proc I A K O) (g : Nat) (l : List I)
    (hp : w.proc = some p) (hf : p.pc = .free) (hg : p.gens[g]? = some (some l)) :
    step jobs (.next g) w = advance w p g l := by
  unfold step
  dsimp only
  rw [hp]
  dsimp only
  rw [if_neg (fun h => h hf), hg]

theorem next_none (jobs : Jobs K O) (w : World I A K O) (p : Proc I A K O) (g : Nat)
    (hp : w.proc = some p) (hf : p.pc = .free) (hg : p.gens[g]? = some none) (ha : p.allowed .getResumable = true) :
    step jobs (.next g) w = advance w { p with cand := [] } g (w.stores.map (·.1)) := by
  unfold step
  dsimp only
  rw [hp]
  dsimp only
  rw [if_neg (fun h => h hf), hg]
  dsimp only
  rw [if_pos ha]

/-- What the rest of the loop finds. -/
theorem drain_spec (jobs : Jobs K O) (g : Nat) : ∀ (n : Nat) (w : World I A K O) (p : Proc I A K O) (l : List I),
    w.proc = some p → p.pc = .free → g < p.gens.length →
    (∀ i ∈ l, (look w.stores i).isSome = true) → l.length < n →
    (step jobs (.next g) w = advance w p g l) →
    (drain jobs g n w).2 = l.filter (fun i => (look w.stores i).any (resumable p.app)) ∧
    (drain jobs g n w).1.stores = w.stores ∧
    ∃ p', (drain jobs g n w).1.proc = some p' ∧ p'.pc = .free ∧ p'.app = p.app ∧ p'.cur = p.cur ∧
      p'.cand = p.cand ++ (drain jobs g n w).2 ∧
      (p.allowed .resume = true ∨ (drain jobs g n w).2 ≠ [] → p'.allowed .resume = true) := by
  intro n
  induction n with
  | zero => intro w p l _ _ _ _ h; omega
  | succ n ih =>
    intro w p l hp hf hg hl hn hs
    obtain ⟨o, l', h1, h2, h3, h4⟩ := scan_spec w.stores p.app l hl
    unfold drain
    rw [hs]
    unfold advance
    rw [h1]
    cases o with
    | none =>
      dsimp only at h3 ⊢
      exact ⟨h3.symm, rfl, _, rfl, hf, rfl, rfl, by simp, fun h => by simpa using h⟩
    | some i =>
      have hlen := h4 rfl
      dsimp only at h3 ⊢
      obtain ⟨r1, r2, p', r3, r4, r5, r6, r7, r8⟩ := ih
        ⟨w.stores, some { p with
          gens := p.gens.set g (some l')
          cand := p.cand ++ [i]
          allowed := put .resume true p.allowed }⟩ _ l' rfl hf (by simpa using hg) h2 (by omega)
        (next_some jobs _ _ g l' rfl hf (by simp [hg]))
      refine ⟨by rw [r1, h3], r2, p', r3, r4, r5, r6, ?_, ?_⟩
      · rw [r7]; simp
      · intro _
        exact r8 (.inl (by simp [put]))

/-- **C78**: listing the sessions to resume, when that is allowed, gives exactly the readable sessions of this
application that are marked incomplete, in the order of the storages; then each of them can be resumed. -/
theorem C78_listing {jobs : Jobs K O} {w : World I A K O} {p : Proc I A K O}
    (hp : w.proc = some p) (hf : p.pc = .free) (ha : p.allowed .getResumable = true) (n : Nat)
    (hn : w.stores.length < n) :
    (∀ i, i ∈ (drain jobs p.gens.length n (step jobs .listing w).1).2 ↔
      ∃ s, look w.stores i = some (.saved s) ∧ s.app = p.app ∧ s.flags.incomplete = true) ∧
    (drain jobs p.gens.length n (step jobs .listing w).1).2.Sublist (w.stores.map (·.1)) ∧
    (drain jobs p.gens.length n (step jobs .listing w).1).1.stores = w.stores ∧
    ∃ p', (drain jobs p.gens.length n (step jobs .listing w).1).1.proc = some p' ∧ p'.pc = .free ∧
      p'.cand = (drain jobs p.gens.length n (step jobs .listing w).1).2 ∧
      (p'.cand ≠ [] → p'.allowed .resume = true) ∧ p'.app = p.app ∧ p'.cur = p.cur := by
  have hl : (step jobs .listing w).1 = ⟨w.stores, some { p with gens := p.gens ++ [none] }⟩ := by
    unfold step
    dsimp only
    rw [hp]
    dsimp only
    rw [if_neg (fun h => h hf)]
  rw [hl]
  have hlook : ∀ i ∈ w.stores.map (·.1), (look w.stores i).isSome = true := by
    intro i hi
    cases hx : look w.stores i with
    | some c => rfl
    | none => exact absurd hi (look_none.mp hx)
  have hd : ∀ n, drain jobs p.gens.length (n + 1) ⟨w.stores, some { p with gens := p.gens ++ [none] }⟩ =
      drain jobs p.gens.length (n + 1) ⟨w.stores, some { p with
        gens := p.gens ++ [some (w.stores.map (·.1))]
        cand := [] }⟩ := by
    intro n
    unfold drain
    rw [next_none jobs _ { p with gens := p.gens ++ [none] } p.gens.length rfl hf (by simp) ha,
      next_some jobs _ { p with
        gens := p.gens ++ [some (w.stores.map (·.1))]
        cand := [] } p.gens.length (w.stores.map (·.1)) rfl hf (by simp)]
    have : advance (⟨w.stores, some { p with gens := p.gens ++ [none] }⟩ : World I A K O)
        { p with
          gens := p.gens ++ [none]
          cand := [] } p.gens.length (w.stores.map (·.1)) =
        advance ⟨w.stores, some { p with
          gens := p.gens ++ [some (w.stores.map (·.1))]
          cand := [] }⟩
          { p with
            gens := p.gens ++ [some (w.stores.map (·.1))]
            cand := [] } p.gens.length (w.stores.map (·.1)) := by
      unfold advance
      dsimp only
      have hset : ∀ x, (p.gens ++ [none]).set p.gens.length x =
          (p.gens ++ [some (w.stores.map (·.1))]).set p.gens.length x := by
        intro x
        rw [List.set_append_right _ _ (Nat.le_refl _), List.set_append_right _ _ (Nat.le_refl _)]
        simp
      simp only [hset]
    rw [this]
  obtain ⟨m, rfl⟩ : ∃ m, n = m + 1 := ⟨n - 1, by omega⟩
  rw [hd]
  obtain ⟨r1, r2, p', r3, r4, r5, r6, r7, r8⟩ := drain_spec jobs p.gens.length (m + 1)
    ⟨w.stores, some { p with
      gens := p.gens ++ [some (w.stores.map (·.1))]
      cand := [] }⟩ _ (w.stores.map (·.1)) rfl hf (by simp) hlook (by simpa using hn)
    (next_some jobs _ _ _ _ rfl hf (by simp))
  generalize drain jobs p.gens.length (m + 1) (⟨w.stores, some { p with
      gens := p.gens ++ [some (w.stores.map (·.1))]
      cand := [] }⟩ : World I A K O) = d at r1 r2 r3 r7 r8 ⊢
  refine ⟨?_, by rw [r1]; exact List.filter_sublist, r2, p', r3, r4, by simpa using r7, ?_, r5, r6⟩
  · intro i
    rw [r1, List.mem_filter]
    constructor
    · rintro ⟨_, h2⟩
      dsimp only at h2
      cases hx : look w.stores i with
      | none => rw [hx] at h2; simp at h2
      | some c =>
        rw [hx] at h2
        cases c with
        | empty => simp [resumable] at h2
        | bad => simp [resumable] at h2
        | saved s =>
          have h3 : (decide (s.app = p.app) && s.flags.incomplete) = true := h2
          rw [Bool.and_eq_true, decide_eq_true_eq] at h3
          exact ⟨s, rfl, h3.1, h3.2⟩
    · rintro ⟨s, h1, h2, h3⟩
      refine ⟨List.mem_map.mpr ⟨_, mem_of_look h1, rfl⟩, ?_⟩
      rw [h1]
      show (decide (s.app = p.app) && s.flags.incomplete) = true
      rw [Bool.and_eq_true, decide_eq_true_eq]
      exact ⟨h2, h3⟩
  · intro hne
    refine r8 (.inr ?_)
    rw [r7] at hne
    simpa using hne

example : let w : World Nat Nat Nat Bool := ⟨exStores, some ⟨0, .free, ready, none, [], []⟩⟩
    (drain exJobs 0 7 (step exJobs .listing w).1).2 = [10, 15] := by decide

example := C78_listing (jobs := exJobs) (w := ⟨exStores, some ⟨0, .free, ready, none, [], []⟩⟩)
  (p := ⟨0, .free, ready, none, [], []⟩) rfl rfl rfl 7 (by decide)


/-! ## Coming back -/

/-- The process dies, the application is started again, lists the sessions and resumes one. -/
def reopen (jobs : Jobs K O) (a : A) (i : I) (n : Nat) (w : World I A K O) : World I A K O × Res I :=
  step jobs (.resume i true true true)
    (drain jobs 0 n (step jobs .listing (step jobs (.spawn a) (step jobs .crash w).1).1).1).1

/-- **C78** (partial: the result of a job that may restart the machine is replaced even if the job had come to
its end, see `C78_result_violated`).  A session that is not finished can be resumed by its application at any
time after the process died.  All its results are as they were saved, except that the job that was started
last, if it may restart the machine, now has passed or failed. -/
theorem C78_reopen_partial {jobs : Jobs K O} {w : World I A K O} {i : I} {s : Sess A K O}
    (hs : look w.stores i = some (.saved s)) (hi : s.flags.incomplete = true) (n : Nat) (hn : w.stores.length < n) :
    ∃ p s', (reopen jobs s.app i n w).2 = .ok ∧ (reopen jobs s.app i n w).1.proc = some p ∧ p.cur = some (i, s') ∧
      look (reopen jobs s.app i n w).1.stores i = some (.saved s') ∧
      (∀ j, j ≠ i → look (reopen jobs s.app i n w).1.stores j = look w.stores j) ∧
      s'.flags = s.flags ∧ s'.app = s.app ∧
      (∀ k, resultOf s' k =
        if s.running = some k ∧ jobs.autorestart k = true then
          some (if jobs.noreturn k = true then jobs.pass else jobs.fail)
        else resultOf s k) := by
  have h1 : (step jobs (.spawn s.app) (step jobs .crash w).1).1 = ⟨w.stores, some ⟨s.app, .free, ready, none, [], []⟩⟩ := rfl
  obtain ⟨l1, -, l3, p', l4, l5, l6, l7, -, -⟩ := C78_listing (jobs := jobs) (w := ⟨w.stores, some ⟨s.app, .free, ready, none, [], []⟩⟩) rfl rfl rfl n hn
  have hcand : i ∈ p'.cand := by
    rw [l6]
    exact (l1 i).mpr ⟨s, hs, rfl, hi⟩
  unfold reopen
  rw [h1]
  clear l1 l6
  dsimp only [List.length_nil] at l3 l4
  generalize (drain jobs 0 n (step jobs .listing
    (⟨w.stores, some ⟨s.app, .free, ready, none, [], []⟩⟩ : World I A K O)).1).1 = d at l3 l4 ⊢
  have key : step jobs (.resume i true true true) d =
      if revive jobs s = s then
        (⟨d.stores, some { p' with
          cur := some (i, s)
          allowed := if s.flags.testplanless = true then normal else resumed }⟩, .ok)
      else saving d p' i (revive jobs s) true { p' with
        allowed := if s.flags.testplanless = true then normal else resumed } := by
    unfold step enforce
    dsimp only
    rw [l4]
    dsimp only
    rw [if_neg (fun hx => hx l5), if_pos (l7 (fun hx => by rw [hx] at hcand; simp at hcand)),
      if_neg (fun hx => hx hcand), l3, hs]
    simp
  rw [key]
  have hflags : (revive jobs s).flags = s.flags ∧ (revive jobs s).app = s.app := by
    unfold revive
    cases s.running with
    | none => exact ⟨rfl, rfl⟩
    | some k => dsimp only; split <;> exact ⟨rfl, rfl⟩
  have hres : ∀ k, resultOf (revive jobs s) k =
      if s.running = some k ∧ jobs.autorestart k = true then
        some (if jobs.noreturn k = true then jobs.pass else jobs.fail)
      else resultOf s k := by
    intro k
    unfold revive
    cases hrun : s.running with
    | none => simp
    | some k' =>
      dsimp only
      by_cases hk : k' = k
      · subst hk
        by_cases ha : jobs.autorestart k' = true
        · rw [if_pos ha, if_pos (show some k' = some k' ∧ jobs.autorestart k' = true from ⟨rfl, ha⟩), resultOf_append,
            if_pos rfl]
        · rw [if_neg ha, if_neg (fun hx : some k' = some k' ∧ jobs.autorestart k' = true => ha hx.2)]
      · rw [if_neg (fun hx : some k' = some k ∧ jobs.autorestart k = true => hk (Option.some.inj hx.1))]
        split
        · rw [resultOf_append, if_neg hk]
        · rfl
  by_cases hrev : revive jobs s = s
  · rw [if_pos hrev]
    refine ⟨_, s, rfl, rfl, rfl, by rw [l3]; exact hs, fun j _ => by rw [l3], rfl, rfl, ?_⟩
    rw [← hrev, hrev]
    intro k
    have := hres k
    rw [hrev] at this
    exact this
  · rw [if_neg hrev]
    unfold saving save
    rw [l3, if_pos ⟨rfl, by rw [hs]; rfl⟩]
    refine ⟨_, revive jobs s, rfl, rfl, rfl, ?_, ?_, hflags.1, hflags.2, hres⟩
    · rw [look_write, if_pos rfl, hs]; rfl
    · intro j hj
      rw [look_write, if_neg hj]

example := C78_reopen_partial (jobs := exJobs) (w := exBegun) (i := 10) (s := ⟨0, .ready, some 1, [(5, true)]⟩)
  (by decide) rfl 9 (by decide)

example : look (reopen exJobs 0 10 9 exBegun).1.stores 10 =
    some (.saved ⟨0, .ready, none, [(5, true), (1, false)]⟩) := by decide


/-- **C78**: a job that is interrupted by a restart of the machine that it may cause has passed if it was
expected not to return, and else has failed, when the session is resumed; the other results are kept. -/
theorem C78_interrupted {jobs : Jobs K O} {w : World I A K O} {p : Proc I A K O}
    (hp : w.proc = some p) {i : I} {s : Sess A K O} (hc : p.cur = some (i, s)) (hi : s.flags.incomplete = true)
    (k : K) (hk : jobs.autorestart k = true) (hr : (step jobs (.runJob k true true) w).2 = .ok) (n : Nat)
    (hn : w.stores.length < n) :
    ∃ p' s', (reopen jobs s.app i n (step jobs (.runJob k true true) w).1).1.proc = some p' ∧ p'.cur = some (i, s') ∧
      look (reopen jobs s.app i n (step jobs (.runJob k true true) w).1).1.stores i = some (.saved s') ∧
      resultOf s' k = some (if jobs.noreturn k = true then jobs.pass else jobs.fail) ∧
      ∀ k', k' ≠ k → resultOf s' k' = resultOf s k' := by
  have hw : (step jobs (.runJob k true true) w).1.stores = write w.stores i { s with running := some k } ∧
      (look w.stores i).isSome = true := by
    revert hr
    unfold step enforce
    dsimp only
    rw [hp]
    dsimp only
    by_cases h1 : p.pc ≠ .free
    · rw [if_pos h1]; simp
    · rw [if_neg h1]
      by_cases h2 : p.allowed .runJob = true
      · rw [if_pos h2]
        unfold withSess
        rw [hc]
        dsimp only
        unfold saving save
        rw [if_pos rfl]
        by_cases h3 : true = true ∧ (look w.stores i).isSome = true
        · rw [if_pos h3]
          exact fun _ => ⟨rfl, h3.2⟩
        · rw [if_neg h3]; simp
      · rw [if_neg h2]; simp
  have hl : look (step jobs (.runJob k true true) w).1.stores i = some (.saved { s with running := some k }) := by
    rw [hw.1, look_write, if_pos rfl]
    obtain ⟨c, hc'⟩ := Option.isSome_iff_exists.mp hw.2
    rw [hc']; rfl
  obtain ⟨p', s', -, r2, r3, r4, -, -, -, r6⟩ := C78_reopen_partial (jobs := jobs) hl hi n
    (by rw [hw.1]; unfold write; simpa using hn)
  refine ⟨p', s', r2, r3, r4, ?_, ?_⟩
  · rw [r6, if_pos ⟨rfl, hk⟩]
  · intro k' hk'
    rw [r6, if_neg (fun hx => hk' (Option.some.inj hx.1).symm)]
    rfl

example := C78_interrupted (jobs := exJobs) exBegun_proc (i := 7) (s := ⟨0, .ready, none, []⟩) rfl rfl 2 rfl
  (by decide) 9 (by decide)

example : look (reopen exJobs 0 7 9 (step exJobs (.runJob 2 true true) exBegun).1).1.stores 7 =
      some (.saved ⟨0, .ready, none, [(2, true)]⟩) ∧
    look (reopen exJobs 0 7 9 (step exJobs (.runJob 1 true true) exBegun).1).1.stores 7 =
      some (.saved ⟨0, .ready, none, [(1, false)]⟩) ∧
    look (reopen exJobs 0 7 9 (step exJobs (.runJob 5 true true) exBegun).1).1.stores 7 =
      some (.saved ⟨0, .ready, some 5, []⟩) := by decide


/-! ## Results -/

/-- **C78**: the results that a storage has are never lost or changed, whatever happens, until the session is
deleted: later results only follow. -/
theorem C78_results_kept {jobs : Jobs K O} {w : World I A K O} (h : Reached jobs w) (acts : List (Act I A K O))
    (i : I) (hdel : ∀ ids, Act.delete ids ∈ acts → i ∉ ids) (s : Sess A K O)
    (hs : look w.stores i = some (.saved s)) :
    ∃ s', look (run jobs acts w).stores i = some (.saved s') ∧ s'.app = s.app ∧ s.results <+: s'.results := by
  induction acts generalizing w s with
  | nil => exact ⟨s, hs, rfl, List.prefix_rfl⟩
  | cons a l ih =>
    have hstep : ∃ s', look (step jobs a w).1.stores i = some (.saved s') ∧ s'.app = s.app ∧ s.results <+: s'.results := by
      have hg := h.good
      have hsame : ∃ s', look w.stores i = some (.saved s') ∧ s'.app = s.app ∧ s.results <+: s'.results :=
        ⟨s, hs, rfl, List.prefix_rfl⟩
      have hmv := step_move jobs a w
      generalize (step jobs a w).1 = w' at hmv ⊢
      cases hmv with
      | same => exact hsame
      | gone => exact hsame
      | born x => exact hsame
      | create j ha hp hl =>
        refine ⟨s, ?_, rfl, List.prefix_rfl⟩
        rw [look_cons, if_neg (fun hji => by rw [hji, hs] at hl; simp at hl)]
        exact hs
      | proc => exact hsame
      | stop => exact hsame
      | yield => exact hsame
      | @edit p p' j t t' saved hp hc hc' _ _ _ he _ _ _ =>
        cases saved with
        | false => exact hsame
        | true =>
          show ∃ s', look (write w.stores j t') i = some (.saved s') ∧ s'.app = s.app ∧ s.results <+: s'.results
          rw [look_write]
          by_cases hij : i = j
          · subst hij
            rw [if_pos rfl, hs]
            obtain ⟨a1, a2⟩ := hg.cur p hp i t hc
            obtain ⟨b1, b2⟩ := a2 s hs
            exact ⟨t', rfl, by rw [he.1, a1, b1], b2.trans he.2⟩
          · rw [if_neg hij]; exact hsame
      | @resume p p' j t t' saved hp _ _ hl _ _ _ _ he _ =>
        cases saved with
        | false => exact hsame
        | true =>
          show ∃ s', look (write w.stores j t') i = some (.saved s') ∧ s'.app = s.app ∧ s.results <+: s'.results
          rw [look_write]
          by_cases hij : i = j
          · subst hij
            rw [if_pos rfl, hs]
            rw [hs] at hl
            obtain rfl := Content.saved.inj (Option.some.inj hl)
            exact ⟨_, rfl, he.1, he.2⟩
          · rw [if_neg hij]; exact hsame
      | delete ids ha =>
        refine ⟨s, ?_, rfl, List.prefix_rfl⟩
        rw [look_filter, if_neg (hdel ids (by simp [ha]))]
        exact hs
    obtain ⟨s1, h1, h2, h3⟩ := hstep
    obtain ⟨s', h4, h5, h6⟩ := ih (h.step a) (fun ids hi => hdel ids (by simp [hi])) s1 h1
    exact ⟨s', h4, h5.trans h2, h3.trans h6⟩

example := C78_results_kept exBegun_reached
  [.runJob 5 true true, .ran true true, .useResult 5 true true, .crash, .spawn 0, .listing, .next 0,
    .resume 10 true true true, .delete [11]] 10 (by
      intro ids h
      have : ids = [11] := by simpa using h
      subst this
      decide) ⟨0, .ready, some 1, [(5, true)]⟩ (by decide)


/-- **C78**: a result that `use_job_result` accepted is in the storage. -/
theorem C78_result_saved {jobs : Jobs K O} {w : World I A K O} {p : Proc I A K O} (hp : w.proc = some p) {i : I}
    {s : Sess A K O} (hc : p.cur = some (i, s)) (k : K) (o : O) (ck : Bool)
    (hr : (step jobs (.useResult k o ck) w).2 = .ok) :
    ∃ s', look (step jobs (.useResult k o ck) w).1.stores i = some (.saved s') ∧ resultOf s' k = some o ∧
      s.results <+: s'.results := by
  revert hr
  refine enforce_ind (P := fun x => x.2 = .ok → ∃ s', look x.1.stores i = some (.saved s') ∧ resultOf s' k = some o ∧
      s.results <+: s'.results) w _ _ (fun r h0 h1 => absurd h1 h0) ?_
  intro q hq _ _
  rw [hp] at hq
  obtain rfl := Option.some.inj hq
  unfold withSess
  rw [hc]
  dsimp only
  refine saving_ind (P := fun x => x.2 = .ok → ∃ s', look x.1.stores i = some (.saved s') ∧ resultOf s' k = some o ∧
      s.results <+: s'.results) w _ _ _ _ _ (fun h1 => by simp at h1) ?_
  intro hl _
  obtain ⟨c, hc'⟩ := Option.isSome_iff_exists.mp hl
  refine ⟨{ s with results := s.results ++ [(k, o)] }, ?_, ?_, List.prefix_append _ _⟩
  · show look (write w.stores i _) i = _
    rw [look_write, if_pos rfl, hc']
    rfl
  · rw [resultOf_append, if_pos rfl]

example := C78_result_saved (jobs := exJobs)
  (w := run exJobs [.runJob 5 true true, .ran true true] exBegun)
  (p := { exProc with
    cur := some (7, ⟨0, .ready, some 5, []⟩)
    allowed := put .useResult true (put .runJob false normal) }) rfl (i := 7) (s := ⟨0, .ready, some 5, []⟩) rfl 5 true
  true (by decide)


theorem saving_ok {w : World I A K O} {p p' : Proc I A K O} {i : I} {s : Sess A K O} {ck : Bool}
    (h : (saving w p i s ck p').2 = .ok) :
    saving w p i s ck p' = (⟨write w.stores i s, some { p' with cur := some (i, s) }⟩, .ok) ∧
      look (write w.stores i s) i = some (.saved s) := by
  unfold saving save at h ⊢
  by_cases h1 : ck = true ∧ (look w.stores i).isSome = true
  · rw [if_pos h1]
    refine ⟨rfl, ?_⟩
    obtain ⟨c, hc⟩ := Option.isSome_iff_exists.mp h1.2
    rw [look_write, if_pos rfl, hc]; rfl
  · rw [if_neg h1] at h; simp at h

theorem enforce_ok {w : World I A K O} {c : Assistant.Call} {f : Proc I A K O → World I A K O × Res I}
    {p : Proc I A K O} (hp : w.proc = some p) (h : (enforce w c f).2 = .ok) :
    enforce w c f = f p ∧ p.pc = .free ∧ p.allowed c = true := by
  unfold enforce at h ⊢
  rw [hp] at h ⊢
  dsimp only at h ⊢
  by_cases h1 : p.pc ≠ .free
  · rw [if_pos h1] at h; simp at h
  · rw [if_neg h1] at h ⊢
    by_cases h2 : p.allowed c = true
    · rw [if_pos h2]; exact ⟨rfl, Decidable.not_not.mp h1, h2⟩
    · rw [if_neg h2] at h; simp at h

theorem withSess_eq {w : World I A K O} {p : Proc I A K O} {f : I → Sess A K O → World I A K O × Res I} {i : I}
    {s : Sess A K O} (hc : p.cur = some (i, s)) : withSess w p f = f i s := by
  unfold withSess; rw [hc]

/-- The calls that run a job and record its result. -/
theorem ran_used {jobs : Jobs K O} {w : World I A K O} {p : Proc I A K O} (hp : w.proc = some p) {i : I}
    {s : Sess A K O} (hc : p.cur = some (i, s)) (k : K) (o : O)
    (h1 : (step jobs (.runJob k true true) w).2 = .ok)
    (h2 : (step jobs (.ran true true) (step jobs (.runJob k true true) w).1).2 = .ok)
    (h3 : (step jobs (.useResult k o true)
      (step jobs (.ran true true) (step jobs (.runJob k true true) w).1).1).2 = .ok) :
    look (step jobs (.useResult k o true)
        (step jobs (.ran true true) (step jobs (.runJob k true true) w).1).1).1.stores i =
      some (.saved { s with
        running := some k
        results := s.results ++ [(k, o)] }) ∧
    (step jobs (.useResult k o true)
        (step jobs (.ran true true) (step jobs (.runJob k true true) w).1).1).1.stores.length = w.stores.length := by
  have e1 : step jobs (.runJob k true true) w = saving w p i { s with running := some k } true
      { p with pc := .running false } := by
    refine (enforce_ok hp h1).1.trans ?_
    try dsimp only
    rw [withSess_eq hc, if_pos rfl]
  rw [e1] at h1
  obtain ⟨e2, l2⟩ := saving_ok h1
  rw [e1, e2] at h2 h3 ⊢
  have e3 : step jobs (.ran true true) (⟨write w.stores i { s with running := some k }, some { p with
        pc := .running false
        cur := some (i, { s with running := some k }) }⟩ : World I A K O) =
      saving (⟨write w.stores i { s with running := some k }, some { p with
        pc := .running false
        cur := some (i, { s with running := some k }) }⟩ : World I A K O) { p with
          pc := .free
          cur := some (i, { s with running := some k }) } i { s with running := some k } true { p with
          pc := .free
          cur := some (i, { s with running := some k })
          allowed := put .useResult true (put .runJob false p.allowed) } := rfl
  dsimp only at h2 h3 ⊢
  rw [e3] at h2
  obtain ⟨e4, l4⟩ := saving_ok h2
  rw [e3, e4] at h3 ⊢
  dsimp only at h3 ⊢
  obtain ⟨e5, _, _⟩ := enforce_ok rfl h3
  have e6 := e5
  dsimp only at e6
  rw [withSess_eq rfl] at e6
  have h4 := h3
  unfold step at h4 ⊢
  dsimp only at h4 ⊢
  rw [e6] at h4 ⊢
  obtain ⟨e7, l7⟩ := saving_ok h4
  rw [e7]
  refine ⟨l7, ?_⟩
  simp [write]

/-- **C78** is violated: a job that may restart the machine but came to its end and got any result `o` is
given another one, passed or failed, when the session is resumed later without another job having been
started. -/
theorem C78_result_violated {jobs : Jobs K O} {w : World I A K O} {p : Proc I A K O}
    (hp : w.proc = some p) {i : I} {s : Sess A K O} (hc : p.cur = some (i, s)) (hi : s.flags.incomplete = true)
    (k : K) (hk : jobs.autorestart k = true) (o : O)
    (h1 : (step jobs (.runJob k true true) w).2 = .ok)
    (h2 : (step jobs (.ran true true) (step jobs (.runJob k true true) w).1).2 = .ok)
    (h3 : (step jobs (.useResult k o true)
      (step jobs (.ran true true) (step jobs (.runJob k true true) w).1).1).2 = .ok)
    (n : Nat) (hn : w.stores.length < n) :
    ∃ p' s', (reopen jobs s.app i n (step jobs (.useResult k o true)
        (step jobs (.ran true true) (step jobs (.runJob k true true) w).1).1).1).1.proc = some p' ∧
      p'.cur = some (i, s') ∧
      resultOf s' k = some (if jobs.noreturn k = true then jobs.pass else jobs.fail) := by
  obtain ⟨hl, hlen⟩ := ran_used hp hc k o h1 h2 h3
  obtain ⟨p', s', -, r2, r3, -, -, -, -, r6⟩ := C78_reopen_partial (jobs := jobs)
    hl hi n (by rw [hlen]; exact hn)
  exact ⟨p', s', r2, r3, by rw [r6, if_pos ⟨rfl, hk⟩]⟩

example := C78_result_violated (jobs := exJobs) exBegun_proc (i := 7) (s := ⟨0, .ready, none, []⟩) rfl rfl 1 rfl true
  (by decide) (by decide) (by decide) 9 (by decide)

example : look (run exJobs [.runJob 1 true true, .ran true true, .useResult 1 true true] exBegun).stores 7 =
      some (.saved ⟨0, .ready, some 1, [(1, true)]⟩) ∧
    look (reopen exJobs 0 7 9
        (run exJobs [.runJob 1 true true, .ran true true, .useResult 1 true true] exBegun)).1.stores 7 =
      some (.saved ⟨0, .ready, none, [(1, true), (1, false)]⟩) := by decide


/-! ## Unfinished sessions stay -/

/-- In this history session `i` is not deleted, and not finalised while it is the current one. -/
def Spared (jobs : Jobs K O) (i : I) : List (Act I A K O) → World I A K O → Prop
  | [], _ => True
  | a :: l, w =>
    (∀ ids, a = .delete ids → i ∉ ids) ∧
    (∀ ck p s, a = .finalize ck → w.proc = some p → p.cur ≠ some (i, s)) ∧ Spared jobs i l (step jobs a w).1

/-- The session is not finished, in the storage and in the process. -/
def Unfinished (i : I) (w : World I A K O) : Prop :=
  (∃ s, look w.stores i = some (.saved s) ∧ s.flags.incomplete = true) ∧
  ∀ p t, w.proc = some p → p.cur = some (i, t) → t.flags.incomplete = true

theorem Unfinished.step {jobs : Jobs K O} {w : World I A K O} {i : I} (hu : Unfinished i w) (a : Act I A K O)
    (hd : ∀ ids, a = .delete ids → i ∉ ids)
    (hf : ∀ ck p s, a = .finalize ck → w.proc = some p → p.cur ≠ some (i, s)) :
    Unfinished i (Life.step jobs a w).1 := by
  obtain ⟨⟨s, hs, hi⟩, hm⟩ := hu
  have hmv := step_move jobs a w
  generalize (Life.step jobs a w).1 = w' at hmv ⊢
  cases hmv with
  | same => exact ⟨⟨s, hs, hi⟩, hm⟩
  | gone => exact ⟨⟨s, hs, hi⟩, fun p t hp => by simp at hp⟩
  | born x =>
    refine ⟨⟨s, hs, hi⟩, fun p t hp hc => ?_⟩
    obtain rfl := Option.some.inj hp
    simp at hc
  | create j ha hp hl =>
    have hji : j ≠ i := fun hji => by rw [hji, hs] at hl; simp at hl
    refine ⟨⟨s, by rw [look_cons, if_neg hji]; exact hs, hi⟩, fun p t hp hc => ?_⟩
    obtain rfl := Option.some.inj hp
    exact absurd (Prod.mk.inj (Option.some.inj hc)).1 hji
  | proc hp hc' =>
    refine ⟨⟨s, hs, hi⟩, fun q t hq hc => ?_⟩
    obtain rfl := Option.some.inj hq
    exact hm _ t hp (hc' ▸ hc)
  | stop g l' cand hp =>
    refine ⟨⟨s, hs, hi⟩, fun q t hq hc => ?_⟩
    obtain rfl := Option.some.inj hq
    exact hm _ t hp hc
  | yield g j l' cand hp =>
    refine ⟨⟨s, hs, hi⟩, fun q t hq hc => ?_⟩
    obtain rfl := Option.some.inj hq
    exact hm _ t hp hc
  | @edit p p' j t t' saved hp hc hc' _ _ _ he hinc _ _ =>
    by_cases hij : i = j
    · subst hij
      have h1 : t'.flags.incomplete = true := hinc (fun ck hck => hf ck p t hck hp hc) (hm p t hp hc)
      refine ⟨?_, fun q u hq hqc => ?_⟩
      · cases saved with
        | false => exact ⟨s, hs, hi⟩
        | true =>
          refine ⟨t', ?_, h1⟩
          show look (write w.stores i t') i = _
          rw [look_write, if_pos rfl, hs]; rfl
      · obtain rfl := Option.some.inj hq
        rw [hc'] at hqc
        obtain rfl := (Prod.mk.inj (Option.some.inj hqc)).2
        exact h1
    · refine ⟨⟨s, ?_, hi⟩, fun q u hq hqc => ?_⟩
      · cases saved with
        | false => exact hs
        | true =>
          show look (write w.stores j t') i = _
          rw [look_write, if_neg hij]; exact hs
      · obtain rfl := Option.some.inj hq
        rw [hc'] at hqc
        exact absurd (Prod.mk.inj (Option.some.inj hqc)).1.symm hij
  | @resume p p' j t t' saved hp _ _ hl hc' _ _ _ he hfl =>
    by_cases hij : i = j
    · subst hij
      rw [hs] at hl
      obtain rfl := Content.saved.inj (Option.some.inj hl)
      have h1 : t'.flags.incomplete = true := by rw [hfl]; exact hi
      refine ⟨?_, fun q u hq hqc => ?_⟩
      · cases saved with
        | false => exact ⟨s, hs, hi⟩
        | true =>
          refine ⟨t', ?_, h1⟩
          show look (write w.stores i t') i = _
          rw [look_write, if_pos rfl, hs]; rfl
      · obtain rfl := Option.some.inj hq
        rw [hc'] at hqc
        obtain rfl := (Prod.mk.inj (Option.some.inj hqc)).2
        exact h1
    · refine ⟨⟨s, ?_, hi⟩, fun q u hq hqc => ?_⟩
      · cases saved with
        | false => exact hs
        | true =>
          show look (write w.stores j t') i = _
          rw [look_write, if_neg hij]; exact hs
      · obtain rfl := Option.some.inj hq
        rw [hc'] at hqc
        exact absurd (Prod.mk.inj (Option.some.inj hqc)).1.symm hij
  | delete ids ha =>
    refine ⟨⟨s, ?_, hi⟩, hm⟩
    show look (w.stores.filter _) i = _
    rw [look_filter, if_neg (hd ids ha)]
    exact hs

/-- **C78**: a session that is not finished can be resumed by its application after any history of calls,
failed checkpoints and dying processes in which it is neither deleted nor finalised, with all its results. -/
theorem C78_unfinished {jobs : Jobs K O} {w : World I A K O} (h : Reached jobs w) {i : I} {s : Sess A K O}
    (hs : look w.stores i = some (.saved s)) (hu : Unfinished i w) (acts : List (Act I A K O))
    (hsp : Spared jobs i acts w) (n : Nat) (hn : (run jobs acts w).stores.length < n) :
    (∃ s', look (run jobs acts w).stores i = some (.saved s') ∧ s'.app = s.app ∧ s'.flags.incomplete = true ∧
      s.results <+: s'.results) ∧
    (reopen jobs s.app i n (run jobs acts w)).2 = .ok := by
  have key : ∀ (acts : List (Act I A K O)) {w : World I A K O}, Unfinished i w → Spared jobs i acts w →
      Unfinished i (run jobs acts w) ∧ ∀ ids, Act.delete ids ∈ acts → i ∉ ids := by
    intro acts
    induction acts with
    | nil => intro w hu _; exact ⟨hu, by simp⟩
    | cons a l ih =>
      intro w hu hsp
      obtain ⟨h1, h2⟩ := ih (hu.step a hsp.1 hsp.2.1) hsp.2.2
      refine ⟨h1, fun ids hi => ?_⟩
      rcases List.mem_cons.mp hi with hi | hi
      · exact hsp.1 ids hi.symm
      · exact h2 ids hi
  obtain ⟨hu', hdel⟩ := key acts hu hsp
  obtain ⟨s', h1, h2, h3⟩ := C78_results_kept h acts i hdel s hs
  obtain ⟨⟨s1, h4, h5⟩, -⟩ := hu'
  rw [h1] at h4
  obtain rfl := Content.saved.inj (Option.some.inj h4)
  refine ⟨⟨s', h1, h2, h5, h3⟩, ?_⟩
  obtain ⟨-, -, r, -⟩ := C78_reopen_partial (jobs := jobs) h1 h5 n hn
  rw [← h2]
  exact r

theorem exUnfinished : Unfinished 7 exBegun :=
  ⟨⟨⟨0, .ready, none, []⟩, by decide, rfl⟩, fun p t hp hc => by
    rw [exBegun_proc] at hp
    obtain rfl := Option.some.inj hp
    obtain rfl := (Prod.mk.inj (Option.some.inj hc)).2
    rfl⟩

example := C78_unfinished exBegun_reached (i := 7) (s := ⟨0, .ready, none, []⟩) (by decide) exUnfinished
  [.runJob 5 true false, .runJob 5 true true, .crash, .spawn 1, .listing, .next 0, .resume 12 true true true, .crash,
    .spawn 0, .delete [11, 15]] (by
      refine ⟨?_, ?_, ?_, ?_, ?_, ?_, ?_, ?_, ?_, ?_, ?_, ?_, ?_, ?_, ?_, ?_, ?_, ?_, ?_, ?_, trivial⟩ <;>
        first
          | (intro ck p s h; cases h; done)
          | (intro ids h; cases h; done)
          | (intro ids h; cases h; decide)) 9 (by decide)


/-- **C78**: when bootstrapping is over the session is one that is not finished. -/
theorem C78_begun {jobs : Jobs K O} {w : World I A K O} {p : Proc I A K O} (hp : w.proc = some p) {i : I}
    {s : Sess A K O} (hc : p.cur = some (i, s)) (a : Act I A K O) (ck : Bool) (ha : a = .booted ck ∨ a = .finishBoot ck)
    (hr : (step jobs a w).2 = .ok) : Unfinished i (step jobs a w).1 := by
  have fin : ∀ {p1 p2 : Proc I A K O} {t : Sess A K O}, t.flags.incomplete = true →
      (saving w p1 i t ck p2).2 = .ok → Unfinished i (saving w p1 i t ck p2).1 := by
    intro p1 p2 t ht hok
    obtain ⟨e, l⟩ := saving_ok hok
    rw [e]
    refine ⟨⟨t, l, ht⟩, fun q u hq hqc => ?_⟩
    obtain rfl := Option.some.inj hq
    obtain rfl := (Prod.mk.inj (Option.some.inj hqc)).2
    exact ht
  rcases ha with rfl | rfl
  · revert hr
    refine inside_ind (P := fun x => x.2 = .ok → Unfinished i x.1) w _ _ (fun r h0 h1 => absurd h1 h0) ?_
    intro q j t hq _ hqc
    rw [hp] at hq
    obtain rfl := Option.some.inj hq
    rw [hc] at hqc
    obtain ⟨rfl, rfl⟩ := Prod.mk.inj (Option.some.inj hqc)
    exact fin rfl
  · have e := (enforce_ok hp hr).1
    have e' : step jobs (.finishBoot ck) w = saving w { p with allowed := normal } i { s with flags := .ready } ck
        { p with allowed := normal } := by
      refine e.trans ?_
      try dsimp only
      rw [withSess_eq hc]
    rw [e'] at hr ⊢
    exact fin rfl hr

example := C78_begun (jobs := exJobs)
  (w := run exJobs [.spawn 0, .startNew 7, .started true, .selectPlan true true, .bootstrap] ⟨exStores, none⟩)
  (p := ⟨0, .booting, bootable, some (7, ⟨0, .fresh, none, []⟩), [], []⟩) rfl (i := 7) (s := ⟨0, .fresh, none, []⟩) rfl
  (.booted true) true (.inl rfl) (by decide)


/-! ## Finished sessions do not come back -/

/-- The session is finished, and the process cannot change that. -/
structure Finished (i : I) (w : World I A K O) : Prop where
  store : ∀ s, look w.stores i = some (.saved s) → s.flags.incomplete = false
  cur : ∀ p t, w.proc = some p → p.cur = some (i, t) → t.flags.incomplete = false ∧ Calm p
  cand : ∀ p, w.proc = some p → i ∈ p.cand →
    p.allowed .resume = false ∧ ∀ x ∈ p.gens, x = none ∨ x = some []

theorem mem_set_of {α : Type} {l : List α} {n : Nat} {a x : α} (h : x ∈ l.set n a) : x = a ∨ x ∈ l :=
  (List.mem_or_eq_of_mem_set h).symm

theorem bfalse_of {a b : Bool} (h : a = true → b = true) (hb : b = false) : a = false := by
  cases a with
  | false => rfl
  | true => rw [h rfl] at hb; exact hb

theorem Finished.step {jobs : Jobs K O} {w : World I A K O} {i : I} (hu : Finished i w) (a : Act I A K O)
    (hn : a ≠ .startNew i) : Finished i (Life.step jobs a w).1 := by
  have hmv := step_move jobs a w
  generalize (Life.step jobs a w).1 = w' at hmv ⊢
  cases hmv with
  | same => exact hu
  | gone => exact ⟨hu.store, fun p t hp => by simp at hp, fun p hp => by simp at hp⟩
  | born x =>
    refine ⟨hu.store, fun p t hp hc => ?_, fun p hp hc => ?_⟩
    · obtain rfl := Option.some.inj hp
      simp at hc
    · obtain rfl := Option.some.inj hp
      simp at hc
  | @create p j ha hp hl =>
    have hji : j ≠ i := fun hji => hn (hji ▸ ha)
    refine ⟨fun s hs => ?_, fun q t hq hc => ?_, fun q hq hc => ?_⟩
    · rw [look_cons, if_neg hji] at hs
      exact hu.store s hs
    · obtain rfl := Option.some.inj hq
      exact absurd (Prod.mk.inj (Option.some.inj hc)).1 hji
    · obtain rfl := Option.some.inj hq
      exact hu.cand p hp hc
  | proc hp hc' _ hcd hg hcalm hres =>
    refine ⟨hu.store, fun q t hq hc => ?_, fun q hq hc => ?_⟩
    · obtain rfl := Option.some.inj hq
      obtain ⟨h1, h2⟩ := hu.cur _ t hp (hc' ▸ hc)
      exact ⟨h1, hcalm h2⟩
    · obtain rfl := Option.some.inj hq
      rw [hcd] at hc
      obtain ⟨h1, h2⟩ := hu.cand _ hp hc
      refine ⟨bfalse_of hres h1, fun x hx => ?_⟩
      rcases hg with hg | hg
      · exact h2 x (hg ▸ hx)
      · rw [hg, List.mem_append] at hx
        rcases hx with hx | hx
        · exact h2 x hx
        · exact .inl (by simpa using hx)
  | @stop p g l' cand hp h1 h2 h3 =>
    refine ⟨hu.store, fun q t hq hc => ?_, fun q hq hc => ?_⟩
    · obtain rfl := Option.some.inj hq
      exact hu.cur p t hp hc
    · obtain rfl := Option.some.inj hq
      change i ∈ cand at hc
      have hcd : cand = p.cand := by
        rcases h1 with h1 | ⟨h1, _⟩
        · exact h1
        · rw [h1] at hc; simp at hc
      rw [hcd] at hc
      obtain ⟨k1, k2⟩ := hu.cand p hp hc
      refine ⟨k1, fun x hx => ?_⟩
      rcases mem_set_of hx with rfl | hx
      · right
        by_cases hl : l' = []
        · rw [hl]
        · rcases h2 hl with h4 | ⟨l, h4, h5⟩
          · rcases h3 hcd h4 with h6 | h6
            · exact absurd h6 hl
            · rw [h6] at hc; simp at hc
          · rcases k2 _ (List.mem_of_getElem? h5) with h6 | h6
            · simp at h6
            · exact absurd (Option.some.inj h6) h4
      · exact k2 x hx
  | @yield p g j l' cand hp h1 h2 =>
    have hji : i ≠ j := by
      rintro rfl
      obtain ⟨s, k1, _, k2⟩ := h2
      rw [hu.store s k1] at k2
      simp at k2
    refine ⟨hu.store, fun q t hq hc => ?_, fun q hq hc => ?_⟩
    · obtain rfl := Option.some.inj hq
      obtain ⟨k1, k2⟩ := hu.cur p t hp hc
      refine ⟨k1, k2.1, fun c hc' => ?_⟩
      by_cases hcr : c = .resume
      · exact .inr hcr
      · have h5 : p.allowed c = true := by
          change put .resume true p.allowed c = true at hc'
          unfold put at hc'
          rwa [if_neg (fun h => hcr h)] at hc'
        exact k2.2 c h5
    · obtain rfl := Option.some.inj hq
      change i ∈ cand ++ [j] at hc
      rw [List.mem_append] at hc
      rcases hc with hc | hc
      · rcases h1 with ⟨h3, l, h4, h5⟩ | h3
        · rw [h3] at hc
          rcases (hu.cand p hp hc).2 _ (List.mem_of_getElem? h5) with h6 | h6
          · simp at h6
          · exact absurd (Option.some.inj h6) h4
        · rw [h3] at hc; simp at hc
      · exact absurd (by simpa using hc) hji
  | @edit p p' j t t' saved hp hc hc' _ hcd hg he _ hcalm hres =>
    refine ⟨fun s hs => ?_, fun q u hq hqc => ?_, fun q hq hqc => ?_⟩
    · cases saved with
      | false => exact hu.store s hs
      | true =>
        change look (write w.stores j t') i = _ at hs
        rw [look_write] at hs
        by_cases hij : i = j
        · subst hij
          rw [if_pos rfl] at hs
          obtain ⟨h1, h2⟩ := hu.cur p t hp hc
          cases hl : look w.stores i with
          | none => rw [hl] at hs; simp at hs
          | some c =>
            rw [hl] at hs
            obtain rfl := Content.saved.inj (Option.some.inj hs)
            exact bfalse_of (hcalm h2).2 h1
        · rw [if_neg hij] at hs
          exact hu.store s hs
    · obtain rfl := Option.some.inj hq
      rw [hc'] at hqc
      obtain ⟨rfl, rfl⟩ := Prod.mk.inj (Option.some.inj hqc)
      obtain ⟨h1, h2⟩ := hu.cur p t hp hc
      exact ⟨bfalse_of (hcalm h2).2 h1, (hcalm h2).1⟩
    · obtain rfl := Option.some.inj hq
      rw [hcd] at hqc
      obtain ⟨h1, h2⟩ := hu.cand p hp hqc
      exact ⟨bfalse_of hres h1, fun x hx => h2 x (hg ▸ hx)⟩
  | @resume p p' j t t' saved hp hal hj hl hc' _ hcd _ he hfl =>
    have hno : i ∉ p.cand := fun h => by
      have := (hu.cand p hp h).1
      rw [hal] at this; simp at this
    have hij : i ≠ j := fun h => hno (h ▸ hj)
    refine ⟨fun s hs => ?_, fun q u hq hqc => ?_, fun q hq hqc => ?_⟩
    · cases saved with
      | false => exact hu.store s hs
      | true =>
        change look (write w.stores j t') i = _ at hs
        rw [look_write, if_neg hij] at hs
        exact hu.store s hs
    · obtain rfl := Option.some.inj hq
      rw [hc'] at hqc
      exact absurd (Prod.mk.inj (Option.some.inj hqc)).1.symm hij
    · obtain rfl := Option.some.inj hq
      rw [hcd] at hqc
      exact absurd hqc hno
  | delete ids ha =>
    refine ⟨fun s hs => ?_, hu.cur, hu.cand⟩
    change look (w.stores.filter _) i = _ at hs
    rw [look_filter] at hs
    by_cases hi : i ∈ ids
    · rw [if_pos hi] at hs; simp at hs
    · rw [if_neg hi] at hs; exact hu.store s hs

/-- **C78** (partial: the listings of resumable sessions must be complete or not started,
`C78_stale_violated`): a finalised session is finished for good.  After any history it is neither listed as
resumable nor resumed, and its storage, if it was not deleted, says that it is finished. -/
theorem C78_finished_partial {jobs : Jobs K O} {w : World I A K O} {p : Proc I A K O} (hp : w.proc = some p) {i : I}
    {s : Sess A K O} (hc : p.cur = some (i, s)) (hi : s.flags.incomplete = true)
    (hg : ∀ x ∈ p.gens, x = none ∨ x = some []) (ck : Bool) (hr : (step jobs (.finalize ck) w).2 = .ok)
    (acts : List (Act I A K O)) (hn : Act.startNew i ∉ acts) :
    (∀ t, look (run jobs acts (step jobs (.finalize ck) w).1).stores i = some (.saved t) → t.flags.incomplete = false) ∧
    (∀ g, (step jobs (.next g) (run jobs acts (step jobs (.finalize ck) w).1)).2 ≠ .found i) ∧
    (∀ loads known ck', (step jobs (.resume i loads known ck') (run jobs acts (step jobs (.finalize ck) w).1)).2 ≠ .ok) := by
  have h0 : Finished i (step jobs (.finalize ck) w).1 := by
    obtain ⟨e, hf, _⟩ := enforce_ok hp hr
    have e' : step jobs (.finalize ck) w = saving w p i { s with flags := { s.flags with incomplete := false } } ck
        { p with allowed := ended } := by
      refine e.trans ?_
      try dsimp only
      rw [withSess_eq hc, if_neg (by rw [hi]; simp)]
    rw [e'] at hr ⊢
    obtain ⟨e2, l2⟩ := saving_ok hr
    rw [e2]
    refine ⟨fun t ht => ?_, fun q t hq hqc => ?_, fun q hq _ => ?_⟩
    · change look (write w.stores i _) i = _ at ht
      rw [l2] at ht
      obtain rfl := Content.saved.inj (Option.some.inj ht)
      rfl
    · obtain rfl := Option.some.inj hq
      obtain rfl := (Prod.mk.inj (Option.some.inj hqc)).2
      exact ⟨rfl, hf, fun c hc => .inl hc⟩
    · obtain rfl := Option.some.inj hq
      exact ⟨rfl, hg⟩
  have key : ∀ (acts : List (Act I A K O)) {w : World I A K O}, Finished i w → Act.startNew i ∉ acts →
      Finished i (run jobs acts w) := by
    intro acts
    induction acts with
    | nil => intro w h _; exact h
    | cons a l ih =>
      intro w h hn
      exact ih (h.step a (fun ha => hn (by simp [ha]))) (fun ha => hn (by simp [ha]))
  have hfin := key acts h0 hn
  generalize run jobs acts (step jobs (.finalize ck) w).1 = v at hfin
  refine ⟨hfin.store, ?_, ?_⟩
  · intro g
    refine next_ind (P := fun x => x.2 ≠ .found i) jobs v g ?_ ?_ ?_
    · intro r h1 h2
      exact h2 i
    · intro q hq _ r l' cand h1 h2 _ _ _
      exact h2 i
    · intro q hq _ j l' cand hcd hj h3
      have hji : j = i := by simpa using h3
      subst hji
      obtain ⟨c, h4, h5⟩ := hj
      cases c with
      | empty => simp [resumable] at h5
      | bad => simp [resumable] at h5
      | saved t =>
        simp only [resumable, Bool.and_eq_true, decide_eq_true_eq] at h5
        rw [hfin.store t h4] at h5
        simp at h5
  · intro loads known ck' hok
    cases hq : v.proc with
    | none => unfold step enforce at hok; dsimp only at hok; rw [hq] at hok; simp at hok
    | some q =>
      obtain ⟨e, _, ha⟩ := enforce_ok hq hok
      have hni : i ∉ q.cand := fun h => by
        have := (hfin.cand q hq h).1
        rw [ha] at this; simp at this
      have e' : step jobs (.resume i loads known ck') v = (v, .raised) := by
        refine e.trans ?_
        try dsimp only
        rw [if_pos hni]
      rw [e'] at hok
      simp at hok

example := C78_finished_partial (jobs := exJobs) exBegun_proc (i := 7) (s := ⟨0, .ready, none, []⟩) rfl rfl
  (fun x hx => by simp [exProc] at hx) true (by decide)
  [.listing, .next 0, .next 0, .resume 7 true true true, .export true, .crash, .spawn 0, .listing, .next 0, .next 0] (by
    simp)

/-- **C78** is violated: if `get_resumable_sessions` was left half-way, as `next(...)` does, then going on with
it after the session was finalised makes the finished session resumable again. -/
theorem C78_stale_violated : ∃ (w : World Nat Nat Nat Bool) (p : Proc Nat Nat Nat Bool) (s : Sess Nat Nat Bool),
    Reached exJobs w ∧ w.proc = some p ∧ p.cur = some (15, s) ∧ s.flags.incomplete = true ∧
    (step exJobs (.finalize true) w).2 = .ok ∧
    (step exJobs (.resume 15 true true true) (run exJobs [.next 0] (step exJobs (.finalize true) w).1)).2 = .ok :=
  ⟨run exJobs [.spawn 0, .listing, .next 0, .resume 15 true true true] ⟨exStores.reverse, none⟩, _, _,
    Reached.run _ (.start (by decide)), rfl, rfl, rfl, by decide, by decide⟩


/-! ## Old sessions -/

/-- **C78** (partial: a readable session whose only flag is `testplanless` is not found,
`C78_lost_violated`): every readable session of an application is old, or resumable, or both. -/
theorem C78_found_partial (w : World I A K O) (i : I) (s : Sess A K O)
    (hs : look w.stores i = some (.saved s)) (ht : s.flags ≠ ⟨false, false, false, true⟩) :
    (i, s.flags) ∈ oldSessions w s.app oldFlags true ∨ resumable s.app (.saved s : Content A K O) = true := by
  by_cases hi : s.flags.incomplete = true
  · right
    simp [resumable, hi]
  · left
    refine List.mem_filterMap.mpr ⟨(i, .saved s), mem_of_look hs, ?_⟩
    dsimp only
    rw [if_pos]
    refine ⟨rfl, ?_⟩
    obtain ⟨a, f, r, l⟩ := s
    obtain ⟨b1, b2, b3, b4⟩ := f
    revert hi ht
    dsimp only
    cases b1 <;> cases b2 <;> cases b3 <;> cases b4 <;> simp [oldFlags]

example := C78_found_partial exBegun 11 ⟨0, ⟨false, false, true, false⟩, some 6, [(6, true)]⟩ (by decide) (by decide)

/-- **C78** is violated: a session made by hand-picking jobs and finalised without an export is in neither
list. -/
theorem C78_lost_violated : ∃ (w : World Nat Nat Nat Bool) (s : Sess Nat Nat Bool), Reached exJobs w ∧
    look w.stores 7 = some (.saved s) ∧ s.app = 0 ∧ resumable 0 (.saved s : Content Nat Nat Bool) = false ∧
    ∀ f, (7, f) ∉ oldSessions w 0 oldFlags true := by
  refine ⟨run exJobs [.spawn 0, .startNew 7, .started true, .handPick, .finalize true] ⟨exStores, none⟩,
    ⟨0, ⟨false, false, false, true⟩, none, []⟩, Reached.run _ (.start (by decide)), by decide, rfl, rfl, ?_⟩
  intro f hf
  have h1 : oldSessions (run exJobs [.spawn 0, .startNew 7, .started true, .handPick, .finalize true]
      ⟨exStores, none⟩) 0 oldFlags true = [(11, ⟨false, false, true, false⟩), (14, .fresh)] := by decide
  rw [h1] at hf
  simp at hf

/-- **C78** is violated: if the process dies in `start_new_session` the empty storage stays in neither list. -/
theorem C78_empty_violated : ∃ w : World Nat Nat Nat Bool, Reached exJobs w ∧ w.proc = none ∧
    look w.stores 7 = some .empty ∧ (∀ a f, (7, f) ∉ oldSessions w a ⟨true, true, true, true⟩ true) ∧
    ∀ a, resumable a (.empty : Content Nat Nat Bool) = false := by
  refine ⟨run exJobs [.spawn 0, .startNew 7, .crash] ⟨[], none⟩, Reached.run _ (.start (by decide)), rfl, by decide, ?_,
    fun _ => rfl⟩
  intro a f hf
  have h1 : oldSessions (run exJobs [.spawn 0, .startNew 7, .crash] (⟨[], none⟩ : World Nat Nat Nat Bool)) a
      ⟨true, true, true, true⟩ true = [] := rfl
  rw [h1] at hf
  simp at hf

/-- **C78** is violated: a session that was exported but not finalised is old and resumable, so that deleting
the old sessions deletes it. -/
theorem C78_both_violated : ∃ (w : World Nat Nat Nat Bool) (s : Sess Nat Nat Bool), Reached exJobs w ∧
    look w.stores 7 = some (.saved s) ∧ resumable 0 (.saved s : Content Nat Nat Bool) = true ∧
    (7, s.flags) ∈ oldSessions w 0 oldFlags true ∧
    look (run exJobs [.crash, .spawn 0, .delete ((oldSessions w 0 oldFlags true).map (·.1))] w).stores 7 = none :=
  ⟨(step exJobs (.export true) exBegun).1, ⟨0, ⟨false, true, true, false⟩, none, []⟩, exBegun_reached.step _, by decide,
    rfl, by decide, by decide⟩


/-- **C78**: the sessions that are called old are readable sessions of this application that are marked as
still in preparation, or as submitted, or not marked at all. -/
theorem C78_old {jobs : Jobs K O} {w : World I A K O} (h : Reached jobs w) (a : A) (i : I) (f : Flags) :
    (i, f) ∈ oldSessions w a oldFlags true ↔
      ∃ s, look w.stores i = some (.saved s) ∧ s.app = a ∧ s.flags = f ∧
        (f.bootstrapping = true ∨ f.submitted = true ∨ f = ⟨false, false, false, false⟩) := by
  have hcond : ∀ s : Sess A K O, (s.app = a ∧ (true = true ∧ s.flags = ⟨false, false, false, false⟩ ∨
          (s.flags.bootstrapping && oldFlags.bootstrapping || s.flags.incomplete && oldFlags.incomplete ||
            s.flags.submitted && oldFlags.submitted || s.flags.testplanless && oldFlags.testplanless) = true)) ↔
      s.app = a ∧ (s.flags.bootstrapping = true ∨ s.flags.submitted = true ∨ s.flags = ⟨false, false, false, false⟩) := by
    intro s
    simp only [oldFlags, Bool.and_true, Bool.and_false, Bool.or_false, Bool.or_eq_true, true_and]
    constructor
    · rintro ⟨h1, h2 | h2 | h2⟩
      · exact ⟨h1, .inr (.inr h2)⟩
      · exact ⟨h1, .inl h2⟩
      · exact ⟨h1, .inr (.inl h2)⟩
    · rintro ⟨h1, h2 | h2 | h2⟩
      · exact ⟨h1, .inr (.inl h2)⟩
      · exact ⟨h1, .inr (.inr h2)⟩
      · exact ⟨h1, .inl h2⟩
  unfold oldSessions
  rw [List.mem_filterMap]
  constructor
  · rintro ⟨⟨j, c⟩, hm, he⟩
    cases c with
    | empty => simp at he
    | bad => simp at he
    | saved s =>
      dsimp only at he
      split at he
      · next hx =>
        obtain ⟨rfl, rfl⟩ := Prod.mk.inj (Option.some.inj he)
        have := (hcond s).mp hx
        exact ⟨s, look_of_mem h.good.nodup hm, this.1, rfl, this.2⟩
      · simp at he
  · rintro ⟨s, hs, h1, h2, h3⟩
    refine ⟨(i, .saved s), mem_of_look hs, ?_⟩
    dsimp only
    subst h2
    rw [if_pos ((hcond s).mpr ⟨h1, h3⟩)]

example : oldSessions exBegun 0 oldFlags true = [(11, ⟨false, false, true, false⟩), (14, .fresh)] := by decide

example := (C78_old exBegun_reached 0 14 .fresh).mpr ⟨⟨0, .fresh, none, []⟩, by decide, rfl, rfl, .inl rfl⟩


/-- **C78**: `delete_sessions` removes the storages that it is given and changes no other. -/
theorem C78_delete {jobs : Jobs K O} {w : World I A K O} (ids : List I) (hr : (step jobs (.delete ids) w).2 = .ok) (i : I) :
    look (step jobs (.delete ids) w).1.stores i = if i ∈ ids then none else look w.stores i := by
  revert hr
  refine enforce_ind (P := fun x => x.2 = .ok → look x.1.stores i = if i ∈ ids then none else look w.stores i)
    w _ _ (fun r h0 h1 => absurd h1 h0) ?_
  intro p _ _ _ _
  exact look_filter ..

example := C78_delete (jobs := exJobs)
  (w := run exJobs [.crash, .spawn 0] exBegun) [11, 14] (by decide) 7

end Verif.Life
