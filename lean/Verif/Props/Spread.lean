import Verif.Model.Spread
import Verif.Props.RunLoop
import Verif.Props.Retry

/-! # Property C134: how skipped and failed jobs affect the jobs that depend on them -/

set_option linter.unusedSectionVars false

namespace Verif.Session

open Verif.DepMgr (DepsFirst)
open Verif.Retry (Known known known_use)

variable {J I E R : Type} [DecidableEq J] [DecidableEq I] [DecidableEq E] [DecidableEq R]

/-! ## Specification -/

/-- The outcome that a session has for a job. -/
def outcomeIn (s : Session J I E R) (i : I) : Option Outcome :=
  (s.states.lookup i).map fun q => q.result.outcome

/-- The job is started when its turn comes, in a run of the whole run list. -/
def Starts (sem : Sem J I E R) (b : Bool) (out : Session J I E R → J → Result R) (s0 : Session J I E R) (j : J) :
    Prop :=
  ∃ pre post s q, s0.runList = pre ++ j :: post ∧ runJobs sem b out s0 pre = (s, none) ∧
    s.states.lookup (sem.id j) = some q ∧ q.canStart = true

/-- A chain of jobs that were not started, each depending on the next one, that leads to a job that was started
and has outcome `skip` (`final`); the jobs that were not started satisfy `P`. -/
inductive Chain (sem : Sem J I E R) (starts : J → Prop) (final : I → Option Outcome) (jobs : List J)
    (P : J → Prop) : J → Prop
  | own {j : J} : j ∈ jobs → starts j → final (sem.id j) = some .skip → Chain sem starts final jobs P j
  | dep {j k : J} : j ∈ jobs → ¬ starts j → P j → sem.id k ∈ sem.direct j →
      Chain sem starts final jobs P k → Chain sem starts final jobs P j

/-! ## Lemmas -/

theorem runJobs_append (sem : Sem J I E R) (b : Bool) (out : Session J I E R → J → Result R) :
    ∀ (l1 l2 : List J) {s s' : Session J I E R}, runJobs sem b out s (l1 ++ l2) = (s', none) →
    ∃ s1, runJobs sem b out s l1 = (s1, none) ∧ runJobs sem b out s1 l2 = (s', none)
  | [], _, s, _, h => ⟨s, rfl, h⟩
  | j :: l1, l2, s, s', h => by
    simp only [List.cons_append, runJobs] at h ⊢
    split at h
    · simp at h
    · rename_i s1 heq
      obtain ⟨s2, h2, h3⟩ := runJobs_append sem b out l1 l2 h
      exact ⟨s2, h2, h3⟩

theorem split_unique {α : Type} {x : α} : ∀ {p p' q q' : List α}, (p ++ x :: q).Nodup →
    p ++ x :: q = p' ++ x :: q' → p = p' ∧ q = q'
  | [], [], _, _, _, h => by simpa using h
  | [], y :: p', q, q', hn, h => by
    simp only [List.nil_append, List.cons_append, List.cons.injEq] at h
    obtain ⟨rfl, rfl⟩ := h
    simp at hn
  | y :: p, [], q, q', hn, h => by
    simp only [List.nil_append, List.cons_append, List.cons.injEq] at h
    obtain ⟨rfl, rfl⟩ := h
    simp at hn
  | y :: p, y' :: p', q, q', hn, h => by
    simp only [List.cons_append, List.cons.injEq, List.nodup_cons] at h hn
    obtain ⟨rfl, h⟩ := h
    obtain ⟨h1, h2⟩ := split_unique hn.2 h
    exact ⟨by rw [h1], h2⟩

theorem outcomeIn_of_look {s : Session J I E R} {i : I} {k : J} {o : Outcome} (h : look s.states i = some (k, o)) :
    outcomeIn s i = some o := by
  obtain ⟨q, hq, _, ho⟩ := look_some.mp h
  simp [outcomeIn, hq, ho]

/-- What becomes of a job, told at the moment when its turn comes. -/
theorem moment {sem : Sem J I E R} (hwf : sem.WF) {s0 sEnd : Session J I E R} (h0 : Reachable sem s0) {b : Bool}
    {out : Session J I E R → J → Result R} (hout : ∀ s j, (out s j).outcome ≠ .none)
    (hr : runJobs sem b out s0 s0.runList = (sEnd, none)) {j : J} (hj : j ∈ s0.runList) :
    ∃ pre post s q, s0.runList = pre ++ j :: post ∧ runJobs sem b out s0 pre = (s, none) ∧ LoopInv sem s ∧
      j ∈ s.runList ∧ s.states.lookup (sem.id j) = some q ∧
      inhibitorList sem (look s.states) s.resources j = .ok q.inhib ∧
      (∀ d ∈ sem.depOrder j, ∃ p, look s.states d.2 = some p ∧ p.2 ≠ .none ∧ look sEnd.states d.2 = some p) ∧
      (Starts sem b out s0 j ↔ q.canStart = true) ∧
      (q.canStart = true → outcomeIn sEnd (sem.id j) = some (out s j).outcome) ∧
      (q.canStart = false → ∃ o, outcomeIn sEnd (sem.id j) = some o ∧
        CannotStartRule sem (look s.states) j q.inhib o) := by
  have hi0 : LoopInv sem s0 := ⟨h0.live hwf, h0.resInv hwf⟩
  obtain ⟨pre, post, heq⟩ := List.append_of_mem hj
  have hnd := hi0.live.runNodup
  rw [heq] at hr
  obtain ⟨s, hp, hrest⟩ := runJobs_append sem b out pre (j :: post) hr
  have hndj : s0.runList.Nodup := (List.pairwise_map.mp hnd).imp fun h e => h (by rw [e])
  rw [heq, List.map_append, List.map_cons, List.nodup_append] at hnd
  obtain ⟨a1, a2, a3, a4⟩ := runJobs_spec hout pre hi0 (by
    intro x hx; rw [heq]; simp [hx]) hnd.1 hp
  have hjr : j ∈ s.runList := by rw [a2]; exact hj
  obtain ⟨q, hq, _⟩ := a1.live.book.lookup_some (a1.live.runSub j hjr)
  have hf := (a1.live.fresh _ q hq).2 j hjr rfl
  simp only [runJobs] at hrest
  split at hrest
  · simp at hrest
  rename_i s1 hc
  obtain ⟨b1, b2, b3, _⟩ := consider_spec hout a1 hjr hc
  have hndp := hnd.2.1
  rw [List.nodup_cons] at hndp
  obtain ⟨c1, c2, c3, _⟩ := runJobs_spec hout post b1 (by
    intro x hx; rw [b2, a2, heq]; simp [hx]) hndp.2 hrest
  have hl : look s.states (sem.id j) = some (q.job, q.result.outcome) := look_some.mpr ⟨q, hq, rfl, rfl⟩
  refine ⟨pre, post, s, q, heq, hp, a1, hjr, hq, hf, ?_, ?_, ?_, ?_⟩
  · intro d hd
    have := hi0.live.order pre j post heq d hd
    obtain ⟨x, hx, hxi⟩ := List.mem_map.mp this
    have hxi' : sem.id x = d.2 := hxi
    obtain ⟨k, o, hk, ho⟩ := a4 x hx
    rw [hxi'] at hk
    have hmem : d.2 ∈ pre.map sem.id := by rw [← hxi']; exact List.mem_map_of_mem hx
    have hne : d.2 ≠ sem.id j := hnd.2.2 _ hmem _ (by simp)
    have hnp : d.2 ∉ post.map sem.id := fun h => hnd.2.2 _ hmem _ (by simp [h]) rfl
    exact ⟨(k, o), hk, ho, c3 _ _ (b3 _ _ hk hne) hnp⟩
  · constructor
    · rintro ⟨pre', post', s', q', he', hp', hq', hcs⟩
      rw [heq] at he' hndj
      obtain ⟨e1, e2⟩ := split_unique hndj he'
      subst e1
      rw [hp] at hp'
      simp only [Prod.mk.injEq, and_true] at hp'
      subst hp'
      rw [hq] at hq'
      simp only [Option.some.injEq] at hq'
      rw [hq']
      exact hcs
    · intro hcs
      exact ⟨pre, post, s, q, heq, hp, hq, hcs⟩
  · intro hcs
    simp only [considerJob, hq, hcs, if_true] at hc
    obtain ⟨_, _, u3⟩ := use_spec a1 (a1.live.runSub j hjr) hc
    have := u3 _ _ hl
    rw [if_pos rfl] at this
    exact outcomeIn_of_look (c3 _ _ this hndp.1)
  · intro hcs
    simp only [considerJob, hq, hcs, Bool.false_eq_true, if_false] at hc
    obtain ⟨o, ho, hrule, _⟩ := C08_cannot_start sem (look s.states) j q.inhib (live_related a1.live hq)
    rw [ho] at hc
    simp only at hc
    obtain ⟨_, _, u3⟩ := use_spec a1 (a1.live.runSub j hjr) hc
    have := u3 _ _ hl
    rw [if_pos rfl] at this
    exact ⟨o, outcomeIn_of_look (c3 _ _ this hndp.1), hrule⟩

theorem skipped_dep_iff {sem : Sem J I E R} {s : Session J I E R} (hb : Live sem s) {j : J}
    {l : List (Inhibitor J E)} (hf : inhibitorList sem (look s.states) s.resources j = .ok l) :
    HasSkippedDep sem (look s.states) l ↔ ∃ d ∈ sem.direct j, ∃ k, look s.states d = some (k, .skip) := by
  obtain ⟨a, b, c, ha, hd, hc, hl⟩ := inhibitorList_split hf
  rw [directLoop_eq] at hd
  constructor
  · rintro ⟨h, hh, hcause, k, hk, k', hlk⟩
    rw [hl, List.mem_append, List.mem_append] at hh
    rcases hh with (hh | hh) | hh
    · obtain ⟨es, hp, ⟨e, i0, he, i, hi, k, o, hlk, ho, rfl⟩ | ⟨e, _, i', _, k, o, _, rfl⟩⟩ :=
        (resourcePart_mem ha h).mp hh <;> simp at hcause
    · obtain ⟨i, hi, k1, o, hlk1, hx⟩ := (genLoop_mem hd h).mp hh
      split at hx
      · simp at hx; rw [hx] at hcause; simp at hcause
      · split at hx
        · simp at hx
          rw [hx] at hk
          simp only [Option.some.injEq] at hk
          subst hk
          obtain ⟨q1, hq1, hj1, ho1⟩ := look_some.mp hlk1
          obtain ⟨g1, g2⟩ := hb.book.lookup_job hq1
          rw [← hj1, g2, hlk1] at hlk
          simp only [Option.some.injEq, Prod.mk.injEq] at hlk
          exact ⟨i, hi, k1, by rw [hlk1, hlk.2]⟩
        · simp at hx
    · rw [afterLoop_eq] at hc
      obtain ⟨i, hi, k1, o, hlk1, hx⟩ := (genLoop_mem hc h).mp hh
      split at hx
      · simp at hx; rw [hx] at hcause; simp at hcause
      · simp at hx
  · rintro ⟨d, hdm, k, hlk⟩
    obtain ⟨q1, hq1, hj1, ho1⟩ := look_some.mp hlk
    obtain ⟨g1, g2⟩ := hb.book.lookup_job hq1
    refine ⟨⟨.failedDep, some k, none⟩, ?_, rfl, k, rfl, k, ?_⟩
    · rw [hl, List.mem_append, List.mem_append]
      refine .inl (.inr ((genLoop_mem hd _).mpr ⟨d, hdm, k, .skip, hlk, by simp⟩))
    · rw [← hj1, g2]; rw [hlk, hj1]

theorem known_consider {sem : Sem J I E R} {b : Bool} {out : Session J I E R → J → Result R} {s s' : Session J I E R}
    {j : J} (hu : considerJob sem b out s j = (s', none)) {i : I} (hi : i ≠ sem.id j) {k : Known R}
    (h : known s i = some k) : known s' i = some k := by
  unfold considerJob at hu
  split at hu
  · simp at hu
  · split at hu
    · have := known_use hu h
      rwa [if_neg (Ne.symm hi)] at this
    · split at hu
      · simp at hu
      · have := known_use hu h
        rwa [if_neg (Ne.symm hi)] at this

theorem known_runJobs {sem : Sem J I E R} {b : Bool} {out : Session J I E R → J → Result R} :
    ∀ (js : List J) {s s' : Session J I E R}, runJobs sem b out s js = (s', none) → ∀ {i : I}, i ∉ js.map sem.id →
    ∀ {k : Known R}, known s i = some k → known s' i = some k
  | [], _, _, hr, _, _, _, h => by
    simp only [runJobs, Prod.mk.injEq, and_true] at hr
    rw [← hr]; exact h
  | j :: js, s, s', hr, i, hi, k, h => by
    simp only [runJobs] at hr
    simp only [List.map_cons, List.mem_cons, not_or] at hi
    split at hr
    · simp at hr
    · rename_i s1 heq
      exact known_runJobs js hr hi.2 (known_consider heq hi.1 h)

theorem afterLoop_nil {lk : I → Option (J × Outcome)} {is : List I} {c : List (Inhibitor J E)}
    (hc : afterLoop lk is = .ok c) (h : ∀ i ∈ is, ∀ p, lk i = some p → p.2 ≠ .none) : c = [] := by
  rw [afterLoop_eq] at hc
  rw [List.eq_nil_iff_forall_not_mem]
  intro x hx
  obtain ⟨i, hi, k, o, hlk, hxf⟩ := (genLoop_mem hc x).mp hx
  have := h i hi _ hlk
  simp only at this
  rw [if_neg this] at hxf
  simp at hxf

/-! ## Property theorems -/

/-- **C134**, what each job gets: at the end of a run of the run list, whatever the commands do, a job that was
started has the outcome that its command gave, and the jobs it depends on passed; a job that was not started has
outcome `skip` exactly if a job it depends on was skipped, and otherwise `not-supported`, except that it may have
`fail` if it has the flag fail-on-resource. -/
theorem C134_each {sem : Sem J I E R} (hwf : sem.WF) {s0 sEnd : Session J I E R} (h0 : Reachable sem s0) {b : Bool}
    {out : Session J I E R → J → Result R} (hout : ∀ s j, (out s j).outcome ≠ .none)
    (hr : runJobs sem b out s0 s0.runList = (sEnd, none)) {j : J} (hj : j ∈ s0.runList) :
    (Starts sem b out s0 j → (∃ pre post s, s0.runList = pre ++ j :: post ∧ runJobs sem b out s0 pre = (s, none) ∧
        outcomeIn sEnd (sem.id j) = some (out s j).outcome) ∧
      ∀ d ∈ sem.direct j, outcomeIn sEnd d = some .pass) ∧
    (¬ Starts sem b out s0 j →
      (sem.failOnResource j = true ∧ outcomeIn sEnd (sem.id j) = some .fail) ∨
      ((∃ d ∈ sem.direct j, outcomeIn sEnd d = some .skip) ∧ outcomeIn sEnd (sem.id j) = some .skip) ∨
      (¬ (∃ d ∈ sem.direct j, outcomeIn sEnd d = some .skip) ∧ outcomeIn sEnd (sem.id j) = some .notSupported)) := by
  obtain ⟨pre, post, s, q, e1, e2, inv, hjr, hq, hf, hdeps, hst, h1, h2⟩ := moment hwf h0 hout hr hj
  constructor
  · intro hs
    have hcs := hst.mp hs
    refine ⟨⟨pre, post, s, e1, e2, h1 hcs⟩, ?_⟩
    intro d hd
    have hnil : q.inhib = [] := by
      simp only [JobState.canStart, Bool.and_eq_true, List.isEmpty_iff] at hcs
      exact hcs.1
    obtain ⟨a, b', c, ha, hb, hc, hl⟩ := inhibitorList_split hf
    rw [hnil] at hl
    have : b' = [] := by
      have := hl.symm
      simp only [List.append_eq_nil_iff] at this
      exact this.1.2
    rw [this] at hb
    obtain ⟨k, hk⟩ := direct_nil.mp hb d hd
    obtain ⟨p, hp1, _, hp3⟩ := hdeps (.direct, d) ((hwf j _ _).mpr (.inl ⟨rfl, hd⟩))
    simp only at hp1 hp3
    rw [hk] at hp1
    simp only [Option.some.injEq] at hp1
    rw [← hp1] at hp3
    exact outcomeIn_of_look hp3
  · intro hs
    have hcs : q.canStart = false := by
      cases hc : q.canStart with
      | false => rfl
      | true => exact absurd (hst.mpr hc) hs
    obtain ⟨o, ho, hrule⟩ := h2 hcs
    have hsk : HasSkippedDep sem (look s.states) q.inhib ↔ ∃ d ∈ sem.direct j, outcomeIn sEnd d = some .skip := by
      rw [skipped_dep_iff inv.live hf]
      constructor
      · rintro ⟨d, hd, k, hk⟩
        obtain ⟨p, hp1, _, hp3⟩ := hdeps (.direct, d) ((hwf j _ _).mpr (.inl ⟨rfl, hd⟩))
        simp only at hp1 hp3
        rw [hk] at hp1
        simp only [Option.some.injEq] at hp1
        rw [← hp1] at hp3
        exact ⟨d, hd, outcomeIn_of_look hp3⟩
      · rintro ⟨d, hd, hk⟩
        obtain ⟨p, hp1, _, hp3⟩ := hdeps (.direct, d) ((hwf j _ _).mpr (.inl ⟨rfl, hd⟩))
        simp only at hp1 hp3
        obtain ⟨k, o'⟩ := p
        rw [outcomeIn_of_look hp3] at hk
        simp only [Option.some.injEq] at hk
        exact ⟨d, hd, k, by rw [hp1, hk]⟩
    rw [ho]
    rcases hrule with ⟨_, hfl, rfl⟩ | ⟨_, ⟨hs1, rfl⟩ | ⟨hs1, rfl⟩⟩
    · exact .inl ⟨hfl, rfl⟩
    · exact .inr (.inl ⟨hsk.mp hs1, rfl⟩)
    · exact .inr (.inr ⟨fun h => hs1 (hsk.mpr h), rfl⟩)

/-- **C134**, skips have a cause: a job has outcome `skip` only if there is a chain of dependencies from it, over
jobs that were not started, to a job that was started and whose command, or the operator, said `skip`. -/
theorem C134_cause {sem : Sem J I E R} (hwf : sem.WF) {s0 sEnd : Session J I E R} (h0 : Reachable sem s0) {b : Bool}
    {out : Session J I E R → J → Result R} (hout : ∀ s j, (out s j).outcome ≠ .none)
    (hr : runJobs sem b out s0 s0.runList = (sEnd, none)) :
    ∀ j ∈ s0.runList, outcomeIn sEnd (sem.id j) = some .skip →
      Chain sem (Starts sem b out s0) (outcomeIn sEnd) s0.runList (fun _ => True) j := by
  have hlive := h0.live hwf
  -- by induction on the number of jobs before it
  have main : ∀ n (pre post : List J) (j : J), pre.length = n → s0.runList = pre ++ j :: post →
      outcomeIn sEnd (sem.id j) = some .skip →
      Chain sem (Starts sem b out s0) (outcomeIn sEnd) s0.runList (fun _ => True) j := by
    intro n
    induction n using Nat.strongRecOn with
    | ind n ih =>
      intro pre post j hn heq ho
      have hj : j ∈ s0.runList := by rw [heq]; simp
      obtain ⟨_, hno⟩ := C134_each hwf h0 hout hr hj
      by_cases hs : Starts sem b out s0 j
      · exact .own hj hs ho
      · rcases hno hs with ⟨_, h⟩ | ⟨⟨d, hd, hk⟩, _⟩ | ⟨_, h⟩
        · rw [ho] at h; simp at h
        · have := hlive.order pre j post heq (.direct, d) ((hwf j _ _).mpr (.inl ⟨rfl, hd⟩))
          obtain ⟨k, hkp, hki⟩ := List.mem_map.mp this
          have hki' : sem.id k = d := hki
          obtain ⟨p1, p2, hpp⟩ := List.append_of_mem hkp
          refine .dep hj hs trivial (k := k) (by rw [hki']; exact hd) ?_
          refine ih p1.length ?_ p1 (p2 ++ j :: post) k rfl ?_ ?_
          · rw [← hn, hpp]; simp
          · rw [heq, hpp]; simp
          · rw [hki']; exact hk
        · rw [ho] at h; simp at h
  intro j hj ho
  obtain ⟨pre, post, heq⟩ := List.append_of_mem hj
  exact main _ pre post j rfl heq ho

/-- **C134**, skips spread: all jobs along a chain of dependencies that leads to a skipped job have outcome `skip`,
unless one of them has the flag fail-on-resource. -/
theorem C134_spread {sem : Sem J I E R} (hwf : sem.WF) {s0 sEnd : Session J I E R} (h0 : Reachable sem s0) {b : Bool}
    {out : Session J I E R → J → Result R} (hout : ∀ s j, (out s j).outcome ≠ .none)
    (hr : runJobs sem b out s0 s0.runList = (sEnd, none)) {j : J}
    (hc : Chain sem (Starts sem b out s0) (outcomeIn sEnd) s0.runList (fun k => sem.failOnResource k = false) j) :
    outcomeIn sEnd (sem.id j) = some .skip := by
  induction hc with
  | own _ _ h => exact h
  | dep hj hs hp hd _ ih =>
    rcases (C134_each hwf h0 hout hr hj).2 hs with ⟨h, _⟩ | ⟨_, h⟩ | ⟨h, _⟩
    · rw [hp] at h; exact absurd h (by simp)
    · exact h
    · exact absurd ⟨_, hd, ih⟩ h

/-- **C134**, nothing else stops a job: a job without requirements that may still be tried is started exactly if
all jobs it depends on passed. -/
theorem C134_started {sem : Sem J I E R} (hwf : sem.WF) {s0 sEnd : Session J I E R} (h0 : Reachable sem s0) {b : Bool}
    {out : Session J I E R → J → Result R} (hout : ∀ s j, (out s j).outcome ≠ .none)
    (hr : runJobs sem b out s0 s0.runList = (sEnd, none)) {j : J} (hj : j ∈ s0.runList)
    (hprog : sem.prog j = .absent) {q0 : JobState J E R} (hq0 : s0.states.lookup (sem.id j) = some q0)
    (hleft : 0 < q0.attempts) :
    Starts sem b out s0 j ↔ ∀ d ∈ sem.direct j, outcomeIn sEnd d = some .pass := by
  refine ⟨fun h => ((C134_each hwf h0 hout hr hj).1 h).2, fun hd => ?_⟩
  obtain ⟨pre, post, s, q, e1, e2, inv, hjr, hq, hf, hdeps, hst, -, -⟩ := moment hwf h0 hout hr hj
  rw [hst]
  have hnd := (h0.live hwf).runNodup
  rw [e1, List.map_append, List.map_cons, List.nodup_append] at hnd
  have hk : known s (sem.id j) = some ⟨q0.result, q0.history, q0.attempts⟩ :=
    known_runJobs pre e2 (fun h => hnd.2.2 _ h _ (by simp) rfl) (by simp [known, hq0])
  have hatt : q.attempts = q0.attempts := by
    simp only [known, hq, Option.map_some, Option.some.injEq, Known.mk.injEq] at hk
    exact hk.2.2
  obtain ⟨a, b', c, ha, hb, hc, hl⟩ := inhibitorList_split hf
  have ea : a = [] := by
    simp only [resourcePart, hprog, Except.ok.injEq] at ha
    exact ha.symm
  have eb : b' = [] := by
    have : directLoop (E := E) (look s.states) (sem.direct j) = .ok [] := by
      refine direct_nil.mpr fun d hdm => ?_
      obtain ⟨p, hp1, _, hp3⟩ := hdeps (.direct, d) ((hwf j _ _).mpr (.inl ⟨rfl, hdm⟩))
      simp only at hp1 hp3
      have := hd d hdm
      obtain ⟨k, o⟩ := p
      rw [outcomeIn_of_look hp3] at this
      simp only [Option.some.injEq] at this
      exact ⟨k, by rw [hp1, this]⟩
    rw [this] at hb
    simp only [Except.ok.injEq] at hb
    exact hb.symm
  have ec : c = [] := by
    refine afterLoop_nil hc fun i hi p hp => ?_
    obtain ⟨p', hp1, hp2, _⟩ := hdeps (.ordering, i) ((hwf j _ _).mpr (.inr (.inr ⟨rfl, hi⟩)))
    simp only at hp1
    rw [hp] at hp1
    simp only [Option.some.injEq] at hp1
    rw [hp1]; exact hp2
  simp [JobState.canStart, hl, ea, eb, ec, hatt, hleft]

theorem mirrorLoop_eq {sem : Sem J I E R} (lk : I → Option (J × Outcome)) {j : J} (hf : sem.failOnResource j = false) :
    ∀ (hs : List (Inhibitor J E)) (acc : Outcome), mirrorLoop sem lk hs acc = outcomeLoop sem lk j hs acc
  | [], _ => rfl
  | h :: hs, acc => by
    simp only [mirrorLoop, outcomeLoop, hf, Bool.false_eq_true, and_false, if_false]
    split
    · exact mirrorLoop_eq lk hf hs acc
    · cases h.job with
      | none => rfl
      | some rj =>
        simp only
        cases lk (sem.id rj) with
        | none => rfl
        | some p => exact mirrorLoop_eq lk hf hs _

/-- **C134**, the older function: for a job without the flag fail-on-resource `run_job_if_possible` does to the
session what running the job and reporting its result through the assistant does, and raises when that raises;
without `update` it leaves the session as it is and returns the same result. -/
theorem C134_older_partial (sem : Sem J I E R) (out : Session J I E R → J → Result R) (s : Session J I E R) (j : J)
    (hf : sem.failOnResource j = false) :
    (ifPossible sem true out s j).1 = considerJob sem false out s j ∧
    ((ifPossible sem false out s j).1.1 = s) ∧
    (∀ r, (ifPossible sem true out s j).2 = some r → (ifPossible sem false out s j) = ((s, none), some r)) := by
  unfold ifPossible considerJob
  cases hq : s.states.lookup (sem.id j) with
  | none => simp
  | some q =>
    simp only
    cases hc : q.canStart with
    | true =>
      simp only [if_true, useJobResult, Bool.false_eq_true, if_false]
      rcases hu : updateResult sem s j (out s j) with ⟨s', _ | x⟩ <;> simp
    | false =>
      simp only [if_true, useJobResult, Bool.false_eq_true, if_false, cannotStartOutcome, mirrorLoop_eq _ hf]
      rcases ho : outcomeLoop sem (look s.states) j q.inhib .notSupported with x | o
      · simp [Except.map]
      · simp only [Except.map]
        rcases hu : updateResult sem s j ⟨o, [], 1⟩ with ⟨s', _ | x⟩ <;> simp

/-! ## Concrete cases -/

def y1 : XJob := { id := 1 }
def y2 : XJob := { id := 2, direct := [1] }
def y3 : XJob := { id := 3, direct := [2], after := [4] }
def y4 : XJob := { id := 4, direct := [5] }
def y5 : XJob := { id := 5 }
def y6 : XJob := { id := 6, direct := [1], resource := true }
def y7' : XJob := { id := 17, requires := some [(6, 5)] }
def y9 : XJob := { id := 9, requires := some [(6, 5)], failRes := true }

def spreadOps : List (Op XJob Nat Nat) :=
  [.add y1, .add y2, .add y3, .add y4, .add y5, .desired [y3, y4] true]

def spreadStart : Session XJob Nat (Nat × Nat) Nat := (runOps exSem emptySession spreadOps).1

/-- Job 1 is skipped, job 5 fails, all others pass. -/
def spreadOut (_ : Session XJob Nat (Nat × Nat) Nat) (j : XJob) : Result Nat :=
  if j.id = 1 then ⟨.skip, [], 0⟩ else if j.id = 5 then ⟨.fail, [], 0⟩ else ⟨.pass, [5], 0⟩

/-- The hypotheses hold; job 2, and so job 3, are skipped because of job 1, and job 4 is not supported because of
job 5. -/
example : Reachable exSem spreadStart ∧ (∀ s j, (spreadOut s j).outcome ≠ .none) ∧
    (runJobs exSem true spreadOut spreadStart spreadStart.runList).2 = none ∧
    ((runJobs exSem true spreadOut spreadStart spreadStart.runList).1.states.map
      fun p => (p.1, p.2.result.outcome)) =
      [(1, .skip), (2, .skip), (3, .skip), (4, .notSupported), (5, .fail)] := by
  refine ⟨?_, ?_, by decide, by decide⟩
  · exact runOps_reachable spreadOps (s := emptySession) (.start (units := []) (by decide)) (by decide) (by decide)
  · intro s j
    unfold spreadOut
    split
    · simp
    · split <;> simp

/-- Job 1 is started, and there is a chain from job 2 to it, as asked for by `C134_spread`. -/
example : Chain exSem (Starts exSem true spreadOut spreadStart)
    (outcomeIn (runJobs exSem true spreadOut spreadStart spreadStart.runList).1) spreadStart.runList
    (fun k => exSem.failOnResource k = false) y2 := by
  have h : spreadStart.runList = [y1, y2, y5, y4, y3] := by decide
  refine .dep (k := y1) (by rw [h]; decide) ?_ (by decide) (by decide) (.own (by rw [h]; decide) ?_ (by decide))
  · rintro ⟨pre, post, s, q, h1, h2, h3, h4⟩
    rw [h] at h1
    obtain ⟨rfl, rfl⟩ := split_unique (p := [y1]) (q := [y5, y4, y3]) (by decide) h1
    have e : s = (runJobs exSem true spreadOut spreadStart [y1]).1 := by rw [h2]
    subst e
    have : ∀ q, (runJobs exSem true spreadOut spreadStart [y1]).1.states.lookup 2 = some q → q.canStart = false := by
      decide
    rw [this q h3] at h4
    simp at h4
  · exact ⟨[], [y2, y5, y4, y3], spreadStart, ⟨y1, [], .empty, [], 3⟩, h, rfl, by decide, by decide⟩

/-- **C134** does not hold for requirements: the comment in the code says that the outcome of a skipped job is
mirrored if any of the inhibitors points to it. The resource job 6 is skipped, because it depends on job 1; job 7,
which requires a resource of it, is not supported, and job 9, which has the flag fail-on-resource, fails, although
nothing is wrong. -/
theorem C134_resource_violated :
    let s := (runOps exSem emptySession [.add y1, .add y6, .add y7', .add y9, .desired [y7', y9] true]).1
    let e := runJobs exSem true spreadOut s s.runList
    e.2 = none ∧ e.1.states.map (fun p => (p.1, p.2.result.outcome)) =
      [(1, .skip), (6, .skip), (17, .notSupported), (9, .fail)] ∧
    ∀ q, (runJobs exSem true spreadOut s [y1, y6]).1.states.lookup 17 = some q →
      q.inhib = [⟨.failedResource, some y6, some (6, 5)⟩] := by decide

/-- **C134** does not hold for the older function: `run_job_if_possible` says `not-supported` for a job with the flag
fail-on-resource whose requirement is not met, and the assistant says `fail`. -/
theorem C134_flag_violated :
    let s := (runOps exSem emptySession [.add y1, .add y6, .add y9, .desired [y9] true]).1
    let m := (runJobs exSem false spreadOut s [y1, y6]).1
    outcomeIn (ifPossible exSem true spreadOut m y9).1.1 9 = some .notSupported ∧
    outcomeIn (considerJob exSem false spreadOut m y9).1 9 = some .fail := by decide

end Verif.Session
