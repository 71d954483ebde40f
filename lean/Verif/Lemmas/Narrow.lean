import Verif.Model.Narrow
import Verif.Lemmas.SuspendCycle
import Verif.Props.Qualifiers

/-! Lemmas about choosing what to run: visiting a solution again, and the invariant of the calls. -/

set_option linter.unusedSectionVars false

namespace Verif.DepMgr

variable {J I : Type} [DecidableEq J] [DecidableEq I]

/-- Between calls the colours are a function of the solution. -/
def Plain (g : Graph J I) (jobs : List J) (st : St J I) : Prop :=
  ∀ i, st.color i = if i ∈ st.solution.map g.id then some .black
    else if i ∈ jobs.map g.id then some .white else none

theorem Plain.of_inv {g : Graph J I} {jobs vis : List J} {st : St J I} (h : Inv g jobs vis st)
    (hg : GrayIs g st []) : Plain g jobs st := by
  intro i
  by_cases hb : i ∈ st.solution.map g.id
  · rw [if_pos hb]; exact (h.black i).mpr hb
  · rw [if_neg hb]
    by_cases hk : i ∈ jobs.map g.id
    · rw [if_pos hk]
      cases hc : st.color i with
      | none => exact absurd hk ((h.known i).mp hc)
      | some c =>
        cases c with
        | white => rfl
        | gray => have := (hg i).mp hc; simp at this
        | black => exact absurd ((h.black i).mp hc) hb
    · rw [if_neg hk]; exact (h.known i).mpr hk

theorem depsLoop_black {g : Graph J I} {jobs : List J} {m : List (I × J)} (hm : MapOK g jobs m) (n : Nat)
    (job : J) (trail : List J) (st : St J I) : ∀ ds : List (DepType × I),
    (∀ d ∈ ds, st.color d.2 = some .black ∧ d.2 ∈ jobs.map g.id) →
    depsLoop m (visit g m (n + 1)) job trail ds st = .ok st := by
  intro ds
  induction ds with
  | nil => intro _; rfl
  | cons d ds ih =>
    intro h
    obtain ⟨ty, i⟩ := d
    obtain ⟨hb, hj⟩ := h (ty, i) (by simp)
    cases hl : m.lookup i with
    | none => exact absurd hj (hm.none' i hl)
    | some next =>
      have hid : g.id next = i := (hm.some' i next hl).2
      have hv : visit g m (n + 1) next (trail ++ [next]) st = .ok st := by
        simp only [visit, hid]
        simp only at hb
        rw [hb]
      simp only [depsLoop, hl, hv]
      exact ih (fun d hd => h d (by simp [hd]))

theorem visit_plain {g : Graph J I} {jobs : List J} {m : List (I × J)} (hm : MapOK g jobs m) (n : Nat)
    {st : St J I} (hp : Plain g jobs st) (q : J) (trail : List J) (hq : q ∈ jobs)
    (hn : g.id q ∉ st.solution.map g.id) (hsub : ∀ s ∈ st.solution, s ∈ jobs)
    (hd : ∀ d ∈ g.deps q, d.2 ∈ st.solution.map g.id) :
    ∃ st', visit g m (n + 2) q trail st = .ok st' ∧ Plain g jobs st' ∧ st'.solution = st.solution ++ [q] := by
  have hw : st.color (g.id q) = some .white := by
    rw [hp, if_neg hn, if_pos (List.mem_map_of_mem hq)]
  have hloop := depsLoop_black hm n q trail (st.paint (g.id q) .gray) (g.deps q) (by
    intro d hdd
    have hi := hd d hdd
    have hne : d.2 ≠ g.id q := fun e => hn (e ▸ hi)
    refine ⟨?_, ?_⟩
    · simp only [St.paint, if_neg hne]
      rw [hp, if_pos hi]
    · obtain ⟨s, hs, he⟩ := List.mem_map.mp hi
      exact List.mem_map.mpr ⟨s, hsub s hs, he⟩)
  refine ⟨⟨((st.paint (g.id q) .gray).paint (g.id q) .black).color, st.solution ++ [q]⟩,
    by rw [visit]; simp only [hw, hloop]; rfl, ?_, rfl⟩
  intro i
  simp only [St.paint, List.map_append, List.map_cons, List.map_nil, List.mem_append, List.mem_singleton]
  by_cases hi : i = g.id q
  · simp [hi]
  · simp only [if_neg hi, hi, or_false]
    exact hp i

theorem solveLoop_plain {g : Graph J I} {jobs : List J} {m : List (I × J)} (hm : MapOK g jobs m) (n : Nat) :
    ∀ (q : List J) (st : St J I), Plain g jobs st → ((st.solution ++ q).map g.id).Nodup →
      DepsFirst g (st.solution ++ q) → (∀ s ∈ st.solution ++ q, s ∈ jobs) →
      ∃ st', solveLoop g m (n + 2) q st = .ok st' ∧ st'.solution = st.solution ++ q := by
  intro q
  induction q with
  | nil => intro st _ _ _ _; exact ⟨st, rfl, by simp⟩
  | cons a q ih =>
    intro st hp hnd hord hsub
    have hna : g.id a ∉ st.solution.map g.id := by
      rw [List.map_append, List.nodup_append] at hnd
      intro h
      exact hnd.2.2 _ h _ (by simp) rfl
    obtain ⟨st1, h1, h2, h3⟩ := visit_plain hm n hp a [a] (hsub a (by simp)) hna
      (fun s hs => hsub s (by simp [hs])) (hord st.solution a q rfl)
    have he : st1.solution ++ q = st.solution ++ a :: q := by rw [h3]; simp
    obtain ⟨st2, h4, h5⟩ := ih st1 h2 (by rw [he]; exact hnd) (by rw [he]; exact hord)
      (by rw [he]; exact hsub)
    exact ⟨st2, by simp only [solveLoop, h1, h4], by rw [h5, he]⟩

/-- Visiting, after some of the jobs, the whole solution gives the solution. -/
theorem resolve_again {g : Graph J I} {A us vs run : List J} (hv : ∀ v ∈ us ++ vs, v ∈ A)
    (h : resolve g A (some (us ++ vs)) = .ok run) : resolve g A (some (us ++ run)) = .ok run := by
  have hspec := resolve_spec g A (some (us ++ vs)) (fun v hvv _ => hv v hvv)
  rw [h] at hspec
  obtain ⟨_, _, hnd, hord, hsub⟩ := hspec
  unfold resolve at h ⊢
  cases hm : getJobMap g A with
  | error e => simp [hm] at h
  | ok m =>
    simp only [hm, Option.getD_some] at h ⊢
    rw [solveLoop_append] at h
    rw [solveLoop_append]
    have hs1 := solveLoop_spec (vis := us) (getJobMap_ok hm) (A.length + 1) us (initSt g A)
      (fun v h => h) (fun v hvv _ => hv v (by simp [hvv])) (initSt_inv g A us) (initSt_gray g A)
      (by
        have : whites g A (initSt g A) ≤ A.length := List.countP_le_length
        omega)
    cases hs : solveLoop g m (A.length + 1) us (initSt g A) with
    | error e => rw [hs] at h; simp at h
    | ok st =>
      rw [hs] at h hs1
      simp only at h ⊢
      cases hs' : solveLoop g m (A.length + 1) vs st with
      | error e => rw [hs'] at h; simp at h
      | ok st' =>
        rw [hs'] at h
        simp only [Except.ok.injEq] at h
        obtain ⟨more, hmore⟩ := solveLoop_grow (A.length + 1) vs st st' hs'
        have hrun : run = st.solution ++ more := by rw [← h, hmore]
        rw [hrun, solveLoop_append, solveLoop_black A.length st.solution st
          (fun u hu => (hs1.1.inv.black _).mpr (List.mem_map_of_mem hu))]
        simp only
        cases hA : A.length with
        | zero =>
          have hAn : A = [] := List.length_eq_zero_iff.mp hA
          have hmn : more = [] := by
            cases more with
            | nil => rfl
            | cons a l =>
              have := (hsub a (by rw [hrun]; simp)).1
              rw [hAn] at this; simp at this
          subst hmn
          simp [solveLoop]
        | succ k =>
          obtain ⟨st2, h1, h2⟩ := solveLoop_plain (getJobMap_ok hm) k more st
            (Plain.of_inv hs1.1.inv hs1.1.gray) (by rw [← hrun]; exact hnd) (by rw [← hrun]; exact hord)
            (by rw [← hrun]; exact fun s hs => (hsub s hs).1)
          rw [show k + 1 + 1 = k + 2 from rfl, h1]
          simp only [h2]

end Verif.DepMgr

namespace Verif.Narrow

open Verif.DepMgr (DepsFirst Reach eq_of_id resolve resolve_congr resolve_again)
open Verif.Session (Session Sem Result updateDesired updateMandatory updateResult Book RepOK Schedulable
  survivors mem_survivors updateDesired_spec repairLoop_spec schedulable_of_order construct
  construct_live)
open Verif.Suspend (repairLoop_sel updateResult_sel)
open Verif.Qualifiers (Qual Prim Kind selectJobs)

variable {J I E R C : Type} [DecidableEq J] [DecidableEq I] [DecidableEq E] [DecidableEq R] [DecidableEq C]

/-- Invariant of the calls. -/
structure Good (sem : Sem J I E R) (sa : SA J I E R C) : Prop where
  book : Book sem sa.sess
  mand : ∀ j ∈ sa.sess.mandatory, j ∈ sa.sess.jobs
  des : ∀ j ∈ sa.sess.desired, j ∈ sa.sess.jobs
  run : ∀ j ∈ sa.sess.runList, j ∈ sa.sess.jobs
  nodup : (sa.sess.runList.map sem.id).Nodup
  order : DepsFirst sem.graph sa.sess.runList
  noplan : sa.plans = [] → sa.sess.mandatory = []

theorem selectJobs_sub (idOf : J → I) (jobs : List J) (qs : List (Qual J I)) :
    ∀ j ∈ selectJobs idOf jobs qs, j ∈ jobs := by
  intro j hj
  unfold selectJobs at hj
  split at hj
  · simp at hj
  · obtain ⟨i, _, hi⟩ := List.mem_filterMap.mp hj
    exact List.mem_of_getElem? hi

/-- What asking for jobs of the session does. -/
theorem updateDesired_run {sem : Sem J I E R} {s : Session J I E R} (hb : Book sem s)
    (hm : ∀ j ∈ s.mandatory, j ∈ s.jobs) (req : List J) (hr : ∀ j ∈ req, j ∈ s.jobs) (b : Bool) :
    ∃ s' problems e, updateDesired sem s req b = (s', problems, e) ∧ Book sem s' ∧ s'.jobs = s.jobs ∧
      s'.mandatory = s.mandatory ∧
      RepOK sem.graph s.jobs ((if b then s.mandatory else []) ++ req) s'.desired s'.runList problems ∧
      resolve sem.graph s.jobs (some s'.desired) = .ok s'.runList := by
  have hc : ∀ v ∈ (if b then s.mandatory else []) ++ req, sem.id v ∈ s.jobs.map sem.id → v ∈ s.jobs := by
    intro v hv _
    rcases List.mem_append.mp hv with h | h
    · cases b with
      | true => exact hm v h
      | false => simp at h
    · exact hr v h
  obtain ⟨r, new, h1, h2, h3⟩ := repairLoop_spec sem.graph
    (s.jobs.length + ((if b then s.mandatory else []) ++ req).length + 1) s.jobs
    ((if b then s.mandatory else []) ++ req) [] (by omega) hb.nodup hc
  have h4 := repairLoop_sel sem.graph _ _ _ _ r hb.nodup hc h1
  have hu : updateDesired sem s req b =
      ((Session.recompute sem { s with desired := r.desired, runList := r.runList }).1, new,
       (Session.recompute sem { s with desired := r.desired, runList := r.runList }).2) := by
    unfold updateDesired
    simp only [h1, h2, List.nil_append]
  refine ⟨_, _, _, hu, Book.recompute (s := { s with desired := r.desired, runList := r.runList })
    ⟨hb.nodup, hb.states, hb.res⟩, rfl, rfl, h3, ?_⟩
  exact resolve_congr (fun v hv => h4.2 v hv) h4.1 (fun x hx => (h3.sub x hx).1) hb.nodup

/-- The run list depends only on the jobs, the mandatory jobs and what is asked for. -/
theorem updateDesired_congr {sem : Sem J I E R} {s t : Session J I E R} (hj : s.jobs = t.jobs)
    (hm : s.mandatory = t.mandatory) (req : List J) (b : Bool) :
    (updateDesired sem s req b).1.runList = (updateDesired sem t req b).1.runList ∧
    (updateDesired sem s req b).1.desired = (updateDesired sem t req b).1.desired := by
  unfold updateDesired
  simp only [hj, hm]
  split <;> exact ⟨rfl, rfl⟩

theorem Good.desire {sem : Sem J I E R} {sa : SA J I E R C} (h : Good sem sa) (req : List J)
    (hr : ∀ j ∈ req, j ∈ sa.sess.jobs) :
    Good sem (desire sem sa req).1 ∧ (desire sem sa req).1.plans = sa.plans ∧
    (desire sem sa req).1.sess.jobs = sa.sess.jobs ∧
    (desire sem sa req).1.sess.mandatory = sa.sess.mandatory ∧
    (desire sem sa req).1.sess.desired = survivors sem.graph sa.sess.jobs (sa.sess.mandatory ++ req) ∧
    resolve sem.graph sa.sess.jobs (some (desire sem sa req).1.sess.desired) =
      .ok (desire sem sa req).1.sess.runList ∧
    (∀ j, j ∈ (desire sem sa req).1.sess.runList ↔
      Reach sem.graph sa.sess.jobs (survivors sem.graph sa.sess.jobs (sa.sess.mandatory ++ req)) j) := by
  obtain ⟨s', problems, e, h1, h2, h3, h4, h5, h6⟩ := updateDesired_run h.book h.mand req hr true
  have hs : (Narrow.desire sem sa req).1 = { sa with sess := s' } := by
    unfold Narrow.desire
    rw [h1]
  rw [hs]
  simp only [if_true] at h5
  have hd : ∀ j ∈ s'.desired, j ∈ sa.sess.jobs := by
    intro j hj
    rw [h5.desired_eq] at hj
    rcases List.mem_append.mp (mem_survivors.mp hj).1 with h' | h'
    · exact h.mand j h'
    · exact hr j h'
  refine ⟨⟨h2, ?_, ?_, ?_, h5.nodup, h5.order, ?_⟩, rfl, h3, h4, h5.desired_eq, h6, ?_⟩
  · show ∀ j ∈ s'.mandatory, j ∈ s'.jobs
    rw [h3, h4]; exact h.mand
  · show ∀ j ∈ s'.desired, j ∈ s'.jobs
    rw [h3]; exact hd
  · show ∀ j ∈ s'.runList, j ∈ s'.jobs
    rw [h3]; exact fun j hj => (h5.sub j hj).1
  · intro hp
    show s'.mandatory = []
    rw [h4]; exact h.noplan hp
  · intro j
    show j ∈ s'.runList ↔ _
    rw [← h5.desired_eq]
    refine ⟨fun hj => (h5.sub j hj).2, fun hj => ?_⟩
    exact Verif.DepMgr.reach_mem_sol h.book.nodup h5.all h5.order (fun s hs => (h5.sub s hs).1) hj

theorem getUnit_ok {sem : Sem J I E R} {sa : SA J I E R C} (h : Good sem sa) {j : J} (hj : j ∈ sa.sess.jobs) :
    getUnit sem sa (sem.id j) = .ok j := by
  unfold getUnit
  cases hf : sa.sess.jobs.find? (fun k => decide (sem.id k = sem.id j)) with
  | none =>
    have := List.find?_eq_none.mp hf j hj
    simp at this
  | some k =>
    have h1 := List.find?_some hf
    have h2 := List.mem_of_find?_eq_some hf
    have : k = j := eq_of_id (g := sem.graph) h.book.nodup h2 hj
      (show sem.id k = sem.id j by simpa using h1)
    rw [this]

/-- The jobs that the list comprehension of `use_alternate_selection` keeps. -/
def kept (sem : Sem J I E R) : List J → Sel I → List J
  | [], _ => []
  | j :: js, sel =>
    if (sel.has (sem.id j)).1 then j :: kept sem js (sel.has (sem.id j)).2 else kept sem js (sel.has (sem.id j)).2

theorem pick_kept {sem : Sem J I E R} {sa : SA J I E R C} (h : Good sem sa) : ∀ (l : List J) (sel : Sel I),
    (∀ j ∈ l, j ∈ sa.sess.jobs) → pick sem sa (l.map sem.id) sel = .ok (kept sem l sel) := by
  intro l
  induction l with
  | nil => intro _ _; rfl
  | cons j l ih =>
    intro sel hl
    have h1 := ih (sel.has (sem.id j)).2 (fun k hk => hl k (by simp [hk]))
    simp only [List.map_cons, pick, kept]
    by_cases hs : (sel.has (sem.id j)).1 = true
    · rw [if_pos hs, if_pos hs, getUnit_ok h (hl j (by simp))]
      simp only [h1]
    · rw [if_neg hs, if_neg hs, h1]

theorem kept_container (sem : Sem J I E R) (ids : List I) : ∀ l : List J,
    kept sem l (.container ids) = l.filter (fun j => decide (sem.id j ∈ ids)) := by
  intro l
  induction l with
  | nil => rfl
  | cons j l ih =>
    simp only [kept, Sel.has, List.filter_cons, ih]

theorem kept_sub (sem : Sem J I E R) : ∀ (l : List J) (sel : Sel I), (kept sem l sel).Sublist l := by
  intro l
  induction l with
  | nil => intro _; exact .refl _
  | cons j l ih =>
    intro sel
    simp only [kept]
    split
    · exact (ih _).cons_cons j
    · exact (ih _).cons j

theorem getJobs_ok {sem : Sem J I E R} {sa : SA J I E R C} (h : Good sem sa) : ∀ (l : List J),
    (∀ j ∈ l, j ∈ sa.sess.jobs) → getJobs sem sa (l.map sem.id) = .ok l := by
  intro l
  induction l with
  | nil => intro _; rfl
  | cons j l ih =>
    intro hl
    have h1 := ih (fun k hk => hl k (by simp [hk]))
    simp only [List.map_cons, getJobs, getUnit_ok h (hl j (by simp)), h1]

theorem alternate_eq {sem : Sem J I E R} {sa : SA J I E R C} (h : Good sem sa) (sel : Sel I) :
    alternate sem sa sel = desire sem sa (kept sem sa.sess.runList sel) := by
  unfold alternate staticTodo
  rw [pick_kept h _ _ h.run]

theorem filter_eq {sem : Sem J I E R} {sa : SA J I E R C} (h : Good sem sa) (cat : J → C) (cats : Sel C) :
    filterCategories sem cat sa cats =
      alternate sem sa (.container (inCategories sem cat sa.sess.runList cats)) := by
  unfold filterCategories
  unfold staticTodo
  rw [getJobs_ok h _ h.run]

theorem kept_jobs {sem : Sem J I E R} {sa : SA J I E R C} (h : Good sem sa) (sel : Sel I) :
    ∀ j ∈ kept sem sa.sess.runList sel, j ∈ sa.sess.jobs :=
  fun j hj => h.run j ((kept_sub sem _ sel).subset hj)

theorem Good.bootTodo {sem : Sem J I E R} {sa : SA J I E R C} (h : Good sem sa) :
    Good sem (bootTodo sem sa).1 ∧ (bootTodo sem sa).1.plans = sa.plans ∧
    (bootTodo sem sa).1.sess.jobs = sa.sess.jobs ∧
    (bootTodo sem sa).1.sess.mandatory = sa.sess.mandatory := by
  obtain ⟨s', problems, e, h1, h2, h3, h4, h5, _⟩ := updateDesired_run h.book h.mand
    (selectJobs sem.id sa.sess.jobs (sa.plans.map (·.boot))) (selectJobs_sub _ _ _) false
  have hs : (Narrow.bootTodo sem sa).1 = { sa with sess := s' } := by
    unfold Narrow.bootTodo
    rw [h1]
  rw [hs]
  simp only [Bool.false_eq_true, if_false, List.nil_append] at h5
  refine ⟨⟨h2, ?_, ?_, ?_, h5.nodup, h5.order, ?_⟩, rfl, h3, h4⟩
  · show ∀ j ∈ s'.mandatory, j ∈ s'.jobs
    rw [h3, h4]; exact h.mand
  · show ∀ j ∈ s'.desired, j ∈ s'.jobs
    rw [h3]
    intro j hj
    rw [h5.desired_eq] at hj
    exact selectJobs_sub _ _ _ j (mem_survivors.mp hj).1
  · show ∀ j ∈ s'.runList, j ∈ s'.jobs
    rw [h3]; exact fun j hj => (h5.sub j hj).1
  · intro hp
    show s'.mandatory = []
    rw [h4]; exact h.noplan hp

theorem updateResult_jobs {sem : Sem J I E R} {s : Session J I E R} (h : Book sem s) (j : J) (r : Result R) :
    ∀ k ∈ s.jobs, k ∈ (updateResult sem s j r).1.jobs := by
  have h1 := (h.observeResult j r).2.2
  unfold Session.updateResult
  split
  · rename_i heq; rw [heq] at h1; exact h1
  · rename_i heq; rw [heq] at h1; exact h1

theorem Good.useResult {sem : Sem J I E R} {sa : SA J I E R C} (h : Good sem sa) (i : I) (r : Result R) :
    Good sem (useResult sem sa i r).1 ∧ (useResult sem sa i r).1.plans = sa.plans ∧
    (useResult sem sa i r).1.sess.mandatory = sa.sess.mandatory ∧
    (useResult sem sa i r).1.sess.runList = sa.sess.runList ∧
    ∀ j ∈ sa.sess.jobs, j ∈ (useResult sem sa i r).1.sess.jobs := by
  unfold Narrow.useResult
  split
  · exact ⟨h, rfl, rfl, rfl, fun _ hj => hj⟩
  · rename_i j _
    obtain ⟨h1, h2, h3⟩ := updateResult_sel sem sa.sess j r
    have h4 := updateResult_jobs h.book j r
    refine ⟨⟨h.book.updateResult j r, ?_, ?_, ?_, ?_, ?_, ?_⟩, rfl, h3, h1, h4⟩
    · intro k hk; rw [h3] at hk; exact h4 k (h.mand k hk)
    · intro k hk; rw [h2] at hk; exact h4 k (h.des k hk)
    · intro k hk; rw [h1] at hk; exact h4 k (h.run k hk)
    · rw [h1]; exact h.nodup
    · rw [h1]; exact h.order
    · intro hp; rw [h3]; exact h.noplan hp

theorem Good.selectPlan {sem : Sem J I E R} {sa : SA J I E R C} (h : Good sem sa) (p : Plan J I C) :
    Good sem (selectPlan sem sa p).1 ∧ (selectPlan sem sa p).1.plans = [p] ∧
    (selectPlan sem sa p).1.sess.jobs = sa.sess.jobs ∧
    (selectPlan sem sa p).1.sess.mandatory = selectJobs sem.id sa.sess.jobs [p.mandatory] := by
  have h0 : Good sem (⟨updateMandatory sa.sess (selectJobs sem.id sa.sess.jobs [p.mandatory]), [p]⟩ : SA J I E R C) :=
    ⟨⟨h.book.nodup, h.book.states, h.book.res⟩, selectJobs_sub _ _ _, h.des, h.run, h.nodup, h.order,
      fun hp => by simp at hp⟩
  obtain ⟨g1, g2, g3, g4, _⟩ := h0.desire sa.sess.desired h.des
  exact ⟨g1, g2, g3, g4⟩

/-- Every call keeps the invariant. -/
theorem Good.call {sem : Sem J I E R} {sa : SA J I E R C} (h : Good sem sa) (cat : J → C) (c : Call J I R C) :
    Good sem (c.run sem cat sa).1 := by
  cases c with
  | selectPlan p => exact (h.selectPlan p).1
  | bootTodo => exact h.bootTodo.1
  | finish => exact (h.desire _ (selectJobs_sub _ _ _)).1
  | removeFilters => exact (h.desire _ (selectJobs_sub _ _ _)).1
  | alternate sel =>
    show Good sem (alternate sem sa sel).1
    rw [alternate_eq h]
    exact (h.desire _ (kept_jobs h sel)).1
  | filter cats =>
    show Good sem (filterCategories sem cat sa cats).1
    rw [filter_eq h, alternate_eq h]
    exact (h.desire _ (kept_jobs h _)).1
  | handPick pats => exact (h.desire _ (selectJobs_sub _ _ _)).1
  | result i r => exact (h.useResult i r).1

theorem Good.start {sem : Sem J I E R} {units : List J} {s : Session J I E R} (h : construct sem units = .ok s) :
    Good sem (⟨s, []⟩ : SA J I E R C) := by
  have hl := construct_live h
  unfold construct at h
  split at h
  · simp at h
  · simp only [Except.ok.injEq] at h
    subst h
    exact ⟨hl.book, by simp, by simp, by simp, by simp, hl.order, fun _ => rfl⟩

end Verif.Narrow
