import Verif.Lemmas.Narrow

/-!
# C77: the jobs that run are the ones that were chosen

For every history of calls, with any arguments and going on after exceptions: what the run list holds after
each way of choosing jobs, that choosing can only take away, that choosing everything changes nothing, that
`remove_all_filters` brings back the list of the test plan, and when mandatory jobs are kept.
-/

set_option linter.unusedSectionVars false

namespace Verif.Narrow

open Verif.DepMgr (DepsFirst Reach DependsOn DepType eq_of_id resolve resolve_congr resolve_again)
open Verif.Session (Session Sem Result updateDesired updateMandatory updateResult Book RepOK Schedulable
  survivors mem_survivors schedulable_of_order construct exSem)
open Verif.Qualifiers (Qual Prim Kind selectJobs)

variable {J I E R C : Type} [DecidableEq J] [DecidableEq I] [DecidableEq E] [DecidableEq R] [DecidableEq C]

/-- The sessions of an assistant: any calls, in any order, after any exceptions. -/
inductive Reached (sem : Sem J I E R) (cat : J → C) : SA J I E R C → Prop
  | start {units s} : construct sem units = .ok s → Reached sem cat ⟨s, []⟩
  | call {sa} (c : Call J I R C) : Reached sem cat sa → Reached sem cat (c.run sem cat sa).1

/-- The jobs that have to run for the jobs in `want`: these, the mandatory jobs that can be scheduled, and
the jobs that they depend on. -/
inductive Needed (sem : Sem J I E R) (s : Session J I E R) (want : J → Prop) : J → Prop
  | wanted {j} : want j → Needed sem s want j
  | mandatory {j} : j ∈ s.mandatory → Schedulable sem.graph s.jobs (sem.id j) → Needed sem s want j
  | dependency {a b} (ty : DepType) : Needed sem s want a → (ty, sem.id b) ∈ sem.depOrder a → b ∈ s.jobs →
      Needed sem s want b

theorem Reached.good {sem : Sem J I E R} {cat : J → C} {sa : SA J I E R C} (h : Reached sem cat sa) :
    Good sem sa := by
  induction h with
  | start h => exact .start h
  | call c _ ih => exact ih.call cat c

theorem Reached.all {sem : Sem J I E R} {cat : J → C} : ∀ (cs : List (Call J I R C)) {sa : SA J I E R C},
    Reached sem cat sa → Reached sem cat (runAll sem cat cs sa) := by
  intro cs
  induction cs with
  | nil => intro sa h; exact h
  | cons c cs ih => intro sa h; exact ih (.call c h)

theorem run_schedulable {sem : Sem J I E R} {sa : SA J I E R C} (h : Good sem sa) :
    ∀ j ∈ sa.sess.runList, Schedulable sem.graph sa.sess.jobs (sem.id j) :=
  schedulable_of_order (g := sem.graph) sa.sess.runList h.order h.run

theorem reach_needed {sem : Sem J I E R} {s : Session J I E R} {req : List J} {want : J → Prop}
    (hw : ∀ j, want j ↔ j ∈ req ∧ Schedulable sem.graph s.jobs (sem.id j)) (j : J) :
    Reach sem.graph s.jobs (survivors sem.graph s.jobs (s.mandatory ++ req)) j ↔ Needed sem s want j := by
  constructor
  · intro h
    induction h with
    | base h =>
      obtain ⟨h1, h2⟩ := mem_survivors.mp h
      rcases List.mem_append.mp h1 with h1 | h1
      · exact .mandatory h1 h2
      · exact .wanted ((hw _).mpr ⟨h1, h2⟩)
    | step _ hd ih =>
      obtain ⟨hb, ty, hty⟩ := hd
      exact .dependency ty ih hty hb
  · intro h
    induction h with
    | wanted h =>
      obtain ⟨h1, h2⟩ := (hw _).mp h
      exact .base (mem_survivors.mpr ⟨by simp [h1], h2⟩)
    | mandatory h1 h2 => exact .base (mem_survivors.mpr ⟨by simp [h1], h2⟩)
    | dependency ty _ hd hb ih => exact .step ih ⟨hb, ty, hd⟩

/-- After a call that asks for `req`: the run list is exactly what `want` needs, each job once, after its
dependencies. -/
structure RunsExactly (sem : Sem J I E R) (s : Session J I E R) (want : J → Prop) (run : List J) : Prop where
  members : ∀ j, j ∈ run ↔ Needed sem s want j
  once : (run.map sem.id).Nodup
  order : ∀ pre j post, run = pre ++ j :: post → ∀ d ∈ sem.depOrder j, ∃ k ∈ pre, sem.id k = d.2

theorem desire_exact {sem : Sem J I E R} {sa : SA J I E R C} (h : Good sem sa) (req : List J)
    (hr : ∀ j ∈ req, j ∈ sa.sess.jobs) {want : J → Prop}
    (hw : ∀ j, want j ↔ j ∈ req ∧ Schedulable sem.graph sa.sess.jobs (sem.id j)) :
    RunsExactly sem sa.sess want (desire sem sa req).1.sess.runList := by
  obtain ⟨g, _, _, _, _, _, hm⟩ := h.desire req hr
  refine ⟨fun j => (hm j).trans (reach_needed hw j), g.nodup, ?_⟩
  intro pre j post he d hd
  have := g.order pre j post he d hd
  exact List.mem_map.mp this

/-- **C77**: choosing among the jobs of the run list (given as a container) leaves exactly the chosen jobs,
the mandatory ones and what these depend on, in an order in which they can run; nothing else about what the
session knows changes. -/
theorem C77_alternate {sem : Sem J I E R} {cat : J → C} {sa : SA J I E R C} (h : Reached sem cat sa)
    (ids : List I) :
    RunsExactly sem sa.sess (fun j => j ∈ sa.sess.runList ∧ sem.id j ∈ ids)
      (alternate sem sa (.container ids)).1.sess.runList ∧
    (alternate sem sa (.container ids)).1.sess.jobs = sa.sess.jobs ∧
    (alternate sem sa (.container ids)).1.sess.mandatory = sa.sess.mandatory ∧
    (alternate sem sa (.container ids)).1.plans = sa.plans := by
  have hg := h.good
  rw [alternate_eq hg]
  obtain ⟨_, h1, h2, h3, _⟩ := hg.desire _ (kept_jobs hg (.container ids))
  refine ⟨desire_exact hg _ (kept_jobs hg _) ?_, h2, h3, h1⟩
  intro j
  rw [kept_container, List.mem_filter, decide_eq_true_eq]
  exact ⟨fun hj => ⟨hj, run_schedulable hg j hj.1⟩, fun hj => hj.1⟩

theorem inCategories_mem {sem : Sem J I E R} (cat : J → C) (cs : List C) (i : I) : ∀ l : List J,
    i ∈ inCategories sem cat l (.container cs) ↔ ∃ j ∈ l, cat j ∈ cs ∧ sem.id j = i := by
  intro l
  induction l with
  | nil => simp [inCategories]
  | cons j l ih =>
    by_cases hc : cat j ∈ cs
    · have he : inCategories sem cat (j :: l) (.container cs) = sem.id j :: inCategories sem cat l (.container cs) :=
        if_pos (decide_eq_true hc)
      rw [he, List.mem_cons, ih]
      constructor
      · rintro (rfl | ⟨k, hk, h1, h2⟩)
        · exact ⟨j, by simp, hc, rfl⟩
        · exact ⟨k, by simp [hk], h1, h2⟩
      · rintro ⟨k, hk, h1, h2⟩
        rcases List.mem_cons.mp hk with rfl | hk
        · exact .inl h2.symm
        · exact .inr ⟨k, hk, h1, h2⟩
    · have he : inCategories sem cat (j :: l) (.container cs) = inCategories sem cat l (.container cs) :=
        if_neg (show ¬ decide (cat j ∈ cs) = true by simpa using hc)
      rw [he, ih]
      constructor
      · rintro ⟨k, hk, h1, h2⟩; exact ⟨k, by simp [hk], h1, h2⟩
      · rintro ⟨k, hk, h1, h2⟩
        rcases List.mem_cons.mp hk with rfl | hk
        · exact absurd h1 hc
        · exact ⟨k, hk, h1, h2⟩

/-- **C77**: choosing categories (given as a container) leaves exactly the jobs of the run list that are
themselves in these categories, the mandatory ones and what these depend on. -/
theorem C77_filter {sem : Sem J I E R} {cat : J → C} {sa : SA J I E R C} (h : Reached sem cat sa)
    (cs : List C) :
    RunsExactly sem sa.sess (fun j => j ∈ sa.sess.runList ∧ cat j ∈ cs)
      (filterCategories sem cat sa (.container cs)).1.sess.runList := by
  have hg := h.good
  rw [filter_eq hg]
  have key := (C77_alternate h (inCategories sem cat sa.sess.runList (.container cs))).1
  have hw : ∀ j, (j ∈ sa.sess.runList ∧ sem.id j ∈ inCategories sem cat sa.sess.runList (.container cs)) ↔
      (j ∈ sa.sess.runList ∧ cat j ∈ cs) := by
    intro j
    rw [inCategories_mem]
    constructor
    · rintro ⟨hj, k, hk, h1, h2⟩
      have : k = j := eq_of_id (g := sem.graph) hg.nodup hk hj h2
      subst this
      exact ⟨hj, h1⟩
    · rintro ⟨hj, hc⟩; exact ⟨hj, j, hj, hc, rfl⟩
  have hf : (fun j => j ∈ sa.sess.runList ∧ sem.id j ∈ inCategories sem cat sa.sess.runList (.container cs)) =
      (fun j => j ∈ sa.sess.runList ∧ cat j ∈ cs) := funext fun j => propext (hw j)
  rwa [hf] at key

/-! ## Calls that choose -/

/-- The calls after which the mandatory jobs are included. -/
def Call.chooses : Call J I R C → Bool
  | .bootTodo => false
  | .result _ _ => false
  | _ => true

theorem chooses_desire {sem : Sem J I E R} {cat : J → C} {sa : SA J I E R C} (h : Good sem sa)
    (c : Call J I R C) (hc : c.chooses = true) : ∃ sa0 req, Good sem sa0 ∧ (∀ j ∈ req, j ∈ sa0.sess.jobs) ∧
      (c.run sem cat sa).1 = (desire sem sa0 req).1 := by
  cases c with
  | selectPlan p =>
    exact ⟨⟨updateMandatory sa.sess (selectJobs sem.id sa.sess.jobs [p.mandatory]), [p]⟩, _,
      ⟨⟨h.book.nodup, h.book.states, h.book.res⟩, selectJobs_sub _ _ _, h.des, h.run, h.nodup, h.order,
      fun hp => by simp at hp⟩, h.des, rfl⟩
  | bootTodo => simp [Call.chooses] at hc
  | finish => exact ⟨sa, _, h, selectJobs_sub _ _ _, rfl⟩
  | removeFilters => exact ⟨sa, _, h, selectJobs_sub _ _ _, rfl⟩
  | alternate sel => exact ⟨sa, _, h, kept_jobs h sel, by rw [← alternate_eq h]; rfl⟩
  | filter cats =>
    exact ⟨sa, _, h, kept_jobs h _, by rw [← alternate_eq h, ← filter_eq h]; rfl⟩
  | handPick pats => exact ⟨sa, _, h, selectJobs_sub _ _ _, rfl⟩
  | result i r => simp [Call.chooses] at hc

/-- **C77**: after a call that chooses jobs the run list has every mandatory job that can be scheduled. -/
theorem C77_mandatory_stay {sem : Sem J I E R} {cat : J → C} {sa : SA J I E R C} (h : Reached sem cat sa)
    (c : Call J I R C) (hc : c.chooses = true) :
    ∀ j ∈ (c.run sem cat sa).1.sess.mandatory,
      Schedulable sem.graph (c.run sem cat sa).1.sess.jobs (sem.id j) → j ∈ (c.run sem cat sa).1.sess.runList := by
  obtain ⟨sa0, req, h1, h2, h3⟩ := chooses_desire (cat := cat) h.good c hc
  rw [h3]
  obtain ⟨_, _, e1, e2, _, _, hm⟩ := h1.desire req h2
  intro j hj hs
  rw [e1] at hs
  rw [e2] at hj
  exact (hm j).mpr (.base (mem_survivors.mpr ⟨by simp [hj], hs⟩))

/-- **C77**: choosing raises no exception if the `requires` programs of the known jobs can be parsed. -/
theorem C77_no_exception {sem : Sem J I E R} (hwf : sem.WF) {cat : J → C} {sa : SA J I E R C}
    (h : Reached sem cat sa) (hbad : ∀ j ∈ sa.sess.jobs, sem.prog j ≠ .bad) (c : Call J I R C)
    (hc : c.chooses = true) : (c.run sem cat sa).2 = none := by
  have hg := h.good
  obtain ⟨sa0, req, h1, h2, h3, hjobs⟩ : ∃ sa0 req, Good sem sa0 ∧ (∀ j ∈ req, j ∈ sa0.sess.jobs) ∧
      c.run sem cat sa = desire sem sa0 req ∧ sa0.sess.jobs = sa.sess.jobs := by
    cases c with
    | selectPlan p =>
      exact ⟨⟨updateMandatory sa.sess (selectJobs sem.id sa.sess.jobs [p.mandatory]), [p]⟩, _,
        ⟨⟨hg.book.nodup, hg.book.states, hg.book.res⟩, selectJobs_sub _ _ _, hg.des, hg.run, hg.nodup, hg.order,
        fun hp => by simp at hp⟩, hg.des, rfl, rfl⟩
    | bootTodo => simp [Call.chooses] at hc
    | finish => exact ⟨sa, _, hg, selectJobs_sub _ _ _, rfl, rfl⟩
    | removeFilters => exact ⟨sa, _, hg, selectJobs_sub _ _ _, rfl, rfl⟩
    | alternate sel => exact ⟨sa, _, hg, kept_jobs hg sel, by rw [← alternate_eq hg]; rfl, rfl⟩
    | filter cats =>
      exact ⟨sa, _, hg, kept_jobs hg _, by rw [← alternate_eq hg, ← filter_eq hg]; rfl, rfl⟩
    | handPick pats => exact ⟨sa, _, hg, selectJobs_sub _ _ _, rfl, rfl⟩
    | result i r => simp [Call.chooses] at hc
  rw [h3]
  unfold desire
  obtain ⟨d, run, problems, hr, he⟩ := Session.updateDesired_spec h1.book req true (by
    intro v hv _
    rcases List.mem_append.mp hv with hv | hv
    · exact h1.mand v hv
    · exact h2 v hv)
  rw [he]
  dsimp only
  have hsub : ∀ j ∈ run, j ∈ sa0.sess.jobs := fun j hj => (hr.sub j hj).1
  rw [Session.recompute_total hwf (s := { sa0.sess with desired := d, runList := run })
    ⟨h1.book.nodup, h1.book.states, h1.book.res⟩ hsub hr.nodup hr.order
    (fun j hj => hbad j (hjobs ▸ hsub j hj))]
  rfl

theorem needed_sub {sem : Sem J I E R} {sa : SA J I E R C} (hg : Good sem sa)
    (hfull : ∀ j ∈ sa.sess.mandatory, Schedulable sem.graph sa.sess.jobs (sem.id j) → j ∈ sa.sess.runList)
    {want : J → Prop} (hw : ∀ j, want j → j ∈ sa.sess.runList) {j : J} (h : Needed sem sa.sess want j) :
    j ∈ sa.sess.runList := by
  induction h with
  | wanted h => exact hw _ h
  | mandatory h1 h2 => exact hfull _ h1 h2
  | @dependency a b ty _ hd hb ih =>
    obtain ⟨pre, post, he⟩ := List.append_of_mem ih
    have := hg.order pre a post he (ty, sem.id b) hd
    obtain ⟨k, hk, hi⟩ := List.mem_map.mp this
    have hk' : k ∈ sa.sess.runList := by rw [he]; simp [hk]
    have : k = b := eq_of_id (g := sem.graph) hg.book.nodup (hg.run k hk') hb hi
    exact this ▸ hk'

/-- **C77**: choosing again, by jobs or by categories, with any kind of argument, only takes jobs away. -/
theorem C77_never_grows {sem : Sem J I E R} {cat : J → C} {sa : SA J I E R C} (h : Reached sem cat sa)
    (c : Call J I R C) (hc : c.chooses = true) :
    (∀ sel, ∀ j ∈ (alternate sem (c.run sem cat sa).1 sel).1.sess.runList,
      j ∈ (c.run sem cat sa).1.sess.runList) ∧
    (∀ cats, ∀ j ∈ (filterCategories sem cat (c.run sem cat sa).1 cats).1.sess.runList,
      j ∈ (c.run sem cat sa).1.sess.runList) := by
  have hfull := C77_mandatory_stay h c hc
  have hg := (h.call c).good
  generalize (c.run sem cat sa).1 = sb at hfull hg ⊢
  have key : ∀ sel, ∀ j ∈ (alternate sem sb sel).1.sess.runList, j ∈ sb.sess.runList := by
    intro sel j hj
    rw [alternate_eq hg] at hj
    have := ((desire_exact hg _ (kept_jobs hg sel)
      (want := fun j => j ∈ kept sem sb.sess.runList sel ∧ Schedulable sem.graph sb.sess.jobs (sem.id j))
      (fun j => Iff.rfl)).members j).mp hj
    exact needed_sub hg hfull (fun k hk => (kept_sub sem _ sel).subset hk.1) this
  refine ⟨key, fun cats => ?_⟩
  rw [filter_eq hg]
  exact key _

/-- **C77**: choosing everything that is in the run list changes nothing, not even the order. -/
theorem C77_everything {sem : Sem J I E R} {cat : J → C} {sa : SA J I E R C} (h : Reached sem cat sa)
    (c : Call J I R C) (hc : c.chooses = true) (ids : List I)
    (hi : ∀ j ∈ (c.run sem cat sa).1.sess.runList, sem.id j ∈ ids) :
    (alternate sem (c.run sem cat sa).1 (.container ids)).1.sess.runList = (c.run sem cat sa).1.sess.runList := by
  have hg := (h.call c).good
  rw [alternate_eq hg, kept_container]
  rw [List.filter_eq_self.mpr (fun j hj => decide_eq_true (hi j hj))]
  have hsched := run_schedulable hg
  obtain ⟨sa0, req, h1, h2, h3⟩ := chooses_desire (cat := cat) h.good c hc
  rw [h3] at hg hsched ⊢
  obtain ⟨_, _, e1, e2, e3, e4, _⟩ := h1.desire req h2
  generalize (desire sem sa0 req).1 = sb at hg hsched e1 e2 e3 e4 ⊢
  obtain ⟨_, _, _, _, f3, f4, _⟩ := hg.desire sb.sess.runList hg.run
  have hsplit : survivors sem.graph sb.sess.jobs (sb.sess.mandatory ++ sb.sess.runList) =
      survivors sem.graph sb.sess.jobs sb.sess.mandatory ++ sb.sess.runList := by
    unfold survivors
    rw [List.filter_append]
    congr 1
    rw [List.filter_eq_self]
    intro j hj
    exact @decide_eq_true _ (Classical.propDecidable _) (hsched j hj)
  have hd : sb.sess.desired = survivors sem.graph sb.sess.jobs sb.sess.mandatory ++
      survivors sem.graph sb.sess.jobs req := by
    rw [e3, e1, e2]
    unfold survivors
    rw [List.filter_append]
  rw [f3, hsplit] at f4
  rw [← e1, hd] at e4
  have hv : ∀ v ∈ survivors sem.graph sb.sess.jobs sb.sess.mandatory ++ survivors sem.graph sb.sess.jobs req,
      v ∈ sb.sess.jobs := by rw [← hd]; exact hg.des
  have := resolve_again hv e4
  rw [this] at f4
  exact (Except.ok.inj f4).symm

/-- **C77** (partial: when the test plan does not change the category of a job that is going to run, see
`C77_categories_violated`).  Choosing all the categories that `get_participating_categories` returns changes
nothing. -/
theorem C77_all_categories_partial {sem : Sem J I E R} {cat : J → C} {sa : SA J I E R C} (h : Reached sem cat sa)
    (c : Call J I R C) (hc : c.chooses = true) (p : Plan J I C) (ps : List (Plan J I C))
    (hp : (c.run sem cat sa).1.plans = p :: ps)
    (hcat : ∀ j ∈ (c.run sem cat sa).1.sess.runList, p.category j = cat j) :
    ∃ cs, participating (c.run sem cat sa).1 = .ok cs ∧
      (filterCategories sem cat (c.run sem cat sa).1 (.container cs)).1.sess.runList =
        (c.run sem cat sa).1.sess.runList := by
  refine ⟨(c.run sem cat sa).1.sess.runList.map p.category, by unfold participating; rw [hp], ?_⟩
  rw [filter_eq (h.call c).good]
  apply C77_everything h c hc
  intro j hj
  rw [inCategories_mem]
  exact ⟨j, hj, List.mem_map.mpr ⟨j, hj, hcat j hj⟩, rfl⟩

theorem needed_none {sem : Sem J I E R} {s : Session J I E R} (hm : s.mandatory = []) {want : J → Prop}
    (hw : ∀ j, ¬ want j) (j : J) : ¬ Needed sem s want j := by
  intro h
  induction h with
  | wanted h => exact hw _ h
  | mandatory h _ => rw [hm] at h; simp at h
  | dependency _ _ _ _ ih => exact ih

theorem nothing {sem : Sem J I E R} {s : Session J I E R} (hm : s.mandatory = []) {want : J → Prop} {run : List J}
    (h : RunsExactly sem s want run) (hw : ∀ j, ¬ want j) : run = [] := by
  cases run with
  | nil => rfl
  | cons j l => exact absurd ((h.members j).mp (by simp)) (needed_none hm hw j)

/-- **C77** is violated by overrides of categories: when the test plan moves all the jobs into other
categories, choosing all the categories that `get_participating_categories` returns leaves nothing to run,
because `filter_jobs_by_categories` looks at the categories that the jobs had before. -/
theorem C77_categories_violated {sem : Sem J I E R} {cat : J → C} {sa : SA J I E R C} (h : Reached sem cat sa)
    (hm : sa.sess.mandatory = []) (p : Plan J I C) (ps : List (Plan J I C)) (hp : sa.plans = p :: ps)
    (hcat : ∀ j ∈ sa.sess.runList, ∀ k ∈ sa.sess.runList, p.category k ≠ cat j) :
    ∃ cs, participating sa = .ok cs ∧ (filterCategories sem cat sa (.container cs)).1.sess.runList = [] := by
  refine ⟨sa.sess.runList.map p.category, by unfold participating; rw [hp], ?_⟩
  apply nothing hm (C77_filter h _)
  rintro j ⟨hj, hc⟩
  obtain ⟨k, hk, he⟩ := List.mem_map.mp hc
  exact hcat j hj k hk he

/-! ## What the argument may be -/

/-- **C77**: identifiers that are not in the run list have no effect, whether the session knows the job or
not: no `KeyError` is raised (against the documentation of `use_alternate_selection`), and the job is not
added (against "any job present in the session can be used"). -/
theorem C77_others_ignored {sem : Sem J I E R} {cat : J → C} {sa : SA J I E R C} (h : Reached sem cat sa)
    (ids : List I) :
    alternate sem sa (.container ids) =
      alternate sem sa (.container (ids.filter fun i => decide (i ∈ staticTodo sem sa))) ∧
    ∀ i, (alternate sem sa (.container ids)).2 ≠ some (.keyError i) := by
  have hg := h.good
  rw [alternate_eq hg, alternate_eq hg, kept_container, kept_container]
  constructor
  · congr 1
    apply List.filter_congr
    intro j hj
    rw [decide_eq_decide, List.mem_filter, decide_eq_true_eq]
    exact ⟨fun h => ⟨h, List.mem_map_of_mem hj⟩, fun h => h.1⟩
  · intro i
    unfold desire
    cases (updateDesired sem sa.sess _ true).2.2 <;> simp

theorem cons_sublist_idx (i : I) (is ids : List I) (h : i ∈ ids) :
    (i :: is).Sublist ids ↔ is.Sublist (ids.drop (ids.idxOf i + 1)) := by
  induction ids with
  | nil => simp at h
  | cons a ids ih =>
    by_cases ha : a = i
    · subst ha
      simp
    · have hi : i ∈ ids := by
        rcases List.mem_cons.mp h with rfl | h
        · exact absurd rfl ha
        · exact h
      rw [List.idxOf_cons_ne _ ha, List.drop_succ_cons, ← ih hi]
      constructor
      · intro hs
        cases hs with
        | cons _ hs => exact hs
        | cons_cons _ hs => exact absurd rfl ha
      · intro hs; exact hs.cons a

theorem kept_nothing (sem : Sem J I E R) : ∀ l : List J, kept sem l (.iterator []) = [] := by
  intro l
  induction l with
  | nil => rfl
  | cons j l ih =>
    simp only [kept, Sel.has, List.not_mem_nil, decide_false, Bool.false_eq_true, if_false, List.drop_nil]
    exact ih

theorem kept_iterator (sem : Sem J I E R) : ∀ (l : List J) (ids : List I),
    ∃ n, kept sem l (.iterator ids) = l.take n ∧ ((l.take n).map sem.id).Sublist ids ∧
      (n < l.length → ¬ ((l.take (n + 1)).map sem.id).Sublist ids) := by
  intro l
  induction l with
  | nil => intro ids; exact ⟨0, rfl, by simp, by simp⟩
  | cons j l ih =>
    intro ids
    by_cases hj : sem.id j ∈ ids
    · obtain ⟨n, h1, h2, h3⟩ := ih (ids.drop (ids.idxOf (sem.id j) + 1))
      refine ⟨n + 1, ?_, ?_, ?_⟩
      · simp only [kept, Sel.has, hj, decide_true, if_true, List.take_succ_cons, h1]
      · rw [List.take_succ_cons, List.map_cons, cons_sublist_idx _ _ _ hj]; exact h2
      · intro hn
        rw [List.take_succ_cons, List.map_cons, cons_sublist_idx _ _ _ hj]
        exact h3 (by simpa using hn)
    · refine ⟨0, ?_, by simp, ?_⟩
      · simp only [kept, Sel.has, hj, decide_false, Bool.false_eq_true, if_false, List.take_zero]
        rw [List.drop_eq_nil_of_le (by have := List.idxOf_eq_length hj; omega)]
        exact kept_nothing sem l
      · intro _ hs
        simp only [Nat.zero_add, List.take_succ_cons, List.take_zero, List.map_cons, List.map_nil,
          List.singleton_sublist] at hs
        exact hj hs

/-- **C77** for an iterator, which the annotation `Iterable[str]` admits: looking into it consumes it, so
the jobs that are chosen are only the longest beginning of the run list whose ids come in this order. -/
theorem C77_iterator_partial {sem : Sem J I E R} {cat : J → C} {sa : SA J I E R C} (h : Reached sem cat sa)
    (ids : List I) : ∃ n, ((sa.sess.runList.take n).map sem.id).Sublist ids ∧
      (n < sa.sess.runList.length → ¬ ((sa.sess.runList.take (n + 1)).map sem.id).Sublist ids) ∧
      RunsExactly sem sa.sess (fun j => j ∈ sa.sess.runList.take n)
        (alternate sem sa (.iterator ids)).1.sess.runList := by
  have hg := h.good
  obtain ⟨n, h1, h2, h3⟩ := kept_iterator sem sa.sess.runList ids
  refine ⟨n, h2, h3, ?_⟩
  rw [alternate_eq hg]
  apply desire_exact hg _ (kept_jobs hg _)
  intro j
  rw [h1]
  exact ⟨fun hj => ⟨hj, run_schedulable hg j (List.mem_of_mem_take hj)⟩, fun hj => hj.1⟩

/-- **C77** is violated by iterators: unless the first job of the run list is chosen, none is. -/
theorem C77_iterator_violated {sem : Sem J I E R} {cat : J → C} {sa : SA J I E R C} (h : Reached sem cat sa)
    (hm : sa.sess.mandatory = []) (j : J) (l : List J) (hr : sa.sess.runList = j :: l) (ids : List I)
    (hj : sem.id j ∉ ids) : (alternate sem sa (.iterator ids)).1.sess.runList = [] := by
  obtain ⟨n, h1, _, h3⟩ := C77_iterator_partial h ids
  have hn : n = 0 := by
    cases n with
    | zero => rfl
    | succ n =>
      rw [hr, List.take_succ_cons, List.map_cons] at h1
      exact absurd (h1.subset (by simp)) hj
  subst hn
  apply nothing hm h3
  intro k hk
  simp at hk

/-! ## Picking by hand and by plan -/

theorem mem_selectJobs {jobs : List J} {idOf : J → I} (hid : (jobs.map idOf).Nodup) (qs : List (Qual J I)) (j : J) :
    j ∈ selectJobs idOf jobs qs ↔ j ∈ jobs ∧ (∃ p ∈ Qualifiers.flatPrimitives qs, Qualifiers.Includes idOf p j) ∧
      ¬ ∃ p ∈ Qualifiers.flatPrimitives qs, Qualifiers.Excludes idOf p j := by
  obtain ⟨sel, h1, h2, _, _⟩ := Qualifiers.C13_select_jobs idOf jobs hid qs
  have hm : ∀ k, k ∈ selectJobs idOf jobs qs ↔ ∃ i ∈ sel, jobs[i]? = some k := by
    intro k
    have : k ∈ selectJobs idOf jobs qs ↔ some k ∈ (selectJobs idOf jobs qs).map some := by simp
    rw [this, h1, List.mem_map]
  rw [hm]
  constructor
  · rintro ⟨i, hi, hk⟩
    obtain ⟨k, hk', h3, h4⟩ := (h2 i).1 hi
    rw [hk] at hk'
    cases hk'
    exact ⟨List.mem_of_getElem? hk, h3, h4⟩
  · rintro ⟨hj, h3, h4⟩
    obtain ⟨i, hi⟩ := List.mem_iff_getElem?.1 hj
    exact ⟨i, (h2 i).2 ⟨j, hi, h3, h4⟩, hi⟩

/-- **C77**: after picking by hand, exactly these run: the jobs of the session that some pattern matches and that
can be scheduled, the mandatory ones and what these depend on. -/
theorem C77_hand_pick {sem : Sem J I E R} {cat : J → C} {sa : SA J I E R C} (h : Reached sem cat sa)
    (pats : List (J → Bool)) :
    RunsExactly sem sa.sess
      (fun j => j ∈ sa.sess.jobs ∧ (∃ f ∈ pats, f j = true) ∧ Schedulable sem.graph sa.sess.jobs (sem.id j))
      (handPick sem sa pats).1.sess.runList := by
  have hg := h.good
  refine desire_exact hg _ (selectJobs_sub _ _ _) fun j => ?_
  have hf : ∀ p : Prim J I, p ∈ Qualifiers.flatPrimitives (pats.map fun f => Qual.prim ⟨true, Kind.other f⟩) ↔
      ∃ f ∈ pats, p = ⟨true, .other f⟩ := by
    intro p
    induction pats with
    | nil => simp [Qualifiers.flatPrimitives]
    | cons f pats ih =>
      simp only [List.map_cons, Qualifiers.flatPrimitives, Qualifiers.Qual.primitives, List.mem_append, ih,
        List.not_mem_nil, or_false, List.mem_cons, exists_eq_or_imp]
  rw [mem_selectJobs hg.book.nodup]
  constructor
  · rintro ⟨h1, ⟨f, hf1, h2⟩, h3⟩
    refine ⟨⟨h1, ⟨_, (hf _).2 ⟨f, hf1, rfl⟩, h2, rfl⟩, ?_⟩, h3⟩
    rintro ⟨p, hp, _, h5⟩
    obtain ⟨g, _, rfl⟩ := (hf p).1 hp
    cases h5
  · rintro ⟨⟨h1, ⟨p, hp, h2, _⟩, _⟩, h3⟩
    obtain ⟨f, hf1, rfl⟩ := (hf p).1 hp
    exact ⟨h1, ⟨f, hf1, h2⟩, h3⟩

/-- **C77**: after `finish_bootstrap` and `remove_all_filters`, exactly these run: the jobs of the session that the
test plans include and do not exclude and that can be scheduled, the mandatory ones and what these depend on. -/
theorem C77_plan {sem : Sem J I E R} {cat : J → C} {sa : SA J I E R C} (h : Reached sem cat sa) :
    RunsExactly sem sa.sess
      (fun j => j ∈ sa.sess.jobs ∧
        (∃ q ∈ sa.plans, ∃ p ∈ q.incl.primitives, Qualifiers.Includes sem.id p j) ∧
        (¬ ∃ q ∈ sa.plans, ∃ p ∈ q.incl.primitives, Qualifiers.Excludes sem.id p j) ∧
        Schedulable sem.graph sa.sess.jobs (sem.id j))
      (Call.run sem cat sa .removeFilters).1.sess.runList ∧
    Call.run sem cat sa .removeFilters = Call.run sem cat sa .finish := by
  have hg := h.good
  refine ⟨desire_exact hg _ (selectJobs_sub _ _ _) fun j => ?_, rfl⟩
  have hf : ∀ P : Prim J I → Prop, (∃ p ∈ Qualifiers.flatPrimitives (sa.plans.map (·.incl)), P p) ↔
      ∃ q ∈ sa.plans, ∃ p ∈ q.incl.primitives, P p := by
    intro P
    induction sa.plans with
    | nil => simp [Qualifiers.flatPrimitives]
    | cons q qs ih =>
      simp only [List.map_cons, Qualifiers.flatPrimitives, List.mem_append, or_and_right, exists_or, ih, List.mem_cons,
        exists_eq_or_imp, exists_eq_left]
  rw [mem_selectJobs hg.book.nodup, hf, hf]
  constructor
  · rintro ⟨h1, h2, h3, h4⟩; exact ⟨⟨h1, h2, h3⟩, h4⟩
  · rintro ⟨⟨h1, h2, h3⟩, h4⟩; exact ⟨h1, h2, h3, h4⟩

/-- **C77**: a result for a job that the session does not know is refused and changes nothing. -/
theorem C77_unknown {sem : Sem J I E R} {sa : SA J I E R C} (i : I) (r : Result R)
    (hi : ∀ j ∈ sa.sess.jobs, sem.id j ≠ i) : useResult sem sa i r = (sa, some (.keyError i)) := by
  have : sa.sess.jobs.find? (fun j => decide (sem.id j = i)) = none := by
    rw [List.find?_eq_none]
    intro j hj
    simpa using hi j hj
  unfold useResult getUnit
  rw [this]

theorem inCategories_nothing (sem : Sem J I E R) (cat : J → C) : ∀ l : List J,
    inCategories sem cat l (.iterator []) = [] := by
  intro l
  induction l with
  | nil => rfl
  | cons j l ih =>
    simp only [inCategories, Sel.has, List.not_mem_nil, decide_false, Bool.false_eq_true, if_false, List.drop_nil]
    exact ih

theorem inCategories_iterator (sem : Sem J I E R) (cat : J → C) : ∀ (l : List J) (cs : List C),
    ∃ n, inCategories sem cat l (.iterator cs) = (l.take n).map sem.id ∧ ((l.take n).map cat).Sublist cs ∧
      (n < l.length → ¬ ((l.take (n + 1)).map cat).Sublist cs) := by
  intro l
  induction l with
  | nil => intro cs; exact ⟨0, rfl, by simp, by simp⟩
  | cons j l ih =>
    intro cs
    by_cases hj : cat j ∈ cs
    · obtain ⟨n, h1, h2, h3⟩ := ih (cs.drop (cs.idxOf (cat j) + 1))
      refine ⟨n + 1, ?_, ?_, ?_⟩
      · simp only [inCategories, Sel.has, hj, decide_true, if_true, List.take_succ_cons, List.map_cons, h1]
      · rw [List.take_succ_cons, List.map_cons, cons_sublist_idx _ _ _ hj]; exact h2
      · intro hn
        rw [List.take_succ_cons, List.map_cons, cons_sublist_idx _ _ _ hj]
        exact h3 (by simpa using hn)
    · refine ⟨0, ?_, by simp, ?_⟩
      · simp only [inCategories, Sel.has, hj, decide_false, Bool.false_eq_true, if_false, List.take_zero, List.map_nil]
        rw [List.drop_eq_nil_of_le (by have := List.idxOf_eq_length hj; omega)]
        exact inCategories_nothing sem cat l
      · intro _ hs
        simp only [Nat.zero_add, List.take_succ_cons, List.take_zero, List.map_cons, List.map_nil,
          List.singleton_sublist] at hs
        exact hj hs

/-- **C77** for an iterator of categories: only the longest beginning of the run list whose categories come in this
order in the iterator is kept — one occurrence of a category is good for one job. -/
theorem C77_filter_iterator_partial {sem : Sem J I E R} {cat : J → C} {sa : SA J I E R C} (h : Reached sem cat sa)
    (cs : List C) : ∃ n, ((sa.sess.runList.take n).map cat).Sublist cs ∧
      (n < sa.sess.runList.length → ¬ ((sa.sess.runList.take (n + 1)).map cat).Sublist cs) ∧
      RunsExactly sem sa.sess (fun j => j ∈ sa.sess.runList.take n)
        (filterCategories sem cat sa (.iterator cs)).1.sess.runList := by
  have hg := h.good
  obtain ⟨n, h1, h2, h3⟩ := inCategories_iterator sem cat sa.sess.runList cs
  refine ⟨n, h2, h3, ?_⟩
  rw [filter_eq hg, h1]
  have key := (C77_alternate h ((sa.sess.runList.take n).map sem.id)).1
  have hf : (fun j => j ∈ sa.sess.runList ∧ sem.id j ∈ (sa.sess.runList.take n).map sem.id) =
      (fun j => j ∈ sa.sess.runList.take n) := by
    funext j
    apply propext
    constructor
    · rintro ⟨hj, hi⟩
      obtain ⟨k, hk, he⟩ := List.mem_map.1 hi
      have : k = j := eq_of_id (g := sem.graph) hg.nodup (List.mem_of_mem_take hk) hj he
      exact this ▸ hk
    · intro hj; exact ⟨List.mem_of_mem_take hj, List.mem_map_of_mem hj⟩
  rwa [hf] at key

/-! ## Bringing back the test plan -/

/-- The calls other than the selection of a test plan. -/
def Call.keepsPlan : Call J I R C → Bool
  | .selectPlan _ => false
  | _ => true

theorem keeps {sem : Sem J I E R} {cat : J → C} {sa : SA J I E R C} (hg : Good sem sa) (c : Call J I R C)
    (hc : c.keepsPlan = true) : (c.run sem cat sa).1.plans = sa.plans ∧
      (c.run sem cat sa).1.sess.mandatory = sa.sess.mandatory ∧
      ∀ j ∈ sa.sess.jobs, j ∈ (c.run sem cat sa).1.sess.jobs := by
  have hd : ∀ req, (∀ j ∈ req, j ∈ sa.sess.jobs) → (desire sem sa req).1.plans = sa.plans ∧
      (desire sem sa req).1.sess.mandatory = sa.sess.mandatory ∧
      ∀ j ∈ sa.sess.jobs, j ∈ (desire sem sa req).1.sess.jobs := by
    intro req hr
    obtain ⟨_, e1, e2, e3, _⟩ := hg.desire req hr
    exact ⟨e1, e3, fun j hj => by rw [e2]; exact hj⟩
  cases c with
  | selectPlan p => simp [Call.keepsPlan] at hc
  | bootTodo =>
    obtain ⟨_, e1, e2, e3⟩ := hg.bootTodo
    exact ⟨e1, e3, fun j hj => by show j ∈ (bootTodo sem sa).1.sess.jobs; rw [e2]; exact hj⟩
  | finish => exact hd _ (selectJobs_sub _ _ _)
  | removeFilters => exact hd _ (selectJobs_sub _ _ _)
  | alternate sel =>
    have := hd _ (kept_jobs hg sel)
    rw [← alternate_eq hg] at this
    exact this
  | filter cats =>
    have := hd _ (kept_jobs hg (.container (inCategories sem cat sa.sess.runList cats)))
    rw [← alternate_eq hg, ← filter_eq hg] at this
    exact this
  | handPick pats => exact hd _ (selectJobs_sub _ _ _)
  | result i r =>
    obtain ⟨_, e1, e2, _, e4⟩ := hg.useResult i r
    exact ⟨e1, e2, e4⟩

theorem keeps_all {sem : Sem J I E R} {cat : J → C} : ∀ (cs : List (Call J I R C)) {sa : SA J I E R C},
    Good sem sa → (∀ c ∈ cs, c.keepsPlan = true) → (runAll sem cat cs sa).plans = sa.plans ∧
      (runAll sem cat cs sa).sess.mandatory = sa.sess.mandatory ∧
      ∀ j ∈ sa.sess.jobs, j ∈ (runAll sem cat cs sa).sess.jobs := by
  intro cs
  induction cs with
  | nil => intro sa _ _; exact ⟨rfl, rfl, fun _ h => h⟩
  | cons c cs ih =>
    intro sa hg hc
    obtain ⟨a1, a2, a3⟩ := keeps (cat := cat) hg c (hc c (by simp))
    obtain ⟨b1, b2, b3⟩ := ih (hg.call cat c) (fun d hd => hc d (by simp [hd]))
    exact ⟨b1.trans a1, b2.trans a2, fun j hj => b3 j (a3 j hj)⟩

/-- **C77**: whatever was chosen and run in between, as long as no job was added to the session,
`remove_all_filters` brings back the run list, in the same order, that finishing the bootstrap gave. -/
theorem C77_restore {sem : Sem J I E R} {cat : J → C} {sa : SA J I E R C} (h : Reached sem cat sa)
    (cs : List (Call J I R C)) (hc : ∀ c ∈ cs, c.keepsPlan = true)
    (hj : (runAll sem cat cs sa).sess.jobs = sa.sess.jobs) :
    (Call.run sem cat (runAll sem cat cs sa) .removeFilters).1.sess.runList =
      (Call.run sem cat sa .finish).1.sess.runList := by
  obtain ⟨h1, h2, _⟩ := keeps_all (cat := cat) cs h.good hc
  show (updateDesired sem (runAll sem cat cs sa).sess _ true).1.runList = (updateDesired sem sa.sess _ true).1.runList
  rw [h1, hj]
  exact (updateDesired_congr hj h2 _ true).1

/-- **C77** is violated without a test plan: after `hand_pick_jobs`, `remove_all_filters` (and
`finish_bootstrap`) leave nothing to run, and the queries about the test plan raise `IndexError`. -/
theorem C77_no_plan_violated {sem : Sem J I E R} {cat : J → C} {sa : SA J I E R C} (h : Reached sem cat sa)
    (hp : sa.plans = []) : (Call.run sem cat sa .removeFilters).1.sess.runList = [] ∧
      mandatoryJobs sem sa = .error .indexError ∧ participating sa = .error .indexError := by
  have hg := h.good
  refine ⟨?_, by unfold mandatoryJobs; rw [hp], by unfold participating; rw [hp]⟩
  have he : selectJobs sem.id sa.sess.jobs (sa.plans.map (·.incl)) = [] := by
    rw [hp]; rfl
  apply nothing (hg.noplan hp) (desire_exact hg _ (selectJobs_sub _ _ _)
    (want := fun j => j ∈ selectJobs sem.id sa.sess.jobs (sa.plans.map (·.incl)) ∧
      Schedulable sem.graph sa.sess.jobs (sem.id j)) (fun j => Iff.rfl))
  rintro j ⟨hj, _⟩
  rw [he] at hj
  simp at hj

/-! ## Mandatory jobs -/

/-- **C77** (partial: as long as no job was added since the test plan was selected, see
`C77_mandatory_violated`).  Every job that `get_mandatory_jobs` names, if it can be scheduled, is in the run
list after each call that chooses jobs. -/
theorem C77_mandatory_partial {sem : Sem J I E R} {cat : J → C} {sa : SA J I E R C} (h : Reached sem cat sa)
    (p : Plan J I C) (cs : List (Call J I R C)) (hc : ∀ c ∈ cs, c.keepsPlan = true) (c : Call J I R C)
    (hck : c.keepsPlan = true) (hch : c.chooses = true)
    (hj : (c.run sem cat (runAll sem cat cs (Call.run sem cat sa (.selectPlan p)).1)).1.sess.jobs = sa.sess.jobs) :
    ∃ ids, mandatoryJobs sem (c.run sem cat (runAll sem cat cs (Call.run sem cat sa (.selectPlan p)).1)).1 = .ok ids ∧
      ∀ j ∈ sa.sess.jobs, sem.id j ∈ ids → Schedulable sem.graph sa.sess.jobs (sem.id j) →
        j ∈ (c.run sem cat (runAll sem cat cs (Call.run sem cat sa (.selectPlan p)).1)).1.sess.runList := by
  have hg := h.good
  obtain ⟨g1, p1, j1, m1⟩ := hg.selectPlan p
  have r1 : Reached sem cat (Call.run sem cat sa (.selectPlan p)).1 := h.call _
  have e1 : (Call.run sem cat sa (.selectPlan p)).1 = (selectPlan sem sa p).1 := rfl
  rw [e1] at hj r1 ⊢
  have r2 := r1.all cs
  obtain ⟨p2, m2, _⟩ := keeps_all (cat := cat) cs g1 hc
  obtain ⟨p3, m3, _⟩ := keeps (cat := cat) r2.good c hck
  have hstay := C77_mandatory_stay r2 c hch
  have hplans := p3.trans (p2.trans p1)
  have hmand := m3.trans (m2.trans m1)
  generalize (c.run sem cat (runAll sem cat cs (selectPlan sem sa p).1)).1 = sb at hj hstay hplans hmand ⊢
  refine ⟨(selectJobs sem.id sb.sess.jobs [p.mandatory]).map sem.id, by unfold mandatoryJobs; rw [hplans], ?_⟩
  intro j hjj hid hs
  obtain ⟨k, hk, hki⟩ := List.mem_map.mp hid
  rw [hj] at hk
  have hkj : k = j := eq_of_id (g := sem.graph) hg.book.nodup (selectJobs_sub _ _ _ k hk) hjj hki
  subst hkj
  exact hstay k (by rw [hmand]; exact hk) (by rw [hj]; exact hs)

/-! ## Cases -/

/-- Jobs 1 (a resource, from whose records 100 and more jobs are made), 2, 3 that depends on 2, and 4. -/
def exJobs : List Session.XJob :=
  [{ id := 1, resource := true }, { id := 2 }, { id := 3, direct := [2] }, { id := 4 }]

/-- A test plan: jobs 3 and 4 and all from 100 on are included, 2 and all from 100 on are mandatory,
bootstrap is 1, and the category of a job is its number divided by two. -/
def exPlan : Plan Session.XJob Nat Nat where
  incl := .comp [.prim ⟨true, .idEq 4⟩, .prim ⟨true, .idEq 3⟩]
  mandatory := .prim ⟨true, .other fun j => decide (j.id = 2 ∨ 100 ≤ j.id)⟩
  boot := .prim ⟨true, .idEq 1⟩
  category j := j.id / 2

def exStart : SA Session.XJob Nat (Nat × Nat) Nat Nat :=
  ⟨match construct exSem exJobs with
    | .ok s => s
    | .error _ => ⟨[], [], [], [], [], [], []⟩, []⟩

theorem exStart_reached (cat : Session.XJob → Nat) : Reached exSem cat exStart := by
  have : ∃ s, construct exSem exJobs = .ok s ∧ exStart = ⟨s, []⟩ := by
    cases h : construct exSem exJobs with
    | ok s => exact ⟨s, rfl, by unfold exStart; rw [h]⟩
    | error e =>
      have : (match construct exSem exJobs with | .ok _ => true | .error _ => false) = true := by decide +kernel
      rw [h] at this
      simp at this
  obtain ⟨s, h1, h2⟩ := this
  rw [h2]
  exact .start h1

/-- The ids of the run list after some calls. -/
def after (cat : Session.XJob → Nat) (cs : List (Call Session.XJob Nat Nat Nat)) : List Nat :=
  staticTodo exSem (runAll exSem cat cs exStart)

/-- The whole plan, one job of it, everything again. -/
example : after (fun j => j.id / 2) [.selectPlan exPlan, .finish] = [2, 4, 3] ∧
    after (fun j => j.id / 2) [.selectPlan exPlan, .finish, .alternate (.container [4])] = [2, 4] ∧
    after (fun j => j.id / 2) [.selectPlan exPlan, .finish, .alternate (.container [4]), .filter (.container [1]),
      .removeFilters] = [2, 4, 3] := by
  decide +kernel

/-- A dependency stays although it was not chosen. -/
example : after (fun j => j.id) [.handPick [fun j => decide (j.id = 3 ∨ j.id = 4)]] = [2, 3, 4] ∧
    after (fun j => j.id) [.handPick [fun j => decide (j.id = 3 ∨ j.id = 4)], .filter (.container [3])] = [2, 3] ∧
    after (fun j => j.id) [.handPick [fun j => decide (j.id = 3 ∨ j.id = 4)], .filter (.container [4])] = [4] := by
  decide +kernel

/-- The categories of the jobs are those of the plan (`C77_all_categories_partial`), or quite different
(`C77_categories_violated`). -/
example : (∀ j ∈ (runAll exSem (fun j => j.id / 2) [.selectPlan exPlan, .finish] exStart).sess.runList,
      exPlan.category j = j.id / 2) ∧
    after (fun j => j.id / 2) [.selectPlan exPlan, .finish, .filter (.container [1, 2, 1])] = [2, 4, 3] ∧
    (∀ j ∈ (runAll exSem (fun j => j.id + 10) [.selectPlan { exPlan with mandatory := .comp [] }, .finish] exStart).sess.runList,
      ∀ k ∈ (runAll exSem (fun j => j.id + 10) [.selectPlan { exPlan with mandatory := .comp [] }, .finish] exStart).sess.runList,
      exPlan.category k ≠ j.id + 10) ∧
    after (fun j => j.id + 10) [.selectPlan { exPlan with mandatory := .comp [] }, .finish] = [4, 2, 3] ∧
    after (fun j => j.id + 10) [.selectPlan { exPlan with mandatory := .comp [] }, .finish,
      .filter (.container [2, 1, 1])] = [] := by
  decide +kernel

/-- A job that the session knows cannot be added back; an iterator works only from the beginning. -/
example : after (fun j => j.id) [.handPick [fun j => decide (j.id = 2 ∨ j.id = 4)], .alternate (.container [1, 4])] = [4] ∧
    after (fun j => j.id) [.handPick [fun j => decide (j.id = 2 ∨ j.id = 4)], .alternate (.iterator [2, 4])] = [2, 4] ∧
    after (fun j => j.id) [.handPick [fun j => decide (j.id = 2 ∨ j.id = 4)], .alternate (.iterator [4, 2])] = [2] ∧
    after (fun j => j.id) [.handPick [fun j => decide (j.id = 2 ∨ j.id = 4)], .alternate (.iterator [4])] = [] := by
  decide +kernel

/-- Two patterns; an iterator of categories, of which one occurrence is good for one job; an unknown job. -/
example : after (fun j => j.id) [.handPick [fun j => decide (j.id = 3), fun j => decide (j.id = 4)]] = [2, 3, 4] ∧
    after (fun _ => 7) [.handPick [fun _ => true], .filter (.container [7])] = [1, 2, 3, 4] ∧
    after (fun _ => 7) [.handPick [fun _ => true], .filter (.iterator [7])] = [1] ∧
    after (fun j => j.id / 2) [.handPick [fun _ => true], .filter (.iterator [0, 1, 5, 1])] = [1, 2, 3] ∧
    ∀ j ∈ exStart.sess.jobs, exSem.id j ≠ 55 := by
  decide +kernel

/-- `C77_no_exception` and `C77_mandatory_stay` for the whole plan. -/
example : (Call.run exSem (fun j => j.id) (runAll exSem (fun j => j.id) [.selectPlan exPlan] exStart) .finish).2 = none ∧
    ({ id := 2 } : Session.XJob) ∈
      (Call.run exSem (fun j => j.id) (runAll exSem (fun j => j.id) [.selectPlan exPlan] exStart) .finish).1.sess.runList :=
  ⟨C77_no_exception Session.exSem_wf ((exStart_reached _).all _) (by
      have : ∀ j ∈ (runAll exSem (fun j => j.id) [.selectPlan exPlan] exStart).sess.jobs, j.requires = none ∧ j.bad = false := by
        decide +kernel
      intro j hj
      simp [exSem, (this j hj).1, (this j hj).2]) .finish rfl,
    by decide +kernel⟩

/-- Nothing is brought back after jobs were picked by hand. -/
example : after (fun j => j.id) [.handPick [fun _ => true]] = [1, 2, 3, 4] ∧
    after (fun j => j.id) [.handPick [fun _ => true], .alternate (.container [4]), .removeFilters] = [] := by
  decide +kernel

/-- The bootstrap, as an application performs it: the resource job has one record, from which the job 100 is
made, which the test plan says is mandatory. -/
def exBoot : List (Call Session.XJob Nat Nat Nat) :=
  [.selectPlan exPlan, .bootTodo, .result 1 ⟨.pass, [100], 0⟩, .finish]

/-- **C77** is violated by mandatory jobs that are made from templates: `get_mandatory_jobs` names the job,
it can be scheduled, but it is not going to run, because the mandatory jobs are selected only once, before
the bootstrap. -/
theorem C77_mandatory_violated : ∃ (sa : SA Session.XJob Nat (Nat × Nat) Nat Nat) (j : Session.XJob) (ids : List Nat),
    Reached exSem (fun j => j.id) sa ∧ mandatoryJobs exSem sa = .ok ids ∧ exSem.id j ∈ ids ∧ j ∈ sa.sess.jobs ∧
    exSem.depOrder j = [] ∧ j ∉ sa.sess.runList := by
  refine ⟨runAll exSem (fun j => j.id) exBoot exStart, { id := 100 }, [2, 100],
    (exStart_reached _).all exBoot, by rfl, by decide, by decide +kernel, by decide, by decide +kernel⟩

end Verif.Narrow
