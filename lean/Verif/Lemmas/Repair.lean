import Verif.Model.Session
import Verif.Props.DepMgr
import Verif.Props.Resource
import Mathlib.Data.List.Induction

/-! The repair loop of `update_desired_job_list`. -/

set_option linter.unusedSectionVars false
set_option linter.unusedSimpArgs false

namespace Verif.Session

open Verif.DepMgr

variable {J I : Type} [DecidableEq J] [DecidableEq I]

/-- The job with this id can be scheduled: it is listed and all its dependencies, recursively, can
be scheduled.  (Well-founded, so a job on or above a cycle cannot.) -/
inductive Schedulable (g : Graph J I) (jobs : List J) : I → Prop where
  | mk (j : J) : j ∈ jobs → (∀ d ∈ g.deps j, Schedulable g jobs d.2) →
      Schedulable g jobs (g.id j)

theorem Schedulable.mem {g : Graph J I} {jobs : List J} {i : I} (h : Schedulable g jobs i) :
    i ∈ jobs.map g.id := by
  cases h with | mk j hj _ => exact List.mem_map.mpr ⟨j, hj, rfl⟩

theorem Schedulable.deps {g : Graph J I} {jobs : List J} (hnd : (jobs.map g.id).Nodup) {j : J}
    (hj : j ∈ jobs) (h : Schedulable g jobs (g.id j)) : ∀ d ∈ g.deps j, Schedulable g jobs d.2 := by
  generalize hi : g.id j = i at h
  cases h with | mk k hk hd =>
  rw [eq_of_id hnd hj hk hi]
  exact hd

theorem plus_rotate {g : Graph J I} {jobs : List J} {a b : J} (hab : DependsOn g jobs a b)
    (h : b = a ∨ DependsPlus g jobs b a) : DependsPlus g jobs b b := by
  rcases h with rfl | h
  · exact .one hab
  · induction h with
    | one hba => exact .more hba (.one hab)
    | more hbc _ ih => exact .more hbc (by
        rename_i b c a _
        clear ih
        rename_i hca
        clear hbc
        induction hca with
        | one h => exact .more h (.one hab)
        | more h _ ih => exact .more h (ih hab))

theorem plus_head {g : Graph J I} {jobs : List J} {a c : J} (h : DependsPlus g jobs a c) :
    ∃ b, DependsOn g jobs a b ∧ (b = c ∨ DependsPlus g jobs b c) := by
  cases h with
  | one h => exact ⟨c, h, .inl rfl⟩
  | more h hp => exact ⟨_, h, .inr hp⟩

theorem Schedulable.acyclic {g : Graph J I} {jobs : List J} (hnd : (jobs.map g.id).Nodup) {i : I}
    (h : Schedulable g jobs i) : ∀ j ∈ jobs, g.id j = i → ¬ DependsPlus g jobs j j := by
  induction h with
  | mk k hk _ ih =>
    intro j hj hij hp
    have := eq_of_id hnd hj hk hij
    subst this
    obtain ⟨b, hab, hba⟩ := plus_head hp
    obtain ⟨hb, ty, hdep⟩ := hab
    exact ih _ hdep b hb rfl (plus_rotate ⟨hb, ty, hdep⟩ hba)

theorem schedulable_erase {g : Graph J I} {jobs : List J} {j : J}
    (hj : ¬ Schedulable g jobs (g.id j)) (i : I) :
    Schedulable g (jobs.erase j) i ↔ Schedulable g jobs i := by
  constructor
  · intro h
    induction h with
    | mk k hk _ ih => exact .mk k (List.mem_of_mem_erase hk) ih
  · intro h
    induction h with
    | mk k hk hd ih =>
      refine .mk k ?_ ih
      have hne : k ≠ j := by
        rintro rfl
        exact hj (.mk k hk hd)
      exact (List.mem_erase_of_ne hne).mpr hk

theorem schedulable_of_order {g : Graph J I} {jobs : List J} : ∀ (sol : List J),
    DepsFirst g sol → (∀ s ∈ sol, s ∈ jobs) → ∀ s ∈ sol, Schedulable g jobs (g.id s) := by
  intro sol
  induction sol using List.reverseRecOn with
  | nil => simp
  | append_singleton l a ih =>
    intro hord hsub s hs
    have hl : ∀ s ∈ l, Schedulable g jobs (g.id s) := by
      apply ih
      · intro pre x post heq d hd
        exact hord pre x (post ++ [a]) (by simp [heq]) d hd
      · intro s hs; exact hsub s (by simp [hs])
    rcases List.mem_append.mp hs with h | h
    · exact hl s h
    · simp only [List.mem_singleton] at h
      subst h
      refine .mk s (hsub s (by simp)) fun d hd => ?_
      have := hord l s [] (by simp) d hd
      obtain ⟨p, hp, hpi⟩ := List.mem_map.mp this
      rw [← hpi]
      exact hl p hp

/-- The job blamed by an error cannot be scheduled. -/
theorem affected_spec {g : Graph J I} {jobs desired : List J} (hnd : (jobs.map g.id).Nodup)
    (hc : ∀ v ∈ desired, g.id v ∈ jobs.map g.id → v ∈ jobs) {e : DepMgr.Err J I}
    (h : resolve g jobs (some desired) = .error e) :
    ∃ j, affected e = some j ∧ (j ∈ jobs ∨ j ∈ desired) ∧ ¬ Schedulable g jobs (g.id j) := by
  have hs := resolve_spec g jobs (some desired) hc
  rw [h] at hs
  cases e with
  | unknown v =>
    exact ⟨v, rfl, .inr hs.2.1, fun hc => hs.2.2 hc.mem⟩
  | missing j i ty =>
    obtain ⟨_, _, h2, h3, h4⟩ := hs
    exact ⟨j, rfl, .inl h2, fun hc => h4 ((hc.deps hnd h2) _ h3).mem⟩
  | cycle l =>
    obtain ⟨_, h1, h2, h3, h4⟩ := hs
    cases l with
    | nil => simp at h1
    | cons a rest =>
      refine ⟨a, rfl, .inl (h4 a (by simp)).1, fun hc => ?_⟩
      refine hc.acyclic hnd a (h4 a (by simp)).1 rfl (path_plus rest a a h3 ?_ ?_)
      · intro hc; subst hc; simp at h1
      · rw [← h2]; rfl
  | duplicate a b =>
    obtain ⟨pre, mid, post, rfl, hid⟩ := hs
    exfalso
    simp only [List.map_append, List.map_cons] at hnd
    rw [List.nodup_append] at hnd
    exact hnd.2.2 (g.id a) (by simp) (g.id b) (by simp) hid
  | assertion => exact absurd hs.2 id
  | outOfFuel => exact absurd hs.2 id

open Classical in
/-- The requested jobs that can be scheduled, in the requested order. -/
noncomputable def survivors (g : Graph J I) (jobs desired : List J) : List J :=
  desired.filter fun v => decide (Schedulable g jobs (g.id v))

theorem mem_survivors {g : Graph J I} {jobs desired : List J} {v : J} :
    v ∈ survivors g jobs desired ↔ v ∈ desired ∧ Schedulable g jobs (g.id v) := by
  simp [survivors]

/-- What the loop guarantees about its result. -/
structure RepOK (g : Graph J I) (jobs desired : List J) (d run : List J)
    (problems : List (DepMgr.Err J I)) : Prop where
  desired_eq : d = survivors g jobs desired
  all : ∀ v ∈ d, v ∈ run
  nodup : (run.map g.id).Nodup
  order : DepsFirst g run
  sub : ∀ s ∈ run, s ∈ jobs ∧ Reach g jobs d s
  reported : ∀ v ∈ desired, ¬ Schedulable g jobs (g.id v) → ∃ e ∈ problems, affected e = some v
  truthful : ∀ e ∈ problems, (∃ j, affected e = some j ∧ ¬ Schedulable g jobs (g.id j)) ∧
    ∃ js ds, js.Sublist jobs ∧ ds.Sublist desired ∧ resolve g js (some ds) = .error e

theorem erase_survivors {g : Graph J I} {jobs desired : List J} {j : J}
    (hj : ¬ Schedulable g jobs (g.id j)) :
    survivors g (jobs.erase j) (desired.erase j) = survivors g jobs desired := by
  unfold survivors
  have hcongr : ∀ l : List J,
      (l.filter fun v => @decide (Schedulable g (jobs.erase j) (g.id v)) (Classical.propDecidable _))
      = l.filter fun v => @decide (Schedulable g jobs (g.id v)) (Classical.propDecidable _) := by
    intro l
    apply List.filter_congr
    intro v _
    rw [decide_eq_decide]
    exact schedulable_erase hj _
  rw [hcongr]
  induction desired with
  | nil => rfl
  | cons a l ih =>
    rw [List.erase_cons]
    split
    · rename_i h
      have : a = j := by simpa using h
      subst this
      simp [hj]
    · simp only [List.filter_cons, ih]

theorem Reach.mono {g : Graph J I} {jobs jobs' d : List J} (h : ∀ x ∈ jobs, x ∈ jobs') {s : J}
    (hr : Reach g jobs d s) : Reach g jobs' d s := by
  induction hr with
  | base h => exact .base h
  | step _ hd ih => exact .step ih ⟨h _ hd.1, hd.2⟩

theorem repairLoop_spec (g : Graph J I) : ∀ (n : Nat) (jobs desired : List J)
    (problems : List (DepMgr.Err J I)), jobs.length + desired.length < n →
    (jobs.map g.id).Nodup → (∀ v ∈ desired, g.id v ∈ jobs.map g.id → v ∈ jobs) →
    ∃ r new, repairLoop g n jobs desired problems = .ok r ∧ r.problems = problems ++ new ∧
      RepOK g jobs desired r.desired r.runList new := by
  intro n
  induction n with
  | zero => intro jobs desired problems h; omega
  | succ n ih =>
    intro jobs desired problems hlen hnd hc
    simp only [repairLoop]
    by_cases hd : desired = []
    · subst hd
      rw [if_pos rfl]
      refine ⟨_, [], rfl, by simp, ⟨rfl, by simp, by simp, ?_, by simp, by simp, by simp⟩⟩
      intro pre s post h; simp at h
    · rw [if_neg hd]
      cases hr : resolve g jobs (some desired) with
      | ok run =>
        have hs := resolve_spec g jobs (some desired) hc
        rw [hr] at hs
        obtain ⟨_, h1, h2, h3, h4⟩ := hs
        have hsch := schedulable_of_order run h3 (fun s hs => (h4 s hs).1)
        have hall : ∀ v ∈ desired, Schedulable g jobs (g.id v) := fun v hv => hsch v (h1 v hv)
        refine ⟨_, [], rfl, by simp, ⟨?_, h1, h2, h3, h4, ?_, by simp⟩⟩
        · simp only [survivors]
          exact (List.filter_eq_self.mpr (fun v hv => by simp [hall v hv])).symm
        · intro v hv hn; exact absurd (hall v hv) hn
      | error e =>
        obtain ⟨j, haff, hmem, hns⟩ := affected_spec hnd hc hr
        simp only [haff]
        have hlen' : (jobs.erase j).length + (desired.erase j).length < n := by
          have h1 := List.length_erase (a := j) (l := jobs)
          have h2 := List.length_erase (a := j) (l := desired)
          rcases hmem with hm | hm
          · have := List.length_pos_of_mem hm
            rw [if_pos hm] at h1
            split at h2 <;> omega
          · have := List.length_pos_of_mem hm
            rw [if_pos hm] at h2
            split at h1 <;> omega
        have hsubl : (jobs.erase j).Sublist jobs := List.erase_sublist
        have hnd' : ((jobs.erase j).map g.id).Nodup := hnd.sublist (hsubl.map _)
        have hc' : ∀ v ∈ desired.erase j, g.id v ∈ (jobs.erase j).map g.id → v ∈ jobs.erase j := by
          intro v hv hvi
          obtain ⟨k, hk, hki⟩ := List.mem_map.mp hvi
          have hkj := List.mem_of_mem_erase hk
          have := hc v (List.mem_of_mem_erase hv) (List.mem_map.mpr ⟨k, hkj, hki⟩)
          rw [← eq_of_id hnd hkj this hki]
          exact hk
        obtain ⟨r, new, h1, h2, h3⟩ := ih _ _ (problems ++ [e]) hlen' hnd' hc'
        refine ⟨r, e :: new, h1, by simp [h2], ?_⟩
        refine ⟨?_, h3.all, h3.nodup, h3.order, ?_, ?_, ?_⟩
        · rw [h3.desired_eq, erase_survivors hns]
        · intro s hs
          obtain ⟨ha, hb⟩ := h3.sub s hs
          exact ⟨List.mem_of_mem_erase ha, Reach.mono (fun x hx => List.mem_of_mem_erase hx) hb⟩
        · intro v hv hvn
          by_cases hvj : v = j
          · subst hvj; exact ⟨e, by simp, haff⟩
          · obtain ⟨e', he', ha'⟩ := h3.reported v ((List.mem_erase_of_ne hvj).mpr hv)
              (fun hc => hvn ((schedulable_erase hns _).mp hc))
            exact ⟨e', by simp [he'], ha'⟩
        · intro e' he'
          rcases List.mem_cons.mp he' with rfl | he'
          · exact ⟨⟨j, haff, hns⟩, jobs, desired, .refl _, .refl _, hr⟩
          · obtain ⟨⟨k, hk, hkn⟩, js, ds, hjs, hds, hre⟩ := h3.truthful e' he'
            exact ⟨⟨k, hk, fun hc => hkn ((schedulable_erase hns _).mpr hc)⟩, js, ds,
              hjs.trans hsubl, hds.trans List.erase_sublist, hre⟩

end Verif.Session
