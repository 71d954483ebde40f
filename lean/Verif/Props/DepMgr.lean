import Verif.Lemmas.DepMgr

/-!
# C01, C02, C03: the dependency solver

The statements use only `g.id`, `g.deps`, list membership and the predicates `DependsOn`,
`Reach`, `IsPath`, `DepsFirst` (in `Verif/Lemmas/DepMgr.lean`), which do not mention the solver.

`hvis` says that a visited job whose id is known is the known job.  It is how every caller in
plainbox uses the solver; `foreign_visit_assertion` shows what happens otherwise.
-/

set_option linter.unusedSectionVars false

namespace Verif.DepMgr

variable {J I : Type} [DecidableEq J] [DecidableEq I]

/-- Visited jobs that are known by id are the known jobs. -/
def VisitConsistent (g : Graph J I) (jobs : List J) (visitList : Option (List J)) : Prop :=
  ∀ v ∈ visitList.getD jobs, g.id v ∈ jobs.map g.id → v ∈ jobs

/-- One or more dependency steps. -/
inductive DependsPlus (g : Graph J I) (jobs : List J) : J → J → Prop where
  | one {a b} : DependsOn g jobs a b → DependsPlus g jobs a b
  | more {a b c} : DependsOn g jobs a b → DependsPlus g jobs b c → DependsPlus g jobs a c

/-- The four ways in which the input can be broken. -/
inductive Broken (g : Graph J I) (jobs visit : List J) : Prop where
  | duplicateId (pre : List J) (a : J) (mid : List J) (b : J) (post : List J) :
      jobs = pre ++ a :: mid ++ b :: post → g.id a = g.id b → Broken g jobs visit
  | unknownVisited (v : J) : v ∈ visit → (∀ j ∈ jobs, g.id j ≠ g.id v) → Broken g jobs visit
  | missingDep (j : J) (ty : DepType) (i : I) : Reach g jobs visit j → (ty, i) ∈ g.deps j →
      (∀ k ∈ jobs, g.id k ≠ i) → Broken g jobs visit
  | cyclic (j : J) : Reach g jobs visit j → DependsPlus g jobs j j → Broken g jobs visit

/-- **C01**.  A returned solution is a valid schedule. -/
theorem C01_resolve_valid (g : Graph J I) (jobs : List J) (visitList : Option (List J))
    (hvis : VisitConsistent g jobs visitList) (sol : List J)
    (h : resolve g jobs visitList = .ok sol) :
    (∀ v ∈ visitList.getD jobs, v ∈ sol) ∧
    sol.Nodup ∧ (sol.map g.id).Nodup ∧
    (∀ pre s post, sol = pre ++ s :: post → ∀ d ∈ g.deps s, ∃ p ∈ pre, g.id p = d.2) ∧
    (∀ s ∈ sol, s ∈ jobs ∧ Reach g jobs (visitList.getD jobs) s) := by
  have hs := resolve_spec g jobs visitList hvis
  rw [h] at hs
  obtain ⟨_, h1, h2, h3, h4⟩ := hs
  refine ⟨h1, ?_, h2, ?_, h4⟩
  · exact List.Pairwise.of_map _ (fun a b hab hc => hab (by rw [hc])) h2
  · intro pre s post heq d hd
    have := h3 pre s post heq d hd
    rw [List.mem_map] at this
    exact this

theorem reach_mem_sol {g : Graph J I} {jobs vis sol : List J} (hnd : (jobs.map g.id).Nodup)
    (hv : ∀ v ∈ vis, v ∈ sol) (hord : DepsFirst g sol) (hsub : ∀ s ∈ sol, s ∈ jobs) {j : J}
    (hr : Reach g jobs vis j) : j ∈ sol := by
  induction hr with
  | base h => exact hv _ h
  | step _ hd ih =>
    obtain ⟨hb, ty, hdep⟩ := hd
    obtain ⟨pre, post, heq⟩ := List.append_of_mem ih
    have := hord pre _ post heq _ hdep
    rw [List.mem_map] at this
    obtain ⟨p, hp, hpi⟩ := this
    have hps : p ∈ sol := by rw [heq]; simp [hp]
    rw [← eq_of_id hnd (hsub p hps) hb hpi]
    exact hps

theorem idx_lt {g : Graph J I} {jobs sol : List J} (hnd : (jobs.map g.id).Nodup)
    (hord : DepsFirst g sol) (hsub : ∀ s ∈ sol, s ∈ jobs)
    {a b : J} (hsol : (sol.map g.id).Nodup) (ha : a ∈ sol) (hd : DependsOn g jobs a b) :
    b ∈ sol ∧ (sol.map g.id).idxOf (g.id b) < (sol.map g.id).idxOf (g.id a) := by
  obtain ⟨hb, ty, hdep⟩ := hd
  obtain ⟨pre, post, heq⟩ := List.append_of_mem ha
  have hin := hord pre _ post heq _ hdep
  simp only at hin
  subst heq
  have hna : g.id a ∉ pre.map g.id := by
    intro hc
    rw [List.map_append, List.nodup_append] at hsol
    exact hsol.2.2 _ hc _ (by simp) rfl
  constructor
  · rw [List.mem_map] at hin
    obtain ⟨p, hp, hpi⟩ := hin
    have hps : p ∈ pre ++ a :: post := by simp [hp]
    rw [← eq_of_id hnd (hsub p hps) hb hpi]
    exact hps
  · rw [List.map_append, List.idxOf_append, List.idxOf_append]
    simp only [hin, if_true, hna, if_false]
    have := List.idxOf_lt_length_of_mem hin
    omega

theorem idx_lt_plus {g : Graph J I} {jobs sol : List J} (hnd : (jobs.map g.id).Nodup)
    (hord : DepsFirst g sol) (hsub : ∀ s ∈ sol, s ∈ jobs) (hsol : (sol.map g.id).Nodup)
    {a b : J} (hd : DependsPlus g jobs a b) (ha : a ∈ sol) :
    (sol.map g.id).idxOf (g.id b) < (sol.map g.id).idxOf (g.id a) := by
  induction hd with
  | one h => exact (idx_lt hnd hord hsub hsol ha h).2
  | more h _ ih =>
    have h1 := idx_lt hnd hord hsub hsol ha h
    have h2 := ih h1.1
    omega

theorem path_plus {g : Graph J I} {jobs : List J} : ∀ (l : List J) (a b : J),
    IsPath (DependsOn g jobs) (a :: l) → l ≠ [] → (a :: l).getLast? = some b →
    DependsPlus g jobs a b := by
  intro l
  induction l with
  | nil => intro a b _ h; exact absurd rfl h
  | cons x xs ih =>
    intro a b hp _ hl
    have h0 : DependsOn g jobs a x := hp 0 (by simp)
    have hp' : IsPath (DependsOn g jobs) (x :: xs) := by
      have := hp.drop 1
      simpa using this
    cases xs with
    | nil => simp at hl; subst hl; exact .one h0
    | cons y ys => exact .more h0 (ih x b hp' (by simp) (by simpa using hl))

/-- **C02** (first half).  Resolution succeeds exactly when the input is not broken. -/
theorem C02_resolve_iff (g : Graph J I) (jobs : List J) (visitList : Option (List J))
    (hvis : VisitConsistent g jobs visitList) :
    (∃ sol, resolve g jobs visitList = .ok sol) ↔ ¬ Broken g jobs (visitList.getD jobs) := by
  have hs := resolve_spec g jobs visitList hvis
  constructor
  · rintro ⟨sol, h⟩
    rw [h] at hs
    obtain ⟨hnd, hv, hsol, hord, hsub⟩ := hs
    have hsub' := fun s hs => (hsub s hs).1
    intro hb
    cases hb with
    | duplicateId pre a mid b post heq hid =>
      rw [heq] at hnd
      simp only [List.map_append, List.map_cons] at hnd
      rw [List.nodup_append] at hnd
      exact hnd.2.2 (g.id a) (by simp) (g.id b) (by simp) hid
    | unknownVisited v hv' hno => exact hno v (hsub' v (hv v hv')) rfl
    | missingDep j ty i hr hd hno =>
      have hj := reach_mem_sol hnd hv hord hsub' hr
      obtain ⟨pre, post, heq⟩ := List.append_of_mem hj
      have := hord pre _ post heq _ hd
      rw [List.mem_map] at this
      obtain ⟨p, hp, hpi⟩ := this
      exact hno p (hsub' p (by rw [heq]; simp [hp])) hpi
    | cyclic j hr hc =>
      have hj := reach_mem_sol hnd hv hord hsub' hr
      have := idx_lt_plus hnd hord hsub' hsol hc hj
      omega
  · intro hnb
    cases h : resolve g jobs visitList with
    | ok sol => exact ⟨sol, rfl⟩
    | error e =>
      exfalso
      rw [h] at hs
      apply hnb
      cases e with
      | duplicate a b =>
        obtain ⟨pre, mid, post, h1, h2⟩ := hs
        exact .duplicateId pre a mid b post h1 h2
      | unknown v =>
        obtain ⟨_, h1, h2⟩ := hs
        exact .unknownVisited v h1 (fun j hj hji => h2 (List.mem_map.mpr ⟨j, hj, hji⟩))
      | missing j i ty =>
        obtain ⟨_, h1, _, h3, h4⟩ := hs
        exact .missingDep j ty i h1 h3 (fun k hk hki => h4 (List.mem_map.mpr ⟨k, hk, hki⟩))
      | cycle l =>
        obtain ⟨_, h1, h2, h3, h4⟩ := hs
        cases l with
        | nil => simp at h1
        | cons a rest =>
          refine .cyclic a (h4 a (by simp)).2 (path_plus rest a a h3 ?_ ?_)
          · intro hc; subst hc; simp at h1
          · rw [← h2]; rfl
      | assertion => exact absurd hs.2 id
      | outOfFuel => exact absurd hs.2 id

/-- **C02** (second half).  Every error is truthful, and no assertion fails. -/
theorem C02_errors_truthful (g : Graph J I) (jobs : List J) (visitList : Option (List J))
    (hvis : VisitConsistent g jobs visitList) (e : Err J I)
    (h : resolve g jobs visitList = .error e) :
    match e with
    | .duplicate a b => ∃ pre mid post, jobs = pre ++ a :: mid ++ b :: post ∧ g.id a = g.id b
    | .unknown v => v ∈ visitList.getD jobs ∧ ∀ j ∈ jobs, g.id j ≠ g.id v
    | .missing j i ty => j ∈ jobs ∧ Reach g jobs (visitList.getD jobs) j ∧
        (ty, i) ∈ g.deps j ∧ ∀ k ∈ jobs, g.id k ≠ i
    | .cycle l => ∀ x ∈ l, x ∈ jobs ∧ Reach g jobs (visitList.getD jobs) x
    | .assertion => False
    | .outOfFuel => False := by
  have hs := resolve_spec g jobs visitList hvis
  rw [h] at hs
  cases e with
  | duplicate a b => exact hs
  | unknown v => exact ⟨hs.2.1, fun j hj hji => hs.2.2 (List.mem_map.mpr ⟨j, hj, hji⟩)⟩
  | missing j i ty =>
    obtain ⟨_, h1, h2, h3, h4⟩ := hs
    exact ⟨h2, h1, h3, fun k hk hki => h4 (List.mem_map.mpr ⟨k, hk, hki⟩)⟩
  | cycle l => exact hs.2.2.2.2
  | assertion => exact hs.2
  | outOfFuel => exact hs.2

/-- **C03**.  A reported cycle is a real one. -/
theorem C03_cycle_real (g : Graph J I) (jobs : List J) (visitList : Option (List J))
    (hvis : VisitConsistent g jobs visitList) (l : List J)
    (h : resolve g jobs visitList = .error (.cycle l)) :
    2 ≤ l.length ∧ (∃ a, l.head? = some a ∧ l.getLast? = some a) ∧
    ∀ i, (hi : i + 1 < l.length) → l[i + 1] ∈ jobs ∧ ∃ ty, (ty, g.id l[i + 1]) ∈ g.deps l[i] := by
  have hs := resolve_spec g jobs visitList hvis
  rw [h] at hs
  obtain ⟨_, h1, h2, h3, _⟩ := hs
  refine ⟨h1, ?_, h3⟩
  cases l with
  | nil => simp at h1
  | cons a rest => exact ⟨a, rfl, by rw [← h2]; rfl⟩

/-! ## Concrete cases -/

/-- Jobs of the examples: `(id, dependencies)`. -/
abbrev ExJob := Nat × List Nat

def exG : Graph ExJob Nat := ⟨Prod.fst, fun j => j.2.map (fun i => (DepType.direct, i))⟩

example : VisitConsistent exG [(1, [2, 3]), (2, [3]), (3, [])] (some [(1, [2, 3])]) := by
  intro v; decide +revert

/-- A diamond-like graph is scheduled in dependency order. -/
example : resolve exG [(1, [2, 3]), (2, [3]), (3, []), (4, [])] (some [(1, [2, 3])]) =
    .ok [(3, []), (2, [3]), (1, [2, 3])] := by decide

/-- A cycle entered from outside is cut to the cyclic part. -/
example : resolve exG [(1, [2]), (2, [3]), (3, [2])] none =
    .error (.cycle [(2, [3]), (3, [2]), (2, [3])]) := by decide

example : resolve exG [(1, [1])] none = .error (.cycle [(1, [1]), (1, [1])]) := by decide
example : resolve exG [(1, [2]), (1, [])] none = .error (.duplicate (1, [2]) (1, [])) := by decide
example : resolve exG [(1, [2])] none = .error (.missing (1, [2]) 2 .direct) := by decide
example : resolve exG [(1, [])] (some [(5, [])]) = .error (.unknown (5, [])) := by decide

/-- Without `VisitConsistent`, a cycle is reported as an assertion failure: the visited job is
not the listed job with the same id, so `trail.index` finds the last entry of the trail. -/
theorem foreign_visit_assertion :
    resolve exG [(1, [2]), (2, [1])] (some [(1, [2, 2])]) = .error .assertion := by decide

end Verif.DepMgr
