import Verif.Lemmas.Effects

/-! # C83: the values that test plans give to the jobs of a session -/

namespace Verif.Effects

open Verif.Overrides
open Verif.Pattern (Str)

variable {rx : Rx} {tbl : Nat → Plan}

/-! ## The test plans in effect -/

/-- C83: whatever the application did, exceptions included, the overrides that a context remembers are
those of its test plans, and the context of a session has the test plans of the session. -/
theorem C83_current (o : Option (List Str)) (ops : List Op) :
    (∀ c ∈ (World.run rx tbl (.init o) ops).ctxs, ∀ m, c.cache = some m →
      m = computeOverrideMap (c.plans.map tbl)) ∧
    ∀ k, (World.run rx tbl (.init o) ops).here = some k →
      ∃ c, (World.run rx tbl (.init o) ops).ctxs[k]? = some c ∧
        c.plans = (World.run rx tbl (.init o) ops).plans := by
  have key : ∀ (ops : List Op) (w : World), Inv tbl w → Inv tbl (World.run rx tbl w ops) := by
    intro ops
    induction ops with
    | nil => exact fun w h => h
    | cons op ops ih => exact fun w h => ih _ (inv_step h op)
  have h := key ops _ (inv_init tbl o)
  refine ⟨fun c hc m hm => ?_, fun k hk => ?_⟩
  · rcases h.coh c hc with h' | h'
    · rw [h'] at hm; cases hm
    · rw [h'] at hm; cases hm; rfl
  · have hl := h.ok k hk
    exact ⟨_, List.getElem?_eq_getElem hl, h.prop k _ hk (List.getElem?_eq_getElem hl)⟩

/-! ## What every job has -/

/-- Applying these overrides raises for no job. -/
def Harmless (rx : Rx) (tbl : Nat → Plan) (l : List Nat) : Prop :=
  ∀ id e, (overrideUpdate rx id e (computeOverrideMap (l.map tbl))).2 = none

/-- Test plans are harmless when their patterns compile and they override known fields. -/
theorem harmless_of (l : List Nat) (hc : ∀ p ∈ l, CatOK (tbl p))
    (hv : ∀ p ∈ l, ∀ s ∈ stmts (tbl p), rx.valid s.1 = true ∧ Known s.2.1) : Harmless rx tbl l := by
  intro id e
  obtain ⟨e', he, _⟩ := C31_effective_partial rx (l.map tbl) id e
    (by simpa using hc) (by simpa using hv)
  rw [he]

/-- The test plans in force after these calls, the latest call first. -/
def inForce : List Ev → List Nat
  | [] => []
  | .set l :: _ => l
  | .add _ :: h => inForce h
  | .remove _ :: h => inForce h

/-- The lists of test plans that a job has seen since it was added: the one in force at that moment
and all those that were set later. The latest call is first; `none` if the job is not there. -/
def seen (id : Str) : List Ev → Option (List (List Nat))
  | [] => none
  | .add i :: h => if i = id then some ((seen id h).getD [inForce h]) else seen id h
  | .remove i :: h => if i = id then none else seen id h
  | .set l :: h => (seen id h).map (· ++ [l])

/-- The values a job gets from one list of test plans after the other. -/
def applied (rx : Rx) (tbl : Nat → Plan) (id : Str) (ls : List (List Nat)) : Eff :=
  ls.foldl (fun e l => (overrideUpdate rx id e (computeOverrideMap (l.map tbl))).1) .initial

theorem bulk_lookup (m : OMap) (l : List (Str × Eff)) (h : (bulkUpdate rx m l).2 = none) (id : Str) :
    (bulkUpdate rx m l).1.lookup id = (l.lookup id).map fun e => (overrideUpdate rx id e m).1 := by
  rw [(C31_bulk rx m l h).1]
  clear h
  induction l with
  | nil => rfl
  | cons x l ih =>
    rw [List.map_cons, List.lookup_cons, List.lookup_cons]
    by_cases hx : id = x.1
    · subst hx; simp
    · have : (id == x.1) = false := by simpa using hx
      rw [this]; exact ih

theorem bulk_none (l : List Nat) (hl : Harmless rx tbl l) (js : List (Str × Eff)) :
    (bulkUpdate rx (mapOf tbl l) js).2 = none := by
  cases h : (bulkUpdate rx (mapOf tbl l) js).2 with
  | none => rfl
  | some x =>
    obtain ⟨_, id, e, _, _, h1, _⟩ := C31_bulk_raised rx _ js x h
    exact absurd ((hl id e).symm.trans h1) (by simp)

theorem keys_bulk (l : List Nat) (hl : Harmless rx tbl l) (js : List (Str × Eff)) :
    (bulkUpdate rx (mapOf tbl l) js).1.map (·.1) = js.map (·.1) := by
  rw [(C31_bulk rx _ js (bulk_none l hl js)).1, List.map_map]
  rfl

theorem lookup_none {js : List (Str × Eff)} {id : Str} : js.lookup id = none ↔ id ∉ js.map (·.1) := by
  rw [List.lookup_eq_none_iff]
  simp only [List.mem_map, not_exists, not_and, bne_iff_ne, ne_eq]
  constructor
  · intro h x hx e
    exact (h x hx) e.symm
  · intro h x hx e
    exact h x hx e.symm

theorem lookup_filter (js : List (Str × Eff)) (i id : Str) :
    (js.filter fun x => decide (x.1 ≠ i)).lookup id = if i = id then none else js.lookup id := by
  induction js with
  | nil => simp
  | cons x js ih =>
    rw [List.filter_cons, List.lookup_cons]
    by_cases hx : x.1 = i
    · rw [if_neg (by simpa using hx), ih]
      by_cases hi : i = id
      · simp [hi]
      · have : (id == x.1) = false := by simpa using fun h => hi (hx.symm.trans h.symm)
        rw [this]
    · rw [if_pos (by simpa using hx), List.lookup_cons, ih]
      by_cases hid : id = x.1
      · have : ¬ i = id := fun h => hx (hid.symm.trans h.symm)
        simp [hid, Ne.symm hx]
      · have : (id == x.1) = false := by simpa using hid
        rw [this]

theorem harmless_inForce (h : List Ev) (hh : ∀ l, .set l ∈ h → Harmless rx tbl l) :
    Harmless rx tbl (inForce h) := by
  induction h with
  | nil => exact fun _ _ => rfl
  | cons ev h ih =>
    cases ev with
    | set l => exact hh l (by simp)
    | add i => exact ih fun l hl => hh l (List.mem_cons_of_mem _ hl)
    | remove i => exact ih fun l hl => hh l (List.mem_cons_of_mem _ hl)

/-- The state after a history (latest call first): the map, the test plans, and all jobs can be found. -/
theorem history (h : List Ev) (hh : ∀ l, .set l ∈ h → Harmless rx tbl l) :
    let c := Ctx.run rx tbl (.fresh []) h.reverse
    Coherent tbl c ∧ c.plans = inForce h ∧ (∀ i, i ∈ c.ids ↔ i ∈ c.jobs.map (·.1)) ∧
      ∀ id, c.jobs.lookup id = (seen id h).map (applied rx tbl id) := by
  induction h with
  | nil => exact ⟨.inl rfl, rfl, by simp [Ctx.run, Ctx.fresh], fun _ => rfl⟩
  | cons ev h ih =>
    obtain ⟨h1, h2, h3, h4⟩ := ih fun l hl => hh l (List.mem_cons_of_mem _ hl)
    have hrun : Ctx.run rx tbl (.fresh []) (ev :: h).reverse =
        ((Ctx.run rx tbl (.fresh []) h.reverse).step rx tbl ev).1 := by
      simp [Ctx.run, List.foldl_append]
    simp only [hrun]
    generalize hc : Ctx.run rx tbl (.fresh []) h.reverse = c at h1 h2 h3 h4
    have hforce : Harmless rx tbl (inForce h) := harmless_inForce h fun l hl => hh l (List.mem_cons_of_mem _ hl)
    cases ev with
    | add i =>
      show Coherent tbl (addJob rx tbl c i).1 ∧ _
      by_cases hi : i ∈ c.jobs.map (·.1)
      · rw [Ctx.step, addJob_old hi]
        refine ⟨h1, h2, h3, fun id => ?_⟩
        rw [h4 id, seen]
        by_cases hid : i = id
        · subst hid
          rw [if_pos rfl]
          cases hs : seen i h with
          | none =>
            have := h4 i
            rw [hs] at this
            exact absurd hi (lookup_none.1 this)
          | some x => rfl
        · rw [if_neg hid]
      · obtain ⟨a1, a2, a3, a4, a5⟩ := addJob_new (rx := rx) h1 hi
        refine ⟨a1, by rw [Ctx.step, a2, h2]; rfl, ?_, fun id => ?_⟩
        · intro j
          rw [Ctx.step, a3, a4, h2, if_pos (show (overrideUpdate rx i .initial (mapOf tbl (inForce h))).2 = none from
            hforce i .initial), List.mem_append, List.map_append,
            List.mem_append, h3 j]
          simp
        · rw [Ctx.step, a3, List.lookup_append, seen, h2, h4 id]
          by_cases hid : i = id
          · subst hid
            have : seen i h = none := by
              have h' := h4 i
              rw [lookup_none.2 hi] at h'
              cases hs : seen i h with
              | none => rfl
              | some x => rw [hs] at h'; cases h'
            rw [this, if_pos rfl]
            simp [applied, mapOf]
          · have : (id == i) = false := by simpa using fun h => hid h.symm
            rw [if_neg hid]
            simp [List.lookup_cons, this]
    | remove i =>
      show Coherent tbl (removeJob c i).1 ∧ _
      obtain ⟨a1, a2⟩ := removeJob_coherent (id := i) h1
      refine ⟨a1, by rw [Ctx.step, a2, h2]; rfl, ?_⟩
      rw [Ctx.step]
      unfold removeJob
      by_cases hi : i ∈ c.jobs.map (·.1)
      · rw [if_pos hi, if_pos ((h3 i).2 hi)]
        refine ⟨fun j => ?_, fun id => ?_⟩
        · simp only [List.mem_filter, h3 j, List.mem_map, decide_eq_true_eq]
          constructor
          · rintro ⟨⟨x, hx, rfl⟩, hn⟩
            exact ⟨x, ⟨hx, hn⟩, rfl⟩
          · rintro ⟨x, ⟨hx, hn⟩, rfl⟩
            exact ⟨⟨x, hx, rfl⟩, hn⟩
        · simp only [lookup_filter, h4 id, seen]
          split <;> rfl
      · rw [if_neg hi]
        refine ⟨h3, fun id => ?_⟩
        simp only [seen]
        by_cases hid : i = id
        · subst hid
          rw [if_pos rfl, lookup_none.2 hi]; rfl
        · rw [if_neg hid]; exact h4 id
    | set l =>
      show Coherent tbl (setPlans rx tbl c l).1 ∧ _
      obtain ⟨a1, a2, a3, a4, _⟩ := setPlans_spec rx tbl c l
      have hl := hh l (by simp)
      refine ⟨a1, by rw [Ctx.step, a2]; rfl, ?_, fun id => ?_⟩
      · intro j
        rw [Ctx.step, a3, a4, keys_bulk l hl, h3 j]
      · rw [Ctx.step, a4, bulk_lookup _ _ (bulk_none l hl _), h4 id, seen, Option.map_map, Option.map_map]
        congr 1
        funext ls
        simp [applied, mapOf, List.foldl_append]

/-- C83, what the code does, for every history of one session: the values of a job are those it got
from the test plans that were in force when it was added, and then from each list of test plans set
since. Nothing is taken back. -/
theorem C83_history (evs : List Ev) (hh : ∀ l, .set l ∈ evs → Harmless rx tbl l) (id : Str) :
    (Ctx.run rx tbl (.fresh []) evs).jobs.lookup id = (seen id evs.reverse).map (applied rx tbl id) := by
  have := (history (rx := rx) (tbl := tbl) evs.reverse (by simpa using hh)).2.2.2 id
  simpa using this

/-! A small engine for the examples, and two test plans: the first one makes job `a` a blocker, the
second one has no overrides. -/

private def exRx : Rx := ⟨fun _ => true, fun p i => decide (p = '^' :: i ++ ['$'])⟩

private def exTbl : Nat → Plan
  | 0 => .mk none (some [(['a'], [("certification-status".toList, "blocker".toList)])]) none none []
  | 1 => .mk none (some [(['a'], []), (['b'], [])]) none none []
  | _ => .mk none (some [(['b'], [("color".toList, "red".toList)])]) none none []

private def blocker : Eff := ⟨none, some "blocker".toList, none⟩

private theorem ex_harmless (n : Nat) (hn : n = 0 ∨ n = 1) : Harmless exRx exTbl [n] := by
  have hnodes : nodes (exTbl n) = [exTbl n] := by rcases hn with rfl | rfl <;> rfl
  have hcat : catStmts (exTbl n) = [] := by rcases hn with rfl | rfl <;> rfl
  refine harmless_of [n] ?_ ?_
  · intro p hp q hq _ r hr
    rw [List.mem_singleton.1 hp, hnodes] at hq
    rw [List.mem_singleton.1 hq, hnodes] at hr
    rw [List.mem_singleton.1 hr, hcat]
  · intro p hp s hs
    rw [List.mem_singleton.1 hp] at hs
    rcases hn with rfl | rfl
    · have h0 : stmts (exTbl 0) = [("^a$".toList, "certification_status".toList, "blocker".toList)] := by
        decide +kernel
      rw [h0] at hs
      rw [List.mem_singleton.1 hs]
      exact ⟨rfl, .inr (.inl rfl)⟩
    · have h1 : stmts (exTbl 1) = [] := by decide +kernel
      rw [h1] at hs
      cases hs

/-- A history with jobs added before and after, one of them twice, one removed, and two lists. -/
private def exEvs : List Ev :=
  [.add ['a'], .set [0], .add ['b'], .add ['c'], .remove ['c'], .add ['a'], .set [1], .add ['d']]

example : (∀ l, .set l ∈ exEvs → Harmless exRx exTbl l) ∧
    seen ['a'] exEvs.reverse = some [[], [0], [1]] ∧ seen ['b'] exEvs.reverse = some [[0], [1]] ∧
    seen ['c'] exEvs.reverse = none ∧ seen ['d'] exEvs.reverse = some [[1]] ∧
    (Ctx.run exRx exTbl (.fresh []) exEvs).jobs =
      [(['a'], blocker), (['b'], .initial), (['d'], .initial)] := by
  refine ⟨?_, by decide +kernel, by decide +kernel, by decide +kernel, by decide +kernel, by decide +kernel⟩
  intro l hl
  simp [exEvs] at hl
  rcases hl with rfl | rfl
  · exact ex_harmless 0 (.inl rfl)
  · exact ex_harmless 1 (.inr rfl)

/-! ## One list of test plans -/

/-- The values that these test plans give to a job. -/
def valuesOf (rx : Rx) (tbl : Nat → Plan) (l : List Nat) (id : Str) : Eff :=
  (overrideUpdate rx id .initial (computeOverrideMap (l.map tbl))).1

/-- Only these test plans have been used. -/
structure Only (rx : Rx) (tbl : Nat → Plan) (l : List Nat) (w : World) : Prop where
  inv : Inv tbl w
  plans : w.plans = [] ∨ w.plans = l
  ctxs : ∀ c ∈ w.ctxs, (c.plans = [] ∨ c.plans = l) ∧ (∀ i, i ∈ c.ids ↔ i ∈ c.jobs.map (·.1)) ∧
    ∀ x ∈ c.jobs, (x.2 = .initial ∨ x.2 = valuesOf rx tbl l x.1) ∧
      (c.plans = l → x.2 = valuesOf rx tbl l x.1)

/-- What `Only` says of one context. -/
def Fine (rx : Rx) (tbl : Nat → Plan) (l : List Nat) (c : Ctx) : Prop :=
  (c.plans = [] ∨ c.plans = l) ∧ (∀ i, i ∈ c.ids ↔ i ∈ c.jobs.map (·.1)) ∧
    ∀ x ∈ c.jobs, (x.2 = .initial ∨ x.2 = valuesOf rx tbl l x.1) ∧
      (c.plans = l → x.2 = valuesOf rx tbl l x.1)

theorem fine_fresh (l : List Nat) (ids : List Str) : Fine rx tbl l (.fresh ids) := by
  refine ⟨.inl rfl, by simp [Ctx.fresh], fun x hx => ?_⟩
  obtain ⟨i, _, rfl⟩ := List.mem_map.1 hx
  refine ⟨.inl rfl, fun h => ?_⟩
  have h' : l = [] := h.symm
  subst h'
  rfl

theorem harmless_nil : Harmless rx tbl [] := fun _ _ => rfl

theorem values_again (l : List Nat) (id : Str) :
    (overrideUpdate rx id (valuesOf rx tbl l id) (mapOf tbl l)).1 = valuesOf rx tbl l id := by
  unfold valuesOf mapOf
  rw [C31_idempotent]

theorem fine_set {l : List Nat} (hl : Harmless rx tbl l) {c : Ctx} (h : Fine rx tbl l c) {l' : List Nat}
    (hl' : l' = [] ∨ l' = l) : Fine rx tbl l (setPlans rx tbl c l').1 := by
  obtain ⟨h1, h2, h3⟩ := h
  have hh : Harmless rx tbl l' := by
    rcases hl' with rfl | rfl
    · exact harmless_nil
    · exact hl
  obtain ⟨_, a2, a3, a4, _⟩ := setPlans_spec rx tbl c l'
  refine ⟨by rw [a2]; exact hl', fun i => by rw [a3, a4, keys_bulk l' hh, h2 i], fun x hx => ?_⟩
  rw [a4, (C31_bulk rx _ _ (bulk_none l' hh _)).1] at hx
  obtain ⟨y, hy, rfl⟩ := List.mem_map.1 hx
  rw [a2]
  simp only
  rcases hl' with rfl | rfl
  · have : (overrideUpdate rx y.1 y.2 (mapOf tbl [])).1 = y.2 := rfl
    rw [this]
    refine ⟨(h3 y hy).1, fun hn => ?_⟩
    subst hn
    rcases (h3 y hy).1 with h | h <;> exact h
  · have : (overrideUpdate rx y.1 y.2 (mapOf tbl l')).1 = valuesOf rx tbl l' y.1 := by
      rcases (h3 y hy).1 with h | h
      · rw [h]; rfl
      · rw [h]; exact values_again l' y.1
    exact ⟨.inr this, fun _ => this⟩

theorem fine_add {l : List Nat} (hl : Harmless rx tbl l) {c : Ctx} (hc : Coherent tbl c)
    (h : Fine rx tbl l c) (id : Str) : Fine rx tbl l (addJob rx tbl c id).1 := by
  by_cases hi : id ∈ c.jobs.map (·.1)
  · rw [addJob_old hi]; exact h
  · obtain ⟨h1, h2, h3⟩ := h
    obtain ⟨_, a2, a3, a4, _⟩ := addJob_new (rx := rx) hc hi
    have hn : (overrideUpdate rx id .initial (mapOf tbl c.plans)).2 = none := by
      rcases h1 with h | h
      · rw [h]; rfl
      · rw [h]; exact hl id _
    rw [if_pos hn] at a4
    refine ⟨by rw [a2]; exact h1, fun i => ?_, fun x hx => ?_⟩
    · rw [a3, a4, List.mem_append, List.map_append, List.mem_append, h2 i]; simp
    · rw [a3] at hx
      rw [a2]
      rcases List.mem_append.1 hx with hx | hx
      · exact h3 x hx
      · rw [List.mem_singleton.1 hx]
        simp only
        refine ⟨?_, fun h => by rw [h]; rfl⟩
        rcases h1 with h | h
        · rw [h]; exact .inl rfl
        · rw [h]; exact .inr rfl

theorem fine_remove {l : List Nat} {c : Ctx} (h : Fine rx tbl l c) (id : Str) :
    Fine rx tbl l (removeJob c id).1 := by
  obtain ⟨h1, h2, h3⟩ := h
  unfold removeJob
  split
  · split
    · refine ⟨h1, fun j => ?_, fun x hx => h3 x (List.mem_filter.1 hx).1⟩
      simp only [List.mem_filter, h2 j, List.mem_map, decide_eq_true_eq]
      constructor
      · rintro ⟨⟨x, hx, rfl⟩, hn⟩
        exact ⟨x, ⟨hx, hn⟩, rfl⟩
      · rintro ⟨x, ⟨hx, hn⟩, rfl⟩
        exact ⟨⟨x, hx, rfl⟩, hn⟩
    · exact ⟨h1, h2, h3⟩
  · exact ⟨h1, h2, h3⟩

theorem on_fine {l : List Nat} {w : World} (h : ∀ c ∈ w.ctxs, Fine rx tbl l c) {k : Nat}
    {f : Ctx → Ctx × Option Err} (hf : ∀ c ∈ w.ctxs, Fine rx tbl l (f c).1) :
    ∀ c ∈ (w.on k f).1.ctxs, Fine rx tbl l c := by
  intro c hc
  obtain ⟨j, hj⟩ := List.mem_iff_getElem?.1 hc
  rcases (on_spec (w := w) (k := k) (f := f)).2.2.2 j c hj with ⟨_, h'⟩ | ⟨_, c0, hc0, rfl⟩
  · exact h c (List.mem_of_getElem? h')
  · exact hf c0 (List.mem_of_getElem? hc0)

theorem propagate_fine {l : List Nat} (hl : Harmless rx tbl l) {w : World}
    (h : ∀ c ∈ w.ctxs, Fine rx tbl l c) (hp : w.plans = [] ∨ w.plans = l) :
    (World.propagate rx tbl w).1.plans = w.plans ∧
      ∀ c ∈ (World.propagate rx tbl w).1.ctxs, Fine rx tbl l c := by
  unfold World.propagate
  cases w.here with
  | none => exact ⟨rfl, h⟩
  | some k => exact ⟨(on_spec (w := w)).2.1, on_fine h fun c hc => fine_set hl (h c hc) hp⟩

theorem only_step {l : List Nat} (hl : Harmless rx tbl l) {w : World} (h : Only rx tbl l w) (op : Op)
    (ho : ∀ l', op = .assign l' → l' = [] ∨ l' = l) : Only rx tbl l (w.step rx tbl op).1 := by
  have hf : ∀ c ∈ w.ctxs, Fine rx tbl l c := h.ctxs
  suffices hs : ((w.step rx tbl op).1.plans = [] ∨ (w.step rx tbl op).1.plans = l) ∧
      ∀ c ∈ (w.step rx tbl op).1.ctxs, Fine rx tbl l c from
    ⟨inv_step h.inv op, hs.1, hs.2⟩
  cases op with
  | create ids =>
    refine ⟨h.plans, fun c hc => ?_⟩
    rcases List.mem_append.1 hc with hc | hc
    · exact hf c hc
    · rw [List.mem_singleton.1 hc]; exact fine_fresh l ids
  | add k id =>
    refine ⟨?_, on_fine hf fun c hc => fine_add hl (h.inv.coh c hc) (hf c hc) id⟩
    have := (on_spec (w := w) (k := k) (f := fun c => addJob rx tbl c id)).2.1
    simp only [World.step]
    rw [this]
    exact h.plans
  | remove k id =>
    refine ⟨?_, on_fine hf fun c hc => fine_remove (hf c hc) id⟩
    have := (on_spec (w := w) (k := k) (f := fun c => removeJob c id)).2.1
    simp only [World.step]
    rw [this]
    exact h.plans
  | assign l' =>
    simp only [World.step]
    split
    · exact ⟨h.plans, hf⟩
    · obtain ⟨a, b⟩ := propagate_fine (w := { w with plans := l' }) hl hf (ho l' rfl)
      exact ⟨by rw [a]; exact ho l' rfl, b⟩
  | attach k =>
    simp only [World.step]
    cases w.here with
    | some j => exact ⟨h.plans, hf⟩
    | none =>
      cases w.ctxs[k]? with
      | none => exact ⟨h.plans, hf⟩
      | some c =>
        obtain ⟨a, b⟩ := propagate_fine (w := { w with here := some k }) hl hf h.plans
        exact ⟨by rw [a]; exact h.plans, b⟩
  | detach => exact ⟨h.plans, hf⟩

theorem only_run {l : List Nat} (hl : Harmless rx tbl l) (o : Option (List Str)) (ops : List Op)
    (ho : ∀ l', .assign l' ∈ ops → l' = [] ∨ l' = l) : Only rx tbl l (World.run rx tbl (.init o) ops) := by
  have key : ∀ (ops : List Op) (w : World), (∀ l', .assign l' ∈ ops → l' = [] ∨ l' = l) →
      Only rx tbl l w → Only rx tbl l (World.run rx tbl w ops) := by
    intro ops
    induction ops with
    | nil => exact fun w _ h => h
    | cons op ops ih =>
      intro w ho h
      exact ih _ (fun l' h' => ho l' (List.mem_cons_of_mem _ h'))
        (only_step hl h op fun l' e => ho l' (by rw [e]; exact List.mem_cons_self))
  refine key ops _ ho ⟨inv_init tbl o, .inl (by cases o <;> rfl), ?_⟩
  intro c hc
  cases o with
  | none => cases hc
  | some ids => rw [List.mem_singleton.1 hc]; exact fine_fresh l ids

/-- C83, when a session uses one list of test plans (and none before or in between), whose patterns
compile and whose fields exist: whenever a job was added (before the test plans were chosen, afterwards,
while the context was elsewhere), if its session has the test plans now then each field has the value of
the last statement that applies to the job, or the job's own value without such a statement (the
statements for the field using one pattern, as in C31); and the job can be found by its id. -/
theorem C83_values_partial (l : List Nat) (hc : ∀ p ∈ l, CatOK (tbl p))
    (hv : ∀ p ∈ l, ∀ s ∈ stmts (tbl p), rx.valid s.1 = true ∧ Known s.2.1)
    (o : Option (List Str)) (ops : List Op) (ho : ∀ l', .assign l' ∈ ops → l' = [] ∨ l' = l)
    (hp : (World.run rx tbl (.init o) ops).plans = l) (k : Nat) (c : Ctx)
    (hk : (World.run rx tbl (.init o) ops).here = some k)
    (hck : (World.run rx tbl (.init o) ops).ctxs[k]? = some c) (id : Str) (e : Eff) (hj : (id, e) ∈ c.jobs)
    (f : Str) (hf : Known f) (hsame : ∀ s ∈ applicable rx (l.map tbl) id f,
      ∀ s' ∈ applicable rx (l.map tbl) id f, s.1 = s'.1) (jobValue : Option Str) :
    id ∈ c.ids ∧
    (∀ s, (applicable rx (l.map tbl) id f).getLast? = some s →
      effective (getField e f) jobValue = some s.2.2) ∧
    (applicable rx (l.map tbl) id f = [] → effective (getField e f) jobValue = jobValue) := by
  have h := only_run (harmless_of l hc hv) o ops ho
  have hm := List.mem_of_getElem? hck
  obtain ⟨_, h2, h3⟩ := h.ctxs c hm
  have he : e = valuesOf rx tbl l id := (h3 _ hj).2 (by rw [h.inv.prop k c hk hck]; exact hp)
  obtain ⟨e', he', h4, h5⟩ := C31_seen_partial rx (l.map tbl) id f jobValue (by simpa using hc)
    (by simpa using hv) hf hsame
  have : e = e' := by rw [he]; unfold valuesOf; rw [he']
  subst this
  exact ⟨(h2 id).2 (List.mem_map.2 ⟨_, hj, rfl⟩), h4, h5⟩

/-- A job from the start, one added later, one added after the test plans were chosen, one added while
the context was not in the session. -/
private def exOps : List Op :=
  [.add 0 ['b'], .assign [0], .add 0 ['c'], .detach, .assign [], .create [['z']], .add 0 ['d'], .assign [0], .attach 0]

example : (World.run exRx exTbl (.init (some [['a']])) exOps).plans = [0] ∧
    (World.run exRx exTbl (.init (some [['a']])) exOps).here = some 0 ∧
    (World.run exRx exTbl (.init (some [['a']])) exOps).ctxs =
      [⟨[(['a'], blocker), (['b'], .initial), (['c'], .initial), (['d'], .initial)],
        [['a'], ['b'], ['c'], ['d']], [0], some [("^a$".toList, [("certification_status".toList, "blocker".toList)])]⟩,
       ⟨[(['z'], .initial)], [['z']], [], none⟩] := by
  refine ⟨by decide +kernel, by decide +kernel, by decide +kernel⟩

/-- Assigning the plans that are assigned already does nothing, to the jobs or to anything else, even if an earlier
assignment raised or the values of a job were changed in the meantime. -/
theorem C83_again (w : World) (l : List Nat) (h : w.plans = l) : w.step rx tbl (.assign l) = (w, none) := by
  subst h
  simp [World.step]

example : (World.run exRx exTbl (.init (some [['a']])) [.assign [0]]).plans = [0] := by decide +kernel

/-- C83, independence of order: under the same conditions two histories that end with a job in the
session end with the same values for it. -/
theorem C83_order_partial (l : List Nat) (hl : Harmless rx tbl l) (o o' : Option (List Str))
    (ops ops' : List Op) (ho : ∀ l', .assign l' ∈ ops ++ ops' → l' = [] ∨ l' = l)
    (k k' : Nat) (c c' : Ctx) (hck : (World.run rx tbl (.init o) ops).ctxs[k]? = some c)
    (hck' : (World.run rx tbl (.init o') ops').ctxs[k']? = some c') (hp : c.plans = l) (hp' : c'.plans = l)
    (id : Str) (e e' : Eff) (hj : (id, e) ∈ c.jobs) (hj' : (id, e') ∈ c'.jobs) : e = e' := by
  have h := only_run hl o ops fun l' h => ho l' (List.mem_append_left _ h)
  have h' := only_run hl o' ops' fun l' h => ho l' (List.mem_append_right _ h)
  have a : e = _ := ((h.ctxs c (List.mem_of_getElem? hck)).2.2 _ hj).2 hp
  have b : e' = _ := ((h'.ctxs c' (List.mem_of_getElem? hck')).2.2 _ hj').2 hp'
  rw [a, b]

/-- The job `a` before and after the choice of test plans. -/
example : ((World.run exRx exTbl (.init (some [['a']])) [.assign [0]]).ctxs[0]?.map (·.jobs)) = some [(['a'], blocker)] ∧
    ((World.run exRx exTbl (.init none) [.create [], .attach 0, .assign [0], .add 0 ['a']]).ctxs[0]?.map (·.jobs)) =
      some [(['a'], blocker)] := by decide +kernel

/-! ## Violations -/

/-- C83 is violated when the test plans of a session change: a job that was there keeps the values of
the test plans that are no longer in effect, while the same job added afterwards does not have them. -/
theorem C83_changed_violated (l : List Nat) (hl : Harmless rx tbl l) (id : Str)
    (hne : valuesOf rx tbl l id ≠ .initial) :
    (Ctx.run rx tbl (.fresh []) [.add id, .set l, .set []]).plans =
      (Ctx.run rx tbl (.fresh []) [.set l, .set [], .add id]).plans ∧
    (Ctx.run rx tbl (.fresh []) [.add id, .set l, .set []]).jobs = [(id, valuesOf rx tbl l id)] ∧
    (Ctx.run rx tbl (.fresh []) [.set l, .set [], .add id]).jobs = [(id, .initial)] ∧
    valuesOf rx tbl l id ≠ .initial := by
  refine ⟨?_, ?_, ?_, hne⟩
  · have a := (history (rx := rx) (tbl := tbl) [.set [], .set l, .add id] (by
      intro l' h; simp at h; rcases h with rfl | rfl <;> first | exact harmless_nil | exact hl)).2.1
    have b := (history (rx := rx) (tbl := tbl) [.add id, .set [], .set l] (by
      intro l' h; simp at h; rcases h with rfl | rfl <;> first | exact harmless_nil | exact hl)).2.1
    exact a.trans b.symm
  · show (setPlans rx tbl (setPlans rx tbl (addJob rx tbl (.fresh []) id).1 l).1 []).1.jobs = _
    rw [(setPlans_spec rx tbl _ []).2.2.2.1, (setPlans_spec rx tbl _ l).2.2.2.1,
      (addJob_new (rx := rx) (c := .fresh []) (id := id) (.inl rfl) (by simp [Ctx.fresh])).2.2.1,
      (C31_bulk rx _ _ (bulk_none l hl _)).1]
    rfl
  · simp [Ctx.run, Ctx.step, addJob, setPlans, overrideMap, Ctx.fresh, overrideUpdate, mapOf,
      computeOverrideMap]

example : Harmless exRx exTbl [0] ∧ valuesOf exRx exTbl [0] ['a'] ≠ .initial :=
  ⟨ex_harmless 0 (.inl rfl), by decide +kernel⟩

/-- C83 is violated when an override does not work (an unknown field, a pattern that does not compile)
and applies to a job that is added: the call raises, but the job is in the session, with part of its
values; it cannot be found by its id, and removing it raises as well and leaves it there. -/
theorem C83_raised_violated (c : Ctx) (hc : Coherent tbl c) (id : Str) (hn : id ∉ c.jobs.map (·.1))
    (hi : id ∉ c.ids) (x : Exc)
    (hx : (overrideUpdate rx id .initial (computeOverrideMap (c.plans.map tbl))).2 = some x) :
    (addJob rx tbl c id).2 = some (.raised x) ∧
    id ∈ (addJob rx tbl c id).1.jobs.map (·.1) ∧ id ∉ (addJob rx tbl c id).1.ids ∧
    removeJob (addJob rx tbl c id).1 id = ((addJob rx tbl c id).1, some .keyError) := by
  obtain ⟨_, _, a3, a4, a5⟩ := addJob_new (rx := rx) hc hn
  have hx' : (overrideUpdate rx id .initial (mapOf tbl c.plans)).2 = some x := hx
  have h1 : id ∈ (addJob rx tbl c id).1.jobs.map (·.1) := by rw [a3]; simp
  have h2 : id ∉ (addJob rx tbl c id).1.ids := by rw [a4, hx']; simpa using hi
  refine ⟨by rw [a5, hx']; rfl, h1, h2, ?_⟩
  unfold removeJob
  rw [if_pos h1, if_neg h2]

example : addJob exRx exTbl (Ctx.run exRx exTbl (.fresh []) [.set [2]]) ['b'] =
    (⟨[(['b'], .initial)], [], [2], some [("^b$".toList, [("color".toList, "red".toList)])]⟩,
      some (.raised .attributeError)) := by decide +kernel

end Verif.Effects
