import Verif.Model.Effects
import Verif.Props.Overrides

/-! # Lemmas for C83 -/

namespace Verif.Effects

open Verif.Overrides
open Verif.Pattern (Str)

/-- The remembered map is the one of the test plans. -/
def Coherent (tbl : Nat → Plan) (c : Ctx) : Prop := c.cache = none ∨ c.cache = some (mapOf tbl c.plans)

theorem overrideMap_spec {tbl : Nat → Plan} {c : Ctx} (h : Coherent tbl c) :
    (overrideMap tbl c).1 = mapOf tbl c.plans ∧ Coherent tbl (overrideMap tbl c).2 ∧
      (overrideMap tbl c).2.jobs = c.jobs ∧ (overrideMap tbl c).2.ids = c.ids ∧
      (overrideMap tbl c).2.plans = c.plans := by
  unfold overrideMap
  rcases h with h | h <;> simp [h, Coherent]

theorem bulk_nil (rx : Rx) (m : OMap) : bulkUpdate rx m [] = ([], none) := rfl

theorem setPlans_spec (rx : Rx) (tbl : Nat → Plan) (c : Ctx) (l : List Nat) :
    Coherent tbl (setPlans rx tbl c l).1 ∧ (setPlans rx tbl c l).1.plans = l ∧
      (setPlans rx tbl c l).1.ids = c.ids ∧
      (setPlans rx tbl c l).1.jobs = (bulkUpdate rx (mapOf tbl l) c.jobs).1 ∧
      (setPlans rx tbl c l).2 = (bulkUpdate rx (mapOf tbl l) c.jobs).2.map .raised := by
  unfold setPlans
  by_cases hj : c.jobs = []
  · simp [hj, Coherent, bulk_nil]
  · simp [hj, Coherent, overrideMap]

theorem addJob_old {rx : Rx} {tbl : Nat → Plan} {c : Ctx} {id : Str} (h : id ∈ c.jobs.map (·.1)) :
    addJob rx tbl c id = (c, none) := by
  unfold addJob
  rw [if_pos h]

theorem addJob_new {rx : Rx} {tbl : Nat → Plan} {c : Ctx} {id : Str} (hc : Coherent tbl c)
    (h : id ∉ c.jobs.map (·.1)) :
    Coherent tbl (addJob rx tbl c id).1 ∧ (addJob rx tbl c id).1.plans = c.plans ∧
      (addJob rx tbl c id).1.jobs =
        c.jobs ++ [(id, (overrideUpdate rx id .initial (mapOf tbl c.plans)).1)] ∧
      (addJob rx tbl c id).1.ids =
        (if (overrideUpdate rx id .initial (mapOf tbl c.plans)).2 = none then c.ids ++ [id] else c.ids) ∧
      (addJob rx tbl c id).2 = (overrideUpdate rx id .initial (mapOf tbl c.plans)).2.map .raised := by
  obtain ⟨h1, h2, h3, h4, h5⟩ := overrideMap_spec hc
  unfold addJob
  rw [if_neg h]
  generalize overrideMap tbl c = p at h1 h2 h3 h4 h5
  obtain ⟨m, c'⟩ := p
  simp only at h1 h2 h3 h4 h5
  subst h1
  simp only
  generalize overrideUpdate rx id .initial (mapOf tbl c.plans) = r
  obtain ⟨e, x⟩ := r
  cases x <;> simp_all [Coherent]

theorem addJob_coherent {rx : Rx} {tbl : Nat → Plan} {c : Ctx} {id : Str} (hc : Coherent tbl c) :
    Coherent tbl (addJob rx tbl c id).1 ∧ (addJob rx tbl c id).1.plans = c.plans := by
  by_cases h : id ∈ c.jobs.map (·.1)
  · rw [addJob_old h]; exact ⟨hc, rfl⟩
  · exact ⟨(addJob_new hc h).1, (addJob_new hc h).2.1⟩

theorem removeJob_coherent {tbl : Nat → Plan} {c : Ctx} {id : Str} (hc : Coherent tbl c) :
    Coherent tbl (removeJob c id).1 ∧ (removeJob c id).1.plans = c.plans := by
  unfold removeJob
  split
  · split
    · exact ⟨hc, rfl⟩
    · exact ⟨hc, rfl⟩
  · exact ⟨hc, rfl⟩

theorem on_spec {w : World} {k : Nat} {f : Ctx → Ctx × Option Err} :
    (w.on k f).1.here = w.here ∧ (w.on k f).1.plans = w.plans ∧
      (w.on k f).1.ctxs.length = w.ctxs.length ∧
      ∀ j c, (w.on k f).1.ctxs[j]? = some c →
        (j ≠ k ∧ w.ctxs[j]? = some c) ∨ (j = k ∧ ∃ c0, w.ctxs[j]? = some c0 ∧ c = (f c0).1) := by
  unfold World.on
  cases hk : w.ctxs[k]? with
  | none =>
    refine ⟨rfl, rfl, rfl, fun j c h => ?_⟩
    by_cases hj : j = k
    · subst hj; simp [hk] at h
    · exact .inl ⟨hj, h⟩
  | some c0 =>
    refine ⟨rfl, rfl, by simp, fun j c h => ?_⟩
    by_cases hj : j = k
    · subst hj
      have hl := (List.getElem?_eq_some_iff.1 hk).1
      simp only [List.getElem?_set_self hl, Option.some.injEq] at h
      exact .inr ⟨rfl, c0, hk, h.symm⟩
    · simp only [List.getElem?_set_ne (Ne.symm hj)] at h
      exact .inl ⟨hj, h⟩

/-- What holds in every state: maps are up to date and the context of the manager has its test plans. -/
structure Inv (tbl : Nat → Plan) (w : World) : Prop where
  coh : ∀ c ∈ w.ctxs, Coherent tbl c
  ok : ∀ k, w.here = some k → k < w.ctxs.length
  prop : ∀ k c, w.here = some k → w.ctxs[k]? = some c → c.plans = w.plans

theorem inv_init (tbl : Nat → Plan) (o : Option (List Str)) : Inv tbl (.init o) := by
  cases o with
  | none => exact ⟨by simp [World.init], by simp [World.init], by simp [World.init]⟩
  | some ids =>
    refine ⟨by simp [World.init, Ctx.fresh, Coherent], by simp [World.init], ?_⟩
    intro k c h1 h2
    simp only [World.init, Option.some.injEq] at h1
    subst h1
    simp only [World.init, List.getElem?_cons_zero, Option.some.injEq] at h2
    subst h2
    rfl

theorem inv_on {tbl : Nat → Plan} {w : World} (h0 : Inv tbl w) {k : Nat} {f : Ctx → Ctx × Option Err}
    (hf : ∀ c, Coherent tbl c → Coherent tbl (f c).1 ∧ (f c).1.plans = c.plans) :
    Inv tbl (w.on k f).1 := by
  obtain ⟨h1, h2, h3, h4⟩ := on_spec (w := w) (k := k) (f := f)
  refine ⟨?_, by rw [h1, h3]; exact h0.ok, ?_⟩
  · intro c hc
    obtain ⟨j, hj⟩ := List.mem_iff_getElem?.1 hc
    rcases h4 j c hj with ⟨_, h⟩ | ⟨_, c0, hc0, rfl⟩
    · exact h0.coh c (List.mem_of_getElem? h)
    · exact (hf c0 (h0.coh c0 (List.mem_of_getElem? hc0))).1
  · intro j c hj hc
    rw [h1] at hj
    rw [h2]
    rcases h4 j c hc with ⟨_, h'⟩ | ⟨_, c0, hc0, rfl⟩
    · exact h0.prop j c hj h'
    · rw [(hf c0 (h0.coh c0 (List.mem_of_getElem? hc0))).2]
      exact h0.prop j c0 hj hc0

theorem inv_propagate {rx : Rx} {tbl : Nat → Plan} {w : World} (h : ∀ c ∈ w.ctxs, Coherent tbl c)
    (hk : ∀ k, w.here = some k → k < w.ctxs.length) : Inv tbl (World.propagate rx tbl w).1 := by
  unfold World.propagate
  cases hh : w.here with
  | none => exact ⟨h, by simp [hh], by simp [hh]⟩
  | some k =>
    simp only
    obtain ⟨h1, h2, h3, h4⟩ := on_spec (w := w) (k := k) (f := fun c => setPlans rx tbl c w.plans)
    refine ⟨?_, by rw [h1, h3]; exact hk, ?_⟩
    · intro c hc
      obtain ⟨j, hj⟩ := List.mem_iff_getElem?.1 hc
      rcases h4 j c hj with ⟨_, h'⟩ | ⟨_, c0, hc0, rfl⟩
      · exact h c (List.mem_of_getElem? h')
      · exact (setPlans_spec rx tbl c0 w.plans).1
    · intro j c hj hc
      rw [h1, hh] at hj
      cases hj
      rw [h2]
      rcases h4 k c hc with ⟨h', _⟩ | ⟨_, c0, hc0, rfl⟩
      · exact absurd rfl h'
      · exact (setPlans_spec rx tbl c0 w.plans).2.1

theorem inv_step {rx : Rx} {tbl : Nat → Plan} {w : World} (h : Inv tbl w) (op : Op) :
    Inv tbl (w.step rx tbl op).1 := by
  cases op with
  | create ids =>
    refine ⟨?_, ?_, ?_⟩
    · intro c hc
      rcases List.mem_append.1 hc with hc | hc
      · exact h.coh c hc
      · rw [List.mem_singleton.1 hc]; exact .inl rfl
    · intro k hk
      have := h.ok k hk
      simp only [World.step, List.length_append]
      omega
    · intro k c hk hc
      have hc' : (w.ctxs ++ [Ctx.fresh ids])[k]? = some c := hc
      rw [List.getElem?_append_left (h.ok k hk)] at hc'
      exact h.prop k c hk hc'
  | add k id => exact inv_on h fun c hc => addJob_coherent hc
  | remove k id => exact inv_on h fun c hc => removeJob_coherent hc
  | assign l =>
    simp only [World.step]
    split
    · exact h
    · exact inv_propagate h.coh h.ok
  | attach k =>
    simp only [World.step]
    cases hh : w.here with
    | some j => exact h
    | none =>
      cases hk : w.ctxs[k]? with
      | none => exact h
      | some c =>
        refine inv_propagate h.coh fun j hj => ?_
        cases hj
        exact (List.getElem?_eq_some_iff.1 hk).1
  | detach => exact ⟨h.coh, by simp [World.step], by simp [World.step]⟩

end Verif.Effects
